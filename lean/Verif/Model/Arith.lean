import Mathlib.Data.Int.GCD
import Mathlib.Tactic.Ring
import Mathlib.Tactic.Linarith

/-! Model of the scalar arithmetic helpers of lib/math_support.c. -/

namespace Pluto

/-- `llabs` on a mathematical integer (lib/math_support.c uses it on `int64_t`; `llabs(INT64_MIN)`
is undefined in C and is excluded by the checked model `gcd64`). -/
def llabs (a : Int) : Int := if 0 ≤ a then a else -a

theorem llabs_natAbs (a : Int) : llabs a = (a.natAbs : Int) := by
  unfold llabs; split <;> omega

/-- `gcd`, lib/math_support.c:398-410, over unbounded integers (64-bit overflow: see `gcd64`).
`%` is C's truncated remainder. -/
def cgcd (a b : Int) : Int :=
  let a' := llabs a
  let b' := llabs b
  if a' * b' = 0 then a' + b'
  else if a' = b' then a'
  else if a' > b' then cgcd (a'.tmod b') b'
  else cgcd a' (b'.tmod a')
termination_by a.natAbs + b.natAbs
decreasing_by
  · rename_i h0 h1 h2
    simp only [a', b', llabs_natAbs] at h0 h1 h2 ⊢
    have hb : 0 < b.natAbs := Nat.pos_of_ne_zero fun h => h0 (by simp [h])
    have : Int.tmod (a.natAbs : Int) (b.natAbs : Int) = ((a.natAbs % b.natAbs : Nat) : Int) := rfl
    rw [this]
    have := Nat.mod_lt a.natAbs hb
    omega
  · rename_i h0 h1 h2
    simp only [a', b', llabs_natAbs] at h0 h1 h2 ⊢
    have ha : 0 < a.natAbs := Nat.pos_of_ne_zero fun h => h0 (by simp [h])
    have : Int.tmod (b.natAbs : Int) (a.natAbs : Int) = ((b.natAbs % a.natAbs : Nat) : Int) := rfl
    rw [this]
    have := Nat.mod_lt b.natAbs ha
    omega

/-- `lcm`, lib/math_support.c:391-395, over unbounded integers; `/` is C's truncated division. -/
def clcm (a b : Int) : Int :=
  if a * b = 0 then 0 else (a * b).tdiv (cgcd a b)

/-- Range of `int64_t`. -/
def inI64 (a : Int) : Bool := decide (-(2 ^ 63) ≤ a) && decide (a < 2 ^ 63)

/-- `gcd`, lib/math_support.c:398-410, with undefined behaviour (`llabs(INT64_MIN)`, overflow of
`a * b`) as the distinct outcome `none`. The sum `a + b` is only formed when one operand is 0. -/
def gcd64 (a b : Int) : Option Int :=
  let a' := llabs a
  let b' := llabs b
  if inI64 a' = false ∨ inI64 b' = false then none
  else if inI64 (a' * b') = false then none
  else if a' * b' = 0 then some (a' + b')
  else if a' = b' then some a'
  else if a' > b' then gcd64 (a'.tmod b') b'
  else gcd64 a' (b'.tmod a')
termination_by a.natAbs + b.natAbs
decreasing_by
  · rename_i _ _ h0 h1 h2
    simp only [a', b', llabs_natAbs] at h0 h1 h2 ⊢
    have hb : 0 < b.natAbs := Nat.pos_of_ne_zero fun h => h0 (by simp [h])
    have : Int.tmod (a.natAbs : Int) (b.natAbs : Int) = ((a.natAbs % b.natAbs : Nat) : Int) := rfl
    rw [this]
    have := Nat.mod_lt a.natAbs hb
    omega
  · rename_i _ _ h0 h1 h2
    simp only [a', b', llabs_natAbs] at h0 h1 h2 ⊢
    have ha : 0 < a.natAbs := Nat.pos_of_ne_zero fun h => h0 (by simp [h])
    have : Int.tmod (b.natAbs : Int) (a.natAbs : Int) = ((b.natAbs % a.natAbs : Nat) : Int) := rfl
    rw [this]
    have := Nat.mod_lt b.natAbs ha
    omega

/-- `lcm`, lib/math_support.c:391-395, with overflow as the distinct outcome `none`. -/
def lcm64 (a b : Int) : Option Int :=
  if inI64 (a * b) = false then none
  else if a * b = 0 then some 0
  else (gcd64 a b).map fun g => (a * b).tdiv g

/-- `min_lexical`, lib/math_support.c:412-424, on arrays of the same length: returns the
lexicographically smaller one, the first on ties. -/
def minLexicalGo (a b : List Int) : List Int → List Int → List Int
  | x :: xs, y :: ys => if x > y then b else if x < y then a else minLexicalGo a b xs ys
  | _, _ => a

/-- See `minLexicalGo`. -/
def minLexical (a b : List Int) : List Int := minLexicalGo a b a b

end Pluto
