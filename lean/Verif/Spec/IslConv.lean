import Verif.Model.IslConv
import Verif.Spec.Affine

/-! What isl objects stand for, and what the isl functions used guarantee. -/

namespace Pluto

/-- The relation of an `isl_basic_map`: `x` and `y` are related under the parameters `q` if some values of
the existentially quantified variables satisfy all constraints. -/
def BMap.Has (b : BMap) (x y q : List Int) : Prop :=
  x.length = b.nin ∧ y.length = b.nout ∧ q.length = b.npar ∧
  ∃ z : List Int, z.length = b.ndiv ∧ (∀ r ∈ b.eqs, aff r (x ++ y ++ z ++ q) = 0) ∧ ∀ r ∈ b.ineqs, 0 ≤ aff r (x ++ y ++ z ++ q)

/-- All rows have a column per variable and one for the constant, and entries that fit `int64_t`. -/
structure BMap.WF (b : BMap) : Prop where
  rows : ∀ r ∈ b.eqs ++ b.ineqs, r.length = b.nin + b.nout + b.ndiv + b.npar + 1
  small : ∀ r ∈ b.eqs ++ b.ineqs, ∀ v ∈ r, -(2 ^ 63) ≤ v ∧ v < 2 ^ 63

/-- A set without parameters. -/
def BMap.IsSet (b : BMap) (n : Nat) : Prop := b.nin = 0 ∧ b.npar = 0 ∧ b.nout = n

/-- The points of an `isl_set` (without parameters). -/
def HasAny (s : List BMap) (y : List Int) : Prop := ∃ b ∈ s, b.Has [] y []

/-- The entries of a system fit in `bits` bits (signed). -/
def Cst.Fits (bits : Nat) (c : Cst) : Prop := ∀ r ∈ c.rows, ∀ v ∈ r.val, -(2 ^ (bits - 1)) ≤ v ∧ v < 2 ^ (bits - 1)

/-- A set over `n` dimensions as isl keeps it: well-formed, without existentially quantified variables. -/
def SetOK (n : Nat) (s : List BMap) : Prop := ∀ b ∈ s, b.WF ∧ b.IsSet n ∧ b.ndiv = 0

/-- What is used of isl. `removeDivs` keeps dimensions, removes the quantified variables, and gives a
relation that contains the given one, and exactly that if there were none. Union and intersection are exact and introduce no
quantified variables (entries are assumed to stay within `int64_t`). Projection is exact; it may introduce quantified variables. -/
structure IslOps.OK (ops : IslOps) : Prop where
  removeDivs : ∀ b : BMap, b.WF → let c := ops.removeDivs b
    c.WF ∧ c.ndiv = 0 ∧ c.nin = b.nin ∧ c.nout = b.nout ∧ c.npar = b.npar ∧ (∀ x y q, b.Has x y q → c.Has x y q) ∧
    (b.ndiv = 0 → ∀ x y q, c.Has x y q → b.Has x y q)
  union : ∀ n s t, SetOK n s → SetOK n t → SetOK n (ops.union s t) ∧ ∀ y, HasAny (ops.union s t) y ↔ HasAny s y ∨ HasAny t y
  intersect : ∀ n s t, SetOK n s → SetOK n t → SetOK n (ops.intersect s t) ∧ ∀ y, HasAny (ops.intersect s t) y ↔ HasAny s y ∧ HasAny t y
  projectSet : ∀ b n k m, b.WF → b.IsSet n → b.ndiv = 0 → k + m ≤ n → let c := ops.projectSet b k m
    c.WF ∧ c.IsSet (n - m) ∧ ∀ y, c.Has [] y [] ↔ ∃ x z w : List Int, x.length = k ∧ z.length = m ∧ y = x ++ w ∧ b.Has [] (x ++ z ++ w) []
  projectIn : ∀ (b : BMap) m, b.WF → m ≤ b.nin → let c := ops.projectIn b m
    c.nin = b.nin - m ∧ c.nout = b.nout ∧ c.npar = b.npar ∧
    ∀ x y q, c.Has x y q ↔ ∃ z : List Int, z.length = m ∧ b.Has (z ++ x) y q

end Pluto
