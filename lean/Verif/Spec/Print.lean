import Verif.Spec.Affine

/-!
Specification for printed affine functions: how a text like `2i-j+(i+j)/32+3` is read, and what a tile dimension is. Nothing here
depends on the model.
-/

namespace Pluto

/-- Is the character a decimal digit? -/
def isDec (c : Char) : Bool := decide (48 ≤ c.toNat ∧ c.toNat ≤ 57)

/-- The number with the given decimal digits. -/
def decVal (s : List Char) : Int := s.foldl (fun a c => 10 * a + ((c.toNat : Int) - 48)) 0

/-- Split a text at the signs `+`, `-` that are not in parentheses (`d` are open): the part before the first sign, and for each
sign whether it is a minus and the part up to the next one. -/
def splitTop : Nat → List Char → List Char × List (Bool × List Char)
  | _, [] => ([], [])
  | d, c :: s =>
    if d = 0 ∧ (c = '+' ∨ c = '-') then
      let r := splitTop 0 s
      ([], (decide (c = '-'), r.1) :: r.2)
    else
      let r := splitTop (if c = '(' then d + 1 else if c = ')' then d - 1 else d) s
      (c :: r.1, r.2)

/-- The value of a term: a number, something read by `atom`, or a number directly followed by such a thing (their product). -/
def termVal (atom : List Char → Option Int) (s : List Char) : Option Int :=
  let ds := s.takeWhile isDec
  let a := s.dropWhile isDec
  match ds, a with
  | [], [] => none
  | _ :: _, [] => some (decVal ds)
  | [], _ :: _ => atom a
  | _ :: _, _ :: _ => (atom a).map (fun v => decVal ds * v)

/-- The value of the signed terms of a sum. -/
def restVal (atom : List Char → Option Int) : List (Bool × List Char) → Option Int
  | [] => some 0
  | (neg, s) :: l =>
    match termVal atom s, restVal atom l with
    | some v, some w => some ((if neg then -v else v) + w)
    | _, _ => none

/-- The value of a text that is a sum of signed terms; the first term may have no sign. -/
def readSum (atom : List Char → Option Int) (s : List Char) : Option Int :=
  match splitTop 0 s with
  | ([], []) => none
  | ([], l) => restVal atom l
  | (b, l) =>
    match termVal atom b, restVal atom l with
    | some v, some w => some (v + w)
    | _, _ => none

/-- A sum of terms in named variables whose values are given by `σ`. -/
def readPlain (σ : List Char → Int) (s : List Char) : Option Int := readSum (fun a => some (σ a)) s

/-- A variable, a variable divided by a number, or a sum in parentheses divided by a number; division rounds down. -/
def readAtom (σ : List Char → Int) (s : List Char) : Option Int :=
  let T := s.reverse.takeWhile isDec
  match s.reverse.dropWhile isDec with
  | '/' :: ')' :: f =>
    match f.reverse with
    | '(' :: g => (readPlain σ g).map (fun v => v / decVal T.reverse)
    | _ => none
  | '/' :: f => some (σ f.reverse / decVal T.reverse)
  | _ => some (σ s)

/-- A text for a hyperplane: a sum of terms in variables and quotients. -/
def readText (σ : List Char → Int) (s : List Char) : Option Int := readSum (readAtom σ) s

/-- Names of variables as in C: letters, digits and underscores, the first character not a digit. -/
def IsName (s : List Char) : Prop := s ≠ [] ∧ (∀ c ∈ s, c.isAlphanum = true ∨ c = '_') ∧ ∀ c ∈ s.head?, isDec c = false

instance (s : List Char) : Decidable (IsName s) := by unfold IsName; infer_instance

/-- Everywhere in the domain variable `pos` is the rounded down quotient of the affine function `f` of the other variables by the
tile size `T`. -/
def IsTileDim (dom : Cst) (pos : Nat) (T : Int) (f : List Int) : Prop :=
  1 ≤ T ∧ f.length = dom.ncols ∧ f.getD pos 0 = 0 ∧
    ∀ x : List Int, x.length + 1 = dom.ncols → dom.Sat x → x.getD pos 0 = aff f x / T

/-- A tiled function that `pluto_stmt_print_hyperplane` can print without loss: a function of dimensions after `j` and of parameters with
coefficients below 1000, in variables with names of at most four characters; either a single variable or with at least two terms. -/
structure Printable (names : List (List Char)) (j : Nat) (f : List Int) : Prop where
  short : ∀ k, f.getD k 0 ≠ 0 → (names.getD k []).length ≤ 4 ∧ (f.getD k 0).natAbs < 1000
  later : ∀ k, k < j → f.getD k 0 = 0
  shape : (∃ k, f.getD k 0 = 1 ∧ ∀ m, m ≠ k → f.getD m 0 = 0) ∨ ∃ k m, k < m ∧ f.getD k 0 ≠ 0 ∧ f.getD m 0 ≠ 0

end Pluto
