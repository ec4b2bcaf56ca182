import Verif.Spec.Print
import Verif.Spec.Search
import Verif.Model.PrintCst

/-!
Specification for printed constraint systems: how such a text is read, and what a matrix in the format of PIP means. Of the model only
the type `PipMat` and the decimal digits `natDec` are used.
-/

namespace Pluto

/-- The lines of a text. -/
def textLines : List Char → List (List Char)
  | [] => [[]]
  | c :: s => if c = '\n' then [] :: textLines s else (textLines s).modifyHead (fun l => c :: l)

/-- The two sides of a relation `=` or `>=`, and whether it is `>=`; spaces do not count. -/
def splitRel (line : List Char) : List Char × Bool × List Char :=
  let s := line.filter (fun c => decide (c ≠ ' '))
  let a := s.takeWhile (fun c => decide (c ≠ '=' ∧ c ≠ '>'))
  let b := s.dropWhile (fun c => decide (c ≠ '=' ∧ c ≠ '>'))
  (a, decide (b.head? = some '>'), (b.dropWhile (fun c => decide (c ≠ '='))).tail)

/-- Does the relation in a line hold? Both sides are sums of terms in named variables with values given by `σ`. -/
def lineHolds (σ : List Char → Int) (line : List Char) : Option Bool :=
  let p := splitRel line
  match readPlain σ p.1, readPlain σ p.2.2 with
  | some a, some b => some (if p.2.1 then decide (b ≤ a) else decide (a = b))
  | _, _ => none

/-- Do all relations among the lines hold? Lines without a relation say nothing. -/
def linesHold (σ : List Char → Int) (ls : List (List Char)) : Option Bool :=
  ((ls.filter (fun l => decide ('=' ∈ l))).mapM (lineHolds σ)).map (fun bs => bs.all id)

/-- Does the printed system hold? -/
def systemHolds (σ : List Char → Int) (s : List Char) : Option Bool := linesHold σ (textLines s)

/-- The lines before the first heading `Set #n`, and for each such heading the lines after it. -/
def setsOf : List (List Char) → List (List Char) × List (List (List Char))
  | [] => ([], [])
  | l :: ls =>
    let r := setsOf ls
    if l.take 5 = ['S', 'e', 't', ' ', '#'] then ([], r.1 :: r.2) else (l :: r.1, r.2)

/-- Does one of the printed sets hold? -/
def unionHolds (σ : List Char → Int) (s : List Char) : Option Bool :=
  ((setsOf (textLines s)).2.mapM (linesHold σ)).map (fun bs => bs.any id)

/-- The name of column `j` in CPLEX texts: the given one, else `c_0`, `c_1` and so on. -/
def numberedAs (names : Option (List (List Char))) (j : Nat) : List Char :=
  match names with
  | some ns => ns.getD j []
  | none => 'c' :: '_' :: natDec j

/-- The name under which column `j` is known elsewhere: the given one, else `c_i`, `c_j` and so on. -/
def knownAs (names : Option (List (List Char))) (j : Nat) : List Char :=
  match names with
  | some ns => ns.getD j []
  | none => ['c', '_', Char.ofNat (105 + j)]

/-- Names for `n` columns, each with at most `m` characters; without names at most `d` columns. -/
def NamesFit (m d n : Nat) (names : Option (List (List Char))) : Prop :=
  match names with
  | some ns => n ≤ ns.length ∧ ∀ v ∈ ns, IsName v ∧ v.length ≤ m
  | none => n ≤ d

instance (m d n : Nat) (names : Option (List (List Char))) : Decidable (NamesFit m d n names) := by
  unfold NamesFit; cases names <;> simp only <;> infer_instance

/-- The values `σ` of the names are the entries of `x`. -/
def Reads (σ : List Char → Int) (name : Nat → List Char) (x : List Int) : Prop := ∀ j < x.length, σ (name j) = x.getD j 0

/-- Row `i` of a `PipMatrix`. -/
def PipMat.row (m : PipMat) (i : Nat) : List Int := (m.init.drop (i * m.ncols)).take m.ncols

/-- What a matrix means to PIP: the first entry of a row is 0 for an equality and 1 for an inequality. -/
def PipMat.Sat (m : PipMat) (x : List Int) : Prop :=
  ∀ i < m.nrows, ((m.row i).getD 0 0 = 0 → aff (m.row i).tail x = 0) ∧ ((m.row i).getD 0 0 ≠ 0 → 0 ≤ aff (m.row i).tail x)

/-- `pip_solve` without context and parameters. If the unknowns are non-negative (`urs` false), the least solution or nothing if there is
none; if they have any sign, nothing exactly if there is no solution, and the least solution if there is a least one. -/
structure PipOracle (pip : Bool → PipMat → Option (List Int)) : Prop where
  least : ∀ m x, 2 ≤ m.ncols → pip false m = some x → (x.length + 2 = m.ncols ∧ NonNeg x ∧ m.Sat x) ∧
    ∀ y : List Int, y.length + 2 = m.ncols → NonNeg y → m.Sat y → LexLe x y
  noPoint : ∀ m, 2 ≤ m.ncols → pip false m = none → ¬ ∃ y : List Int, y.length + 2 = m.ncols ∧ NonNeg y ∧ m.Sat y
  ursNone : ∀ m, 2 ≤ m.ncols → (pip true m = none ↔ ¬ ∃ y : List Int, y.length + 2 = m.ncols ∧ m.Sat y)
  ursLeast : ∀ m (x : List Int), 2 ≤ m.ncols → x.length + 2 = m.ncols → m.Sat x →
    (∀ y : List Int, y.length + 2 = m.ncols → m.Sat y → LexLe x y) → pip true m = some x

end Pluto
