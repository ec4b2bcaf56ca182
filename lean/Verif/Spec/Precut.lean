import Verif.Spec.Auto

/-! Specification of the custom fusion structure files: what a file says, independently of how it is read
(README.md, section on `.fst` and `.precut`). -/

namespace Pluto

/-- Text of a `.fst` file for the given components: for each the identifiers of its statements and the
number that says whether to tile it. -/
def fstText (comps : List (List Nat × Int)) : List Int :=
  (comps.length : Int) :: comps.flatMap (fun c => (c.1.length : Int) :: (c.1.map (fun i : Nat => (i : Int)) ++ [c.2]))

/-- Statement `i` is in component `c`. -/
def InComp (comps : List (List Nat × Int)) (i c : Nat) : Prop := ∃ x, comps[c]? = some x ∧ i ∈ x.1

/-- The components partition the statements `0, ..., n - 1`: every identifier names a statement and every
statement is in exactly one component. -/
structure Partition (n : Nat) (comps : List (List Nat × Int)) : Prop where
  ids : ∀ i c, InComp comps i c → i < n
  all : ∀ i < n, ∃ c, InComp comps i c
  one : ∀ i c c', InComp comps i c → InComp comps i c' → c = c'

/-- One row of a `.precut` file: coefficients of the loops, of the parameters, and the constant. -/
structure CutRow where
  loops : List Int
  params : List Int
  const : Int

/-- What a `.precut` file says about one statement. -/
structure CutStmt where
  rows : List CutRow
  unused : Int
  tiles : List Int

/-- A row in the file: a zero, then the coefficients and the constant. -/
def CutRow.text (r : CutRow) : List Int := 0 :: (r.loops ++ r.params ++ [r.const])

/-- Value of a row at iterators `x` and parameters `q`. -/
def CutRow.value (r : CutRow) (x q : List Int) : Int := aff (r.loops ++ r.params ++ [r.const]) (x ++ q)

/-- A statement with `n` loops in the file. -/
def CutStmt.text (n npar : Nat) (s : CutStmt) : List Int :=
  (s.rows.length : Int) :: ((1 + n + npar + 1 : Nat) : Int) :: (s.rows.flatMap CutRow.text ++ s.unused :: s.tiles)

/-- Text of a `.precut` file for a program with the given statements. -/
def precutText (p : Prog) (depth : Nat) (l : List CutStmt) : List Int :=
  (l.length : Int) :: (depth : Int) :: (List.zipWith (fun (st : Stmt) s => CutStmt.text st.dim p.npar s) p.stmts l).flatten

/-- The file fits the program: one entry for every statement, `m` rows each, of the right lengths. -/
structure CutFits (p : Prog) (depth m : Nat) (l : List CutStmt) : Prop where
  len : l.length = p.stmts.length
  rows : ∀ s ∈ l, s.rows.length = m ∧ s.tiles.length = depth
  cols : ∀ (i : Nat) s, l[i]? = some s → ∀ r ∈ s.rows, r.loops.length = p.dim i ∧ r.params.length = p.npar

/-- Values of the rows that the file gives for statement `i` at iterators `x`, parameters `q`. -/
def fileTime (l : List CutStmt) (i : Nat) (x q : List Int) : List Int :=
  ((l[i]?.map CutStmt.rows).getD []).map (fun r => r.value x q)

end Pluto
