import Verif.Model.Print

/-!
Model of the printing of constraint systems and of the conversion to the format of PIP (lib/constraints.c). Texts are lists of
characters. Everything is printed to one stream: some of the headings go to `stdout` and not to the file given, the callers give
`stdout`. `none` stands for a failed assertion, an unterminated buffer or (in `cplexPrint`) for a loop that does not end.
-/

namespace Pluto

/-- The name of column `j` in `pluto_constraints_compact_print_single` and `pluto_constraints_pretty_print`, lib/constraints.c:855-862
and 921-926: the first five characters of the given name, or `c_` and the character after `j` steps from `i` (a byte; 0 ends the text).
A list of names that is too short stands for names that are NULL. -/
def cstVar (names : Option (List (List Char))) (j : Nat) : Option (List Char) :=
  match names with
  | some ns => ns[j]?.map (fun s => s.take 5)
  | none => some (['c', '_'] ++ if (105 + j) % 256 = 0 then [] else [Char.ofNat ((105 + j) % 256)])

/-- One coefficient in `pluto_constraints_compact_print_single`, lib/constraints.c:864-876; `first`: nothing has been printed yet. -/
def compactTerm (first : Bool) (c : Int) (v : List Char) : List Char :=
  if c = 1 then (if first then [] else ['+']) ++ v
  else if c = -1 then '-' :: v
  else if c ≥ 2 then (if first then [] else ['+']) ++ intDec c ++ v
  else if c ≤ -2 then intDec c ++ v
  else []

/-- The coefficients of a row in `pluto_constraints_compact_print_single`, lib/constraints.c:846-878, and the final value of `first`. -/
def compactTerms : Bool → List (Int × List Char) → List Char × Bool
  | first, [] => ([], first)
  | first, (c, v) :: l =>
    let r := compactTerms (first && decide (c = 0)) l
    (compactTerm first c v ++ r.1, r.2)

/-- The constant in `pluto_constraints_compact_print_single`, lib/constraints.c:848-854. -/
def compactConst (first : Bool) (k : Int) : List Char :=
  if k = 0 ∧ first = false then [' '] else (if k ≥ 0 ∧ first = false then ['+'] else []) ++ intDec k ++ [' ']

/-- The end of the line of a row, lib/constraints.c:879 and 946. -/
def relText (eq : Bool) : List Char := (if eq then ['='] else ['>', '=']) ++ [' ', '0', '\n']

/-- The line of a row in `pluto_constraints_compact_print_single`, lib/constraints.c:844-880. -/
def compactRow (names : Option (List (List Char))) (ncols : Nat) (r : Row) : Option (List Char) := do
  let vs ← (List.range (ncols - 1)).mapM (cstVar names)
  let k ← r.val[ncols - 1]?
  let t := compactTerms true ((r.val.take (ncols - 1)).zip vs)
  return t.1 ++ compactConst t.2 k ++ relText r.eq

/-- The line with the numbers of dimensions and constraints, lib/constraints.c:842 and 908. -/
def dimsLine (c : Cst) : List Char :=
  '[' :: intDec ((c.ncols : Int) - 1) ++ " dims; ".toList ++ natDec c.rows.length ++ " constraints]\n".toList

/-- `pluto_constraints_compact_print_single`, lib/constraints.c:823-886, for a list of systems with their names; `num` is `set_num`.
A system without rows ends the text, lib/constraints.c:836-840. -/
def compactPrint : Nat → List (Cst × Option (List (List Char))) → Option (List Char)
  | _, [] => some []
  | num, (c, names) :: l =>
    let head := "Set #".toList ++ natDec (num + 1) ++ ['\n']
    if c.rows = [] then
      some (head ++ "Universal polyhedron -- No constraints (".toList ++ intDec ((c.ncols : Int) - 1) ++ " dims)!\n".toList)
    else do
      let ts ← c.rows.mapM (compactRow names c.ncols)
      let rest ← compactPrint (num + 1) l
      return head ++ dimsLine c ++ ts.flatten ++ ['\n'] ++ rest

/-- One coefficient in `pluto_constraints_pretty_print`, lib/constraints.c:928-941. -/
def prettyTerm (c : Int) (v : List Char) : List Char :=
  if c = 1 then '+' :: v ++ [' ']
  else if c = -1 then '-' :: v ++ [' ']
  else if c ≥ 2 then '+' :: intDec c ++ v ++ [' ']
  else if c ≤ -2 then intDec c ++ v ++ [' ']
  else List.replicate 6 ' '

/-- The constant in `pluto_constraints_pretty_print`, lib/constraints.c:914-919. -/
def prettyConst (first : Bool) (k : Int) : List Char :=
  if k = 0 ∧ first = false then List.replicate 5 ' ' else (if k ≥ 0 then ['+'] else []) ++ intDec k ++ [' ']

/-- The line of a row in `pluto_constraints_pretty_print`, lib/constraints.c:910-947. -/
def prettyRow (names : Option (List (List Char))) (ncols : Nat) (r : Row) : Option (List Char) := do
  let vs ← (List.range (ncols - 1)).mapM (cstVar names)
  let k ← r.val[ncols - 1]?
  let l := (r.val.take (ncols - 1)).zip vs
  return l.flatMap (fun p => prettyTerm p.1 p.2) ++ prettyConst (l.all (fun p => decide (p.1 = 0))) k ++ relText r.eq

/-- `pluto_constraints_pretty_print`, lib/constraints.c:893-949, which asserts that there is only one system. -/
def prettyPrint (names : Option (List (List Char))) (c : Cst) : Option (List Char) :=
  if c.rows = [] then
    some ("Universal polyhedron -- no constraints (".toList ++ intDec ((c.ncols : Int) - 1) ++ " dims)!\n".toList)
  else do
    let ts ← c.rows.mapM (prettyRow names c.ncols)
    return dimsLine c ++ ts.flatten ++ ['\n']

/-- The name of column `j` in `pluto_constraints_cplex_print`, lib/constraints.c:975-979. `strncpy` leaves names of five and more
characters without an end. -/
def cplexVar (names : Option (List (List Char))) (j : Nat) : Option (List Char) :=
  match names with
  | some ns => ns[j]?.bind (fun s => if s.length < 5 then some s else none)
  | none => some ((['c', '_'] ++ natDec j).take 5)

/-- The values of `j`, an `unsigned char`, in the loop over the columns in `pluto_constraints_cplex_print`, lib/constraints.c:966;
`none` if the loop has not ended after `fuel` tests. -/
def cplexCols : Nat → Nat → Nat → Option (List Nat)
  | 0, _, _ => none
  | fuel + 1, ncols, j =>
    if j < ncols then (cplexCols fuel ncols ((j + 1) % 256)).map (fun l => j :: l) else some []

/-- One coefficient in `pluto_constraints_cplex_print`, lib/constraints.c:981-993. -/
def cplexTerm (c : Int) (v : List Char) : List Char :=
  if c = 1 then '+' :: v ++ [' ']
  else if c = -1 then '-' :: v ++ [' ']
  else if c ≥ 2 then '+' :: intDec c ++ v ++ [' ']
  else if c ≤ -2 then intDec c ++ v ++ [' ']
  else List.replicate 4 ' '

/-- The text for a row in `pluto_constraints_cplex_print`, lib/constraints.c:964-996. -/
def cplexRow (fuel : Nat) (names : Option (List (List Char))) (ncols : Nat) (r : Row) : Option (List Char) := do
  let cols ← cplexCols fuel ncols 0
  let vs ← cols.dropLast.mapM (cplexVar names)
  let k ← r.val[ncols - 1]?
  let l := (r.val.take (ncols - 1)).zip vs
  if l.all (fun p => decide (p.1 = 0)) then
    if k < 0 then none else return l.flatMap (fun p => cplexTerm p.1 p.2)
  else
    return l.flatMap (fun p => cplexTerm p.1 p.2) ++ (if r.eq then ['='] else ['>', '=']) ++ [' '] ++ intDec (-k) ++ ['\n']

/-- `pluto_constraints_cplex_print`, lib/constraints.c:952-998. -/
def cplexPrint (fuel : Nat) (names : Option (List (List Char))) (c : Cst) : Option (List Char) := do
  let ts ← c.rows.mapM (cplexRow fuel names c.ncols)
  return (if c.rows = [] then "No constraints!\n".toList else []) ++ ts.flatten ++ ['\n']

/-- A `PipMatrix`: numbers of rows and columns, and the entries row after row. -/
structure PipMat where
  nrows : Nat
  ncols : Nat
  init : List Int
deriving DecidableEq, Repr

/-- `pluto_constraints_to_pip_matrix`, lib/constraints.c:1002-1017. -/
def toPipMatrix (c : Cst) : List (List Int) := c.rows.map (fun r => (if r.eq then 0 else 1) :: r.val)

/-- `pip_matrix_populate`, lib/constraints.c:1688-1702. -/
def pipPopulate (m : List (List Int)) (nrows ncols : Nat) : PipMat := ⟨nrows, ncols, (m.take nrows).flatMap (fun r => r.take ncols)⟩

/-- `pluto_constraints_lexmin_pip`, lib/constraints.c:1021-1083. `pip urs m` stands for `pip_solve` without context and parameters:
the list of the solution, none if there is no list. -/
def lexminPip (pip : Bool → PipMat → Option (List Int)) (neg : Bool) (c : Cst) : Option (List Int) :=
  (pip neg (pipPopulate (toPipMatrix c) c.rows.length (c.ncols + 1))).map (fun l => l.take (c.ncols - 1))

/-- `pluto_constraints_lexmin`, lib/constraints.c:1087-1092. -/
def cstLexmin (islsolve : Bool) (isl pip : Bool → Cst → Option (List Int)) (neg : Bool) (c : Cst) : Option (List Int) :=
  if islsolve then isl neg c else pip neg c

end Pluto
