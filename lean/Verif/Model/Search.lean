import Verif.Model.Framework
import Verif.Model.Matrix

/-!
Model of the hyperplane search: lib/pluto.c (ILP wrapper, linear independence, search loop) and
lib/framework.cpp (linear independence, non-trivial solution and coefficient bound constraints).
ILP solver, emptiness test and null space computation are external libraries: function arguments.
`--per-cc-obj` (not the default) is not modelled.
-/

namespace Pluto

/-- Options read by the search (`struct plutoOptions`, include/pluto/pluto.h). `coeffBound = -1`
means no user bound. -/
structure SearchOpts where
  flic : Bool
  dfp : Bool
  rar : Bool
  nodepbound : Bool
  coeffBound : Int
deriving DecidableEq, Repr

/-- External libraries: `kernel p rows` is `isl_mat_right_kernel` of a matrix with `p` columns (the
result is a list of columns), `isEmpty` is `isl_basic_set_is_empty`, `solve` is the integer
lexicographic minimum over non-negative points (`pluto_constraints_lexmin_isl`/`_pip`). -/
structure Libs where
  kernel : Nat → List (List Int) → List (List Int)
  isEmpty : Cst → Bool
  solve : Cst → Option (List Int)

/-- Entries of `v` whose mask is true (loops that copy the columns of original loops). -/
def keepMask {α : Type} : List Bool → List α → List α
  | true :: m, a :: v => a :: keepMask m v
  | false :: m, _ :: v => keepMask m v
  | _, _ => []

/-- Inverse of `keepMask`: zeros where the mask is false (`redun[j] ? 0 : sol[q++]`). -/
def spreadMask : List Bool → List Int → List Int
  | true :: m, a :: v => a :: spreadMask m v
  | true :: m, [] => 0 :: spreadMask m []
  | false :: m, v => 0 :: spreadMask m v
  | [], _ => []

/-- Negation of the array `redun` of `pluto_prog_constraints_lexmin` without its last entry (the
column of the constant, always kept), lib/pluto.c:290-304. -/
def keepCols (p : Prog) : List Bool :=
  List.replicate (p.npar + 1) true ++
    p.stmts.flatMap (fun st => (List.range p.nvar).map (fun j => st.isOrig.getD j false) ++ [true])

/-- The pairs of columns exchanged, in order, lib/pluto.c:329-336: `j` is the offset of the block. -/
def swapPairs (j : Nat) : List Nat → List (Nat × Nat)
  | [] => []
  | d :: ds => (List.range' j (d / 2)).map (fun k => (k, j + (d - 1 - (k - j)))) ++
      swapPairs (j + d + 1) ds

/-- `pluto_prog_constraints_lexmin`, lib/pluto.c:275-431. -/
def progLexmin (dfp : Bool) (solve : Cst → Option (List Int)) (p : Prog) (cst : Cst) :
    Option (Option (List Int)) :=
  if cst.ncols ≠ cstWidth p.nvar p.npar p.stmts.length then none
  else
    let mask := keepCols p
    let rows := cst.rows.map (fun r => { r with val := keepMask (mask ++ [true]) r.val })
    let newcols := if cst.rows = [] then 0 else mask.countP id + 1
    let newcst : Cst := ⟨newcols, rows⟩
    let pairs := if dfp then [] else swapPairs (p.npar + 1) (p.stmts.map (·.dimOrig))
    let newcst := pairs.foldl (fun c ij => interchangeCols c ij.1 ij.2) newcst
    some ((solve newcst).map (fun sol =>
      let sol := pairs.foldl (fun s ij => swapIdx s ij.1 ij.2) sol
      spreadMask mask sol))

/-- `pluto_stmt_get_num_ind_hyps`, lib/program.cpp:2158-2170: rank of the schedule after removing,
one by one, the columns from `dim_orig` on. -/
def numIndHyps (p : Prog) (st : Stmt) : Nat :=
  let n := st.dim + p.npar + 1
  Mat.getRank ((List.range (n - st.dimOrig)).foldl
    (fun m _ => (m.removeCol st.dimOrig).getD m) ⟨n, st.trans⟩)

/-- `pluto_transformations_full_ranked`, lib/program.cpp:2175-2184. -/
def fullRanked (p : Prog) : Bool := p.stmts.all (fun st => decide (st.dimOrig ≤ numIndHyps p st))

/-- Rows of the matrix `h`, lib/framework.cpp:728-749: the schedule rows of
loop hyperplanes restricted to original loops. -/
def loopRows (p : Prog) (st : Stmt) : List (List Int) :=
  (st.trans.zip p.hProps).filterMap (fun rt =>
    if rt.2 = HypType.scalar then none else some (keepMask (st.isOrig.take p.nvar) rt.1))

/-- Normalisation of a column of the null space basis, lib/framework.cpp:780-799. It is skipped if any
entry is zero. -/
def normalizeCol (v : List Int) : List Int :=
  if v.all (fun a => decide (a ≠ 0)) then
    let g := v.tail.foldl (fun g a => cgcd g (llabs a)) (llabs (v.headD 0))
    if g > 1 then v.map (fun a => a.tdiv g) else v
  else v

/-- Coefficients of one orthogonal direction in the global layout with constant `k`,
lib/framework.cpp:816-826. -/
def orthRow (p : Prog) (sid : Nat) (st : Stmt) (v : List Int) (k : Int) : List Int :=
  let w := cstWidth p.nvar p.npar p.stmts.length
  (writeSlice (zrow w) (stmtOffset p.nvar p.npar sid) (spreadMask (st.isOrig.take p.nvar) v)).set (w - 1) k

/-- `get_stmt_lin_ind_constraints`, lib/framework.cpp:696-870: the rows `orthcst[0 .. orthonum - 1]`,
the last one being the linear independence constraint. `sid` is the statement number. -/
def stmtLinInd (o : SearchOpts) (L : Libs) (p : Prog) (sid : Nat) (st : Stmt) (curr : Cst) :
    List (List Int) :=
  if numIndHyps p st ≥ st.dimOrig then []
  else
    let w := cstWidth p.nvar p.npar p.stmts.length
    let np := (st.isOrig.take p.nvar).countP id
    let ortho := (L.kernel np (loopRows p st)).map normalizeCol
    let rows := ortho.map (fun v =>
      let row := orthRow p sid st v 0
      if o.flic = false ∧ L.isEmpty (addCst ⟨w, [⟨false, orthRow p sid st v (-1)⟩]⟩ curr) = true then
        row.map (fun a => -a)
      else row)
    if rows = [] then []
    else rows ++ [(rows.foldl (fun s r => List.zipWith (fun a b => a + b) s r) (zrow w)).set (w - 1) (-1)]

/-- `get_linear_ind_constraints`, lib/pluto.c:664-733. -/
def linearIndConstraints (o : SearchOpts) (L : Libs) (p : Prog) (curr : Cst) (eager : Bool) : Cst :=
  let w := cstWidth p.nvar p.npar p.stmts.length
  let lasts := (p.stmts.mapIdx (fun i st => stmtLinInd o L p i st curr)).filterMap List.getLast?
  if lasts = [] then ⟨w, []⟩
  else if eager then ⟨w, lasts.map (fun r => ⟨false, r⟩)⟩
  else ⟨w, [⟨false, (lasts.foldl (fun s r => List.zipWith (fun a b => a + b) s r) (zrow w)).set (w - 1) (-1)⟩]⟩

/-- Ones at the original loops of statement `i` (added to `row`). -/
def setOnes (p : Prog) (i : Nat) (st : Stmt) (row : List Int) : List Int :=
  (List.range p.nvar).foldl (fun row j =>
    if st.isOrig.getD j false then row.set (stmtOffset p.nvar p.npar i + j) 1 else row) row

/-- `get_non_trivial_sol_constraints`, lib/framework.cpp:880-934. -/
def nonTrivialConstraints (p : Prog) (eager : Bool) : Cst :=
  let w := cstWidth p.nvar p.npar p.stmts.length
  let unf := (p.stmts.mapIdx (fun i st => (i, st))).filter (fun is =>
    decide (numIndHyps p is.2 < is.2.dimOrig))
  if eager then
    ⟨w, unf.map (fun is => ⟨false, (setOnes p is.1 is.2 (zrow w)).set (w - 1) (-1)⟩)⟩
  else
    ⟨w, [⟨false, unf.foldl (fun row is => (setOnes p is.1 is.2 row).set (w - 1) (-1)) (zrow w)⟩]⟩

/-- `pluto_prog_get_largest_const_in_domains`, lib/program.cpp:719-729. -/
def largestConstInDomains (p : Prog) : Int :=
  p.stmts.foldl (fun m st => st.domain.rows.foldl (fun m r =>
    let a := coef r.val (st.domain.ncols - 1)
    if m > a then m else a) m) 0 - 1

/-- `get_coeff_bounding_constraints`, lib/framework.cpp:937-993. -/
def coeffBoundConstraints (o : SearchOpts) (p : Prog) : Cst :=
  let w := cstWidth p.nvar p.npar p.stmts.length
  let c := (List.range (w - 1)).foldl (fun c i => addLb c i 0) ⟨w, []⟩
  let ubs := fun (b : Int) => (List.range' (p.npar + 1) (w - 1 - (p.npar + 1))).foldl
    (fun c i => addUb c i b) c
  if o.coeffBound ≠ -1 then ubs o.coeffBound
  else
    let ub := largestConstInDomains p
    if ub ≥ 10 then ubs ub else c

/-- `pluto_add_hyperplane_from_ilp_solution`, lib/framework.cpp:1416-1449 with
`pluto_prog_add_hyperplane` and `pluto_stmt_add_hyperplane` at the end: every statement gets its row
and the type loop/scalar according to the row; the type recorded in `hProps` is H_LOOP.
(`hypOf`: lib/framework.cpp:1440-1443.) -/
def addHyperplane (p : Prog) (sol : List Int) : Prog :=
  { p with
    stmts := p.stmts.mapIdx (fun j st =>
      let row := hyperplaneRow p.nvar p.npar sol j
      { st with
        trans := st.trans ++ [row]
        hypTypes := st.hypTypes ++ [if (row.take st.dim).all (fun a => decide (a = 0))
          then HypType.scalar else HypType.loop] })
    hProps := p.hProps ++ [HypType.loop] }

end Pluto
