import Verif.Model.Search
import Verif.Model.Ddg

/-!
The ILP wrapper with GLPK: objective, integer or rational solution, scaling of rational solutions to integers
(lib/constraints.c, lib/pluto.c, lib/framework.cpp). GLPK is an argument (`GlpkLibs`) that computes with rational
numbers; the code uses doubles. Gurobi: Model/Gurobi.lean.
-/

namespace Pluto

/-- Options read: `--lp`, `--dfp`. -/
structure GlpkOpts where
  lp : Bool
  dfp : Bool
deriving DecidableEq, Repr

/-- A column of the scaling problem: fixed to zero, or at least one (integer or rational). -/
inductive ScaleCol | zero | int | rat
deriving DecidableEq, Repr

/-- The scaling problem built by `get_scaling_lp_glpk`, lib/constraints.c:1269-1317: columns (from 1), rows (entries:
column and coefficient; the sum has to be zero). The objective is the sum of the first columns. -/
structure ScaleProb where
  cols : List ScaleCol
  rows : List (List (Nat × ℚ))
deriving DecidableEq, Repr

/-- GLPK: `lp c obj` minimises `obj` over the non-negative rational points of `c`, `ilp` over the non-negative integer
points, `mip` solves a scaling problem. `none`: no solution. -/
structure GlpkLibs where
  lp : Cst → List Int → Option (List ℚ)
  ilp : Cst → List Int → Option (List ℚ)
  mip : ScaleProb → Option (List ℚ)

/-- C's `round`: to the nearest integer, halves away from zero. -/
def cround (a : ℚ) : Int := if 0 ≤ a then (a + 1 / 2).floor else -((-a + 1 / 2).floor)

/-- Values of at most this size count as zero, lib/constraints.c:1295. -/
def scaleTol : ℚ := 1 / 10000000

/-- `get_scaling_lp_glpk`, lib/constraints.c:1269-1317. `index` are the entries 1 and 2 of the rows of the array of that
name; `none`: the array (a null pointer, or too short) is read. -/
def scalingProb (x : List ℚ) (index : Option (List (Nat × Nat))) (npar numCcs : Nat) : Option ScaleProb := do
  let xs := x.drop (npar + 1)
  let rows ← (xs.zipIdx.filter (fun a => decide (scaleTol < |a.1|))).mapM (fun a => do
    let e ← (← index)[a.2]?
    return [(e.1, a.1), (e.2, (-1 : ℚ))])
  return ⟨List.replicate numCcs .rat ++ xs.map (fun a => if scaleTol < |a| then .int else .zero), rows⟩

/-- `max_scale_factor`, lib/constraints.c:1328-1415; `none`: there is no column. -/
def maxScale (s : List ℚ) (numCcs : Nat) : Option Int := do
  let s0 ← s[0]?
  return (s.take numCcs).foldl (fun m a => if (m : ℚ) < a then cround a else m) (cround s0)

/-- `pluto_prog_constraints_lexmin_glpk`, lib/constraints.c:1328-1415. `none`: a null pointer is used. -/
def lexminGlpk (o : GlpkOpts) (G : GlpkLibs) (npar numCcs : Nat) (index : Option (List (Nat × Nat))) (obj : List Int) (c : Cst) :
    Option (Option (List Int)) :=
  match (if o.lp then G.lp c obj else G.ilp c obj) with
  | none => some none
  | some x =>
    if o.lp || o.dfp then do
      let prob ← scalingProb x index npar numCcs
      let s ← G.mip prob
      let m ← maxScale s numCcs
      return some ((x.take (npar + 1)).map (fun a => m * cround a) ++
        ((s.drop numCcs).take (c.ncols - 1 - (npar + 1))).map cround)
    else some (some (x.map cround))

/-- `construct_cplex_objective`, lib/pluto.c:243-267. -/
def cplexObjective (p : Prog) : List Int :=
  List.replicate p.npar (25 * p.nvar * p.stmts.length : Int) ++ [(5 * p.nvar * p.stmts.length : Int)] ++
    p.stmts.flatMap (fun st => (List.range st.dimOrig).map (fun k : Nat => ((p.nvar : Int) + 2) * ((st.dimOrig : Int) - k)) ++ [1])

/-- `populate_scaling_csr_matrices_for_pluto_program`, lib/framework.cpp:1374-1413: entries 1 and 2 of the rows of
`index`. -/
def scalingIndex (p : Prog) (cc : Nat → Int) (numCcs : Nat) : List (Nat × Nat) :=
  (p.stmts.mapIdx (fun i st => List.replicate (st.dimOrig + 1) ((cc i).toNat + 1))).flatten.mapIdx
    (fun r c => (c, numCcs + r + 1))

/-- The system handed to the solver, lib/pluto.c:275-340: columns of padding dimensions removed, columns of the loops
of each statement reversed (not with `--dfp`). -/
def lexminInput (dfp : Bool) (p : Prog) (cst : Cst) : Cst :=
  let rows := cst.rows.map (fun r => { r with val := keepMask (keepCols p ++ [true]) r.val })
  let newcols := if cst.rows = [] then 0 else (keepCols p).countP id + 1
  (if dfp then [] else swapPairs (p.npar + 1) (p.stmts.map (·.dimOrig))).foldl (fun c ij => interchangeCols c ij.1 ij.2)
    ⟨newcols, rows⟩

/-- `pluto_prog_constraints_lexmin`, lib/pluto.c:275-431, with `--glpk`, `--lp` or `--dfp` and GLPK. `g` is the
dependence graph, `d0` what the search for its components finds in memory. `none`: failed assertion or null pointer. -/
def progLexminGlpk (o : GlpkOpts) (G : GlpkLibs) (g : Graph) (d0 : DfsState) (p : Prog) (cst : Cst) :
    Option (Option (List Int)) :=
  if cst.ncols ≠ cstWidth p.nvar p.npar p.stmts.length then none
  else do
    let c := lexminInput o.dfp p cst
    let (index, numCcs) ←
      if o.lp then do
        let (cc, n) ← ddgComputeCc g d0
        let idx := scalingIndex p cc n
        if idx.length + p.npar + 2 ≠ c.ncols then none else some (some idx, n)
      else some (none, 0)
    let r ← lexminGlpk o G p.npar numCcs index (cplexObjective p) c
    return r.map (fun sol =>
      let pairs := if o.dfp then [] else swapPairs (p.npar + 1) (p.stmts.map (·.dimOrig))
      spreadMask (keepCols p) (pairs.foldl (fun s ij => swapIdx s ij.1 ij.2) sol))

end Pluto
