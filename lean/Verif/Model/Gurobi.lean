import Verif.Model.LpScale

/-!
The ILP wrapper with Gurobi (lib/gurobi-plugin.c, lib/pluto.c). Gurobi is an argument (`GlpkLibs`, as for GLPK) that
computes with rational numbers; the code uses doubles. Environments, logging and files written for debugging are left out.
-/

namespace Pluto

/-- `set_gurobi_constraints_from_pluto_constraints`, lib/gurobi-plugin.c:54-87: rows without coefficients are skipped. -/
def gurobiSystem (c : Cst) : Cst := { c with rows := c.rows.filter (fun r => (r.val.take (c.ncols - 1)).any (fun a => a ≠ 0)) }

/-- `get_max_scale_factor`, lib/gurobi-plugin.c:276-285 (`max` is an `int` there). -/
def gurobiMax (s : List ℚ) (numCcs : Nat) : Int :=
  (s.take numCcs).foldl (fun (m : Int) a => if (m : ℚ) < a then cround a else m) 0

/-- `pluto_prog_constraints_lexmin_gurobi`, lib/gurobi-plugin.c:290-384; the scaling problem of `get_scaling_lp_gurobi`,
lib/gurobi-plugin.c:225-270, is that for GLPK with columns numbered from 0. A model that is "infeasible or unbounded"
(lib/gurobi-plugin.c:143-178) is taken for infeasible; a solver that returns `none` covers both. `none`: a null pointer
is used, or the program exits because the scaling problem has no solution. -/
def lexminGurobi (lpOpt : Bool) (G : GlpkLibs) (npar numCcs : Nat) (index : Option (List (Nat × Nat))) (obj : List Int) (c : Cst) :
    Option (Option (List Int)) :=
  match (if lpOpt then G.lp (gurobiSystem c) obj else G.ilp (gurobiSystem c) obj) with
  | none => some none
  | some x =>
    if lpOpt then do
      let prob ← scalingProb x index npar numCcs
      let s ← G.mip prob
      return some (List.replicate (npar + 1) (gurobiMax s numCcs) ++
        ((s.drop numCcs).take (c.ncols - 1 - (npar + 1))).map cround)
    else some (some (x.map cround))

/-- `pluto_prog_constraints_lexmin`, lib/pluto.c:275-431, with `--gurobi`. `g` is the dependence graph, `d0` what the
search for its components finds in memory. `none`: failed assertion, null pointer or exit. -/
def progLexminGurobi (o : GlpkOpts) (G : GlpkLibs) (g : Graph) (d0 : DfsState) (p : Prog) (cst : Cst) :
    Option (Option (List Int)) :=
  if cst.ncols ≠ cstWidth p.nvar p.npar p.stmts.length then none
  else do
    let c := lexminInput o.dfp p cst
    let (index, numCcs) ←
      if o.lp then do
        let (cc, n) ← ddgComputeCc g d0
        let idx := scalingIndex p cc n
        if idx.length + p.npar + 2 ≠ c.ncols then none else some (some idx, n)
      else some (none, 0)
    let r ← lexminGurobi o.lp G p.npar numCcs index (cplexObjective p) c
    return r.map (fun sol =>
      let pairs := if o.dfp then [] else swapPairs (p.npar + 1) (p.stmts.map (·.dimOrig))
      spreadMask (keepCols p) (pairs.foldl (fun s ij => swapIdx s ij.1 ij.2) sol))

/-- `pluto_fcg_constraints_lexmin_gurobi`, lib/gurobi-plugin.c:389-433. -/
def fcgLexminGurobi (lpOpt : Bool) (G : GlpkLibs) (obj : List Int) (c : Cst) : Option (List ℚ) :=
  if lpOpt then G.lp (gurobiSystem c) obj else G.ilp (gurobiSystem c) obj

end Pluto
