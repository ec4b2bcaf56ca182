import Verif.Model.FcgCluster
/-! `--lpcolor` without `--clusterscc`: an LP per strongly connected component decides which loops are tried for a colour, and which
components are called parallel. `lp` is `pluto_fusion_constraints_feasibility_solve`, see Verif/Model/FcgCluster.lean. -/
namespace Pluto

/-- The loops of statement `i` that have no colour, as tested in lib/framework-dfp.c:68-69. -/
def uncoloured (p : Prog) (colour : List Nat) (i : Nat) : List Nat :=
  (List.range (depthOf p i)).filter (fun k => decide (colourOf colour ((stmtBlock p i).first + k) = 0))

/-- The row for statement `i` in `dfp_get_scc_ortho_constraints`, lib/framework-dfp.c:53-90: the coefficients of its loops without
colour add up to at least 1. -/
def orthoRow (p : Prog) (colour : List Nat) (i : Nat) : Row :=
  ⟨false, ((List.range (cstWidth p.nvar p.npar p.stmts.length - 1)).map (fun idx =>
    if (uncoloured p colour i).any (fun k => idx == stmtOffset p.nvar p.npar i + k) then 1 else 0)) ++ [-1]⟩

/-- `dfp_get_scc_ortho_constraints`, lib/framework-dfp.c:53-90; `none` is NULL. -/
def sccOrtho (a : Auto) (colour : List Nat) (s : Nat) : Option (List Row) :=
  match (a.sccStmts s).filter (fun i => !(uncoloured a.p colour i).isEmpty) with
  | [] => none
  | is => some (is.map (orthoRow a.p colour))

/-- The dependences whose constraints `get_scc_permutability_constraints`, lib/framework.cpp:283-318, adds. -/
def sccDeps (a : Auto) (s : Nat) : List Dep :=
  a.p.deps.filter (fun d => !d.satisfied && decide (a.scc d.src = (s : Int)) && decide (a.scc d.dest = (s : Int)))

/-- The system of `mark_parallel_sccs`, lib/framework-dfp.c:130-191, for component `s`; `none` if it has no loop without colour. -/
def markSystem (o : SearchOpts) (a : Auto) (colour : List Nat) (s : Nat) : Option Cst :=
  (sccOrtho a colour s).map (fun rs => ⟨cstWidth a.p.nvar a.p.npar a.p.stmts.length,
    rs ++ (coeffBoundConstraints o a.p).rows ++ (sccDeps a s).flatMap (fun d => (depCst o.nodepbound a.p d).rows)⟩)

/-- `is_parallel` and `sol` of a component. -/
abbrev SccMark := Bool × Option (List ℚ)

/-- The body of the loop of `mark_parallel_sccs`, lib/framework-dfp.c:130-191, for component `s`; `m` has the marks of all components. If
the first system has no solution, the dependences are tested again and the components are computed again, which resets the marks of
all of them (lib/pluto.c:2041-2048). `none`: an assertion fails. -/
def markScc (lp : Cst → List Int → Option (List ℚ)) (isEmpty : Cst → Bool) (o : SearchOpts) (colour : List Nat)
    (am : Auto × List SccMark) (s : Nat) : Option (Auto × List SccMark) :=
  match markSystem o am.1 colour s with
  | none => some (am.1, am.2.set s (true, none))
  | some c =>
    match lp c (fcgObjective am.1.p) with
    | some x => some (am.1, am.2.set s (lpSolParallel am.1.p.npar x, some x))
    | none => do
      let (p, _) ← computeDepSatisfactionPrecise isEmpty am.1.p
      let b ← ({ am.1 with p := p, g := ddgUpdate am.1.g p } : Auto).computeScc
      if b.num ≠ am.1.num then none
      else do
        let c ← markSystem o b colour s
        let x ← lp c (fcgObjective am.1.p)
        return (b, (List.replicate b.num (false, none)).set s (lpSolParallel am.1.p.npar x, some x))

/-- `mark_parallel_sccs`, lib/framework-dfp.c:130-191. -/
def markParallelSccs (lp : Cst → List Int → Option (List ℚ)) (isEmpty : Cst → Bool) (o : SearchOpts) (colour : List Nat)
    (a : Auto) (m : List SccMark) : Option (Auto × List SccMark) :=
  (List.range a.num).foldlM (markScc lp isEmpty o colour) (a, m)

/-- The loops that `get_next_min_vertex`, lib/framework-dfp.c:1295-1323, takes with `--lpcolor`: the coefficient in the solution `x` of
the component of statement `i` is not 0. -/
def lpAllowed (p : Prog) (x : List ℚ) (is : List Nat) (v : Nat) : Bool :=
  is.any (fun i => (List.range (depthOf p i)).any (fun k =>
    v == (stmtBlock p i).first + k && decide (x.getD (stmtOffset p.nvar p.npar i + k) 0 ≠ 0)))

/-- `colour_scc`, lib/framework-dfp.c:1448-1586, with `--lpcolor`, from its first statement on, while the component has loops to be
coloured; `none`: the assertion `sol != NULL`, lib/framework-dfp.c:1309, fails. -/
def colourSccLp (g : Graph) (a : Auto) (m : List SccMark) (s c : Nat) (colour : List Nat) : Option (Bool × List Nat) :=
  (m.getD s (false, none)).2.map (fun x =>
    colourBlocks g a.p.nvar c (lpAllowed a.p x (a.sccStmts s)) ((a.sccStmts s).map (stmtBlock a.p)) none colour)

end Pluto
