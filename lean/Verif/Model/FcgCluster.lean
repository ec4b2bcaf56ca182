import Verif.Model.DfpCluster
import Verif.Model.LpScale
/-! Construction of the fusion conflict graph with `--clusterscc`: `build_fusion_conflict_graph`, lib/framework-dfp.c, with a
vertex per loop of each strongly connected component, and the parallelism preventing edges of typed fusion. Entries of the
adjacency matrices are only ever set to 1, so each is given by the list of these entries. `lp c obj` is the result of
`pluto_fusion_constraints_feasibility_solve` (lib/framework-dfp.c:212-227) for the system `c` and the objective `obj`, `none` if
there is no solution. Statistics, printing and `dep_dist_mat` (nothing that is used reads it) are left out. -/
namespace Pluto

/-- The objective built by `construct_cplex_objective`, lib/pluto.c:243-267, for a system that keeps the columns of padding
dimensions: the function lays out the entries as if these columns had been removed, and the rest of the vector is 0. -/
def fcgObjective (p : Prog) : List Int :=
  cplexObjective p ++ List.replicate (cstWidth p.nvar p.npar p.stmts.length - 1 - (cplexObjective p).length) 0

/-- `is_lp_solution_parallel`, lib/framework-dfp.c:106-114. -/
def lpSolParallel (npar : Nat) (x : List ℚ) : Bool := decide ((x.take (npar + 1)).sum = 0)

/-- The dependences that `compute_intra_scc_dep_cst`, lib/framework-dfp.c:637-673 (`ss = [s]`), and
`get_inter_scc_dep_constraints`, lib/framework-dfp.c:372-411 (`ss = [s, t]`), take into account. -/
def clDeps (o : SearchOpts) (a : Auto) (ss : List Nat) : List Dep :=
  a.p.deps.filter (fun d => !(!o.rar && d.rar) && !d.satisfied && ss.any (fun s => decide (a.scc d.src = (s : Int))) &&
    ss.any (fun s => decide (a.scc d.dest = (s : Int))))

/-- Rows that bound one variable each, for statements `m`, loop `f i` of statement `i`: the coefficient of the loop is at least
1 in the statements with `one i`; the shifts are free (at least 0) if `free`; otherwise as set initially. The code changes the
rows in place and resets them (to `is_eq == -1` in lib/framework-dfp.c:578-585, which is taken for an equality like 1). -/
def clMode (p : Prog) (m : List Nat) (f : Nat → Nat) (one : Nat → Bool) (free : Bool) : Nat → Bool × Int := fun idx =>
  if m.any (fun i => one i && idx == stmtOffset p.nvar p.npar i + f i) then (false, -1)
  else if free && m.any (fun i => idx == stmtOffset p.nvar p.npar i + p.nvar) then (false, 0)
  else mode0 p.npar idx

/-- The system that `fcg_scc_cluster_add_permute_preventing_edges`, lib/framework-dfp.c:751-845, solves for loop `j` of component
`s`: the coefficient is at least 1 for the statements that have the loop, the shifts stay 0. -/
def clSelfSystem (o : SearchOpts) (a : Auto) (s j : Nat) : Cst :=
  let w := cstWidth a.p.nvar a.p.npar a.p.stmts.length
  ⟨w, (coeffBoundConstraints o a.p).rows ++
    modeRows w (clMode a.p (a.sccStmts s) (fun _ => j) (fun i => (origOf a.p i).getD j false) false) ++
    (clDeps o a [s]).flatMap (fun d => (depCst o.nodepbound a.p d).rows)⟩

/-- `stmts[i]->dim_orig`. -/
def depthOf (p : Prog) (i : Nat) : Nat := (stmtBlock p i).count

/-- The loop that statement `i` contributes, of a statement of component `s` (loop `j`) or another (loop `k`). -/
def clLoop (a : Auto) (s j k i : Nat) : Nat := if a.scc i = (s : Int) then j else k

/-- The system that `fcg_scc_cluster_add_inter_scc_edges`, lib/framework-dfp.c:416-592, solves for loop `j` of component `s` and
loop `k` of component `t`: the shifts of all their statements are free; the coefficient of the loop is at least 1 in the
statements whose depth is at least the number of the loop (so also the coefficient of the first padding dimension of a
statement may be). -/
def clPairSystem (o : SearchOpts) (a : Auto) (s t j k : Nat) : Cst :=
  let w := cstWidth a.p.nvar a.p.npar a.p.stmts.length
  ⟨w, (clDeps o a [s, t]).flatMap (fun d => (depCst o.nodepbound a.p d).rows) ++ (coeffBoundConstraints o a.p).rows ++
    modeRows w (clMode a.p (a.sccStmts s ++ a.sccStmts t) (clLoop a s j k)
      (fun i => decide (clLoop a s j k i ≤ depthOf a.p i)) true)⟩

section
variable (lp : Cst → List Int → Option (List ℚ)) (o : SearchOpts) (co : ClOpts)

/-- The answer of the solver for loop `j` of component `s` in `fcg_scc_cluster_add_permute_preventing_edges`,
lib/framework-dfp.c:751-845. -/
def clSelfSol (a : Auto) (s j : Nat) : Option (List ℚ) := lp (clSelfSystem o a s j) (fcgObjective a.p)

/-- The answer of the solver in `fcg_scc_cluster_add_inter_scc_edges`, lib/framework-dfp.c:416-592. -/
def clPairSol (a : Auto) (s t j k : Nat) : Option (List ℚ) := lp (clPairSystem o a s t j k) (fcgObjective a.p)

/-- `fcg_scc_cluster_add_permute_preventing_edges`, lib/framework-dfp.c:751-845: is there a self edge on loop `j` of
component `s`? -/
def clSelf (a : Auto) (colour : List Nat) (c s j : Nat) : Bool :=
  !(clDeps o a [s]).isEmpty && colourable colour c (a.sccOffset s + j) && (clSelfSol lp o a s j).isNone

/-- The same for `par_preventing_adj_mat`. -/
def clSelfPar (a : Auto) (colour : List Nat) (c s j : Nat) : Bool :=
  co.typed && !(clDeps o a [s]).isEmpty && colourable colour c (a.sccOffset s + j) &&
    (match clSelfSol lp o a s j with
    | none => false
    | some x => !lpSolParallel a.p.npar x)

/-- `sccs[s].is_parallel` as left by `fcg_scc_cluster_add_permute_preventing_edges`, lib/framework-dfp.c:751-845. -/
def clIsPar (a : Auto) (colour : List Nat) (c s : Nat) : Bool :=
  (clDeps o a [s]).isEmpty ||
  (co.typed && (List.range (a.width s)).any (fun j => colourable colour c (a.sccOffset s + j) &&
    (match clSelfSol lp o a s j with
    | none => false
    | some x => lpSolParallel a.p.npar x)))

/-- `fcg_scc_cluster_add_inter_scc_edges`, lib/framework-dfp.c:416-592: is there an edge between loop `j` of component `s` and
loop `k` of component `t`? -/
def clPair (a : Auto) (colour : List Nat) (c s t j k : Nat) : Bool :=
  colourable colour c (a.sccOffset s + j) &&
  (clSelf lp o a colour c s j ||
    (colourable colour c (a.sccOffset t + k) && (clSelf lp o a colour c t k || (clPairSol lp o a s t j k).isNone)))

/-- The same for `par_preventing_adj_mat`, if `check_parallel` is set. -/
def clPairPar (a : Auto) (colour : List Nat) (c s t j k : Nat) : Bool :=
  colourable colour c (a.sccOffset s + j) && !clSelf lp o a colour c s j && colourable colour c (a.sccOffset t + k) &&
  !clSelf lp o a colour c t k &&
    (match clPairSol lp o a s t j k with
    | none => false
    | some x => !lpSolParallel a.p.npar x)

/-- The condition that sets `check_parallel`, lib/framework-dfp.c:447-455. -/
def clCheck (a : Auto) (colour : List Nat) (c : Nat) (hp sc : Nat → Bool) (s t : Nat) : Bool :=
  !(co.hybrid && hp s && hp t) && (clIsPar lp o co a colour c s || clIsPar lp o co a colour c t) && co.typed && !(sc s && sc t)

/-- The pairs of vertices of components `s` and `t` for which `f` holds. -/
def clEntries (a : Auto) (s t : Nat) (f : Nat → Nat → Bool) : List (Nat × Nat) :=
  (List.range (a.width s)).flatMap (fun j => ((List.range (a.width t)).filter (fun k => f j k)).map
    (fun k => (a.sccOffset s + j, a.sccOffset t + k)))

/-- The pairs of components that `fcg_scc_cluster_add_inter_scc_edges`, lib/framework-dfp.c:416-592, looks at, in this
order. -/
def clPairs (a : Auto) : List (Nat × Nat) := (upperPairs a.num).filter (fun x => a.connected x.1 x.2)

/-- The parallelism preventing entries for the pairs of components in the list; `chk` is `check_parallel`, which is never
reset. -/
def clInterPar (a : Auto) (colour : List Nat) (c : Nat) (hp sc : Nat → Bool) : Bool → List (Nat × Nat) → List (Nat × Nat)
  | _, [] => []
  | chk, x :: xs =>
    let chk := chk || clCheck lp o co a colour c hp sc x.1 x.2
    (if chk then clEntries a x.1 x.2 (clPairPar lp o a colour c x.1 x.2) else []) ++ clInterPar a colour c hp sc chk xs

/-- `add_must_distribute_edges`, lib/framework-dfp.c:1016-1072, with `scc_cluster`. -/
def clDistribute (a : Auto) : List (Nat × Nat) :=
  let g := transitiveClosure (ddgCreate a.p)
  (upperPairs a.num).flatMap (fun x =>
    if Auto.connected { a with g := g } x.1 x.2 then []
    else if !clFused a x.1 x.2 then []
    else clEntries a x.1 x.2 (fun _ _ => true))

/-- The entries of the graph, lib/framework-dfp.c:1080-1226 and 968-983. -/
def clEdges (a : Auto) (colour : List Nat) (c : Nat) : List (Nat × Nat) :=
  (List.range a.num).flatMap (fun s => clEntries a s s (fun j k => j == k && clSelf lp o a colour c s j)) ++
  (clPairs a).flatMap (fun x => clEntries a x.1 x.2 (clPair lp o a colour c x.1 x.2)) ++
  (List.range a.num).flatMap (fun s => clEntries a s s (fun j k => j != k)) ++
  (if c = 1 then clDistribute a else [])

/-- The entries of `par_preventing_adj_mat`. -/
def clParEdges (a : Auto) (colour : List Nat) (c : Nat) (hp sc : Nat → Bool) : List (Nat × Nat) :=
  (List.range a.num).flatMap (fun s => clEntries a s s (fun j k => j == k && clSelfPar lp o co a colour c s j)) ++
  clInterPar lp o co a colour c hp sc false (clPairs a)

/-- `build_fusion_conflict_graph`, lib/framework-dfp.c:1080-1226, with `scc_cluster`. -/
def clBuildFcg : ClBuild := fun a colour c hp sc =>
  let es := clEdges lp o a colour c
  let ps := clParEdges lp o co a colour c hp sc
  ⟨⟨a.clSize, fun u v => if (u, v) ∈ es then 1 else 0⟩, fun u v => if (u, v) ∈ ps then 1 else 0, clIsPar lp o co a colour c⟩

end

end Pluto
