import Verif.Model.Dfp
/-! Construction of the fusion conflict graph: `build_fusion_conflict_graph`, lib/framework-dfp.c, without
`--clusterscc`, `--lpcolor` and typed fusion (all off by default). Entries of the adjacency matrix are only
ever set to 1, so the graph is given by the list of these entries. `lp c` tells whether
`pluto_fusion_constraints_feasibility_solve` finds a solution of `c` (the solution itself is not used).
Statistics and printing are left out. -/
namespace Pluto

/-- The rows of the conflict system that bound one variable each, lib/framework-dfp.c:1080-1226: row `i` is for
variable `i`; `m i` tells whether it is an equality and gives its constant. -/
def modeRows (w : Nat) (m : Nat → Bool × Int) : List Row :=
  (List.range (w - 1)).map (fun i => ⟨(m i).1, ((zrow w).set i 1).set (w - 1) (m i).2⟩)

/-- The initial setting: variables of the bounding function are at least 0, all others are 0,
lib/framework-dfp.c:1080-1226. -/
def mode0 (npar : Nat) : Nat → Bool × Int := fun i => (decide (npar + 1 ≤ i), 0)

/-- Dependences of statement `i` on itself that are considered in `compute_intra_stmt_deps`,
lib/framework-dfp.c:596-634. -/
def intraDeps (o : SearchOpts) (p : Prog) (i : Nat) : List Dep :=
  p.deps.filter (fun d => !(!o.rar && d.rar) && !d.satisfied && d.src == i && d.dest == i)

/-- `stmts[i]->intra_stmt_dep_cst`, the result of `compute_intra_stmt_deps`, lib/framework-dfp.c:596-634 (no rows
if it is NULL). -/
def intraRows (o : SearchOpts) (p : Prog) (i : Nat) : List Row :=
  (intraDeps o p i).flatMap (fun d => (depCst o.nodepbound p d).rows)

/-- The test that a loop is to be considered: it is not coloured, or has the current colour. -/
def colourable (colour : List Nat) (c v : Nat) : Bool := colourOf colour v == 0 || colourOf colour v == c

/-- `add_permute_preventing_edges`, lib/framework-dfp.c:680-745, for loop `j` of statement `i`. The code changes
the row of the coefficient in place and resets it. -/
def selfSystem (o : SearchOpts) (p : Prog) (i j : Nat) : Cst :=
  let w := cstWidth p.nvar p.npar p.stmts.length
  ⟨w, (coeffBoundConstraints o p).rows ++ modeRows w (upd (mode0 p.npar) (stmtOffset p.nvar p.npar i + j) (false, -1)) ++
    intraRows o p i⟩

/-- `add_permute_preventing_edges`, lib/framework-dfp.c:680-745: the vertices that get a self edge. -/
def selfEdges (lp : Cst → Bool) (o : SearchOpts) (p : Prog) (colour : List Nat) (c : Nat) : List Nat :=
  (List.range p.stmts.length).flatMap (fun i =>
    if intraDeps o p i = [] then []
    else ((List.range (stmtBlock p i).count).filter (fun j =>
      colourable colour c (fcgOffset p i + j) && !lp (selfSystem o p i j))).map (fcgOffset p i + ·))

/-- Unsatisfied dependences between two statements, in either direction; `fcg_add_pairwise_edges`,
lib/framework-dfp.c:230-369. -/
def pairDeps (p : Prog) (i j : Nat) : List Dep :=
  p.deps.filter (fun d => !d.satisfied && ((d.src == i && d.dest == j) || (d.src == j && d.dest == i)))

/-- The system that `fcg_add_pairwise_edges`, lib/framework-dfp.c:230-369, solves for loop `k` of statement `i` and
loop `l` of statement `j`. The code changes rows in place and resets them; the shifts of both statements are made free
by the caller (lib/framework-dfp.c:1080-1226). -/
def pairSystem (o : SearchOpts) (p : Prog) (i j k l : Nat) : Cst :=
  let w := cstWidth p.nvar p.npar p.stmts.length
  let oi := stmtOffset p.nvar p.npar i
  let oj := stmtOffset p.nvar p.npar j
  let m := upd (upd (mode0 p.npar) (oi + p.nvar) (false, 0)) (oj + p.nvar) (false, 0)
  ⟨w, (coeffBoundConstraints o p).rows ++ modeRows w (upd (upd m (oi + k) (false, -1)) (oj + l) (false, -1)) ++
    (pairDeps p i j).flatMap (fun d => (depCst o.nodepbound p d).rows) ++ intraRows o p i ++ intraRows o p j⟩

/-- `fcg_add_pairwise_edges`, lib/framework-dfp.c:230-369. `self` are the vertices with a self edge. The test of the
self edge of the vertex of statement `j` looks at the vertex of statement `i` again and never applies. -/
def pairEdges (lp : Cst → Bool) (o : SearchOpts) (p : Prog) (colour : List Nat) (c : Nat) (self : List Nat) (i j : Nat) :
    List (Nat × Nat) :=
  (List.range (stmtBlock p i).count).flatMap (fun k =>
    if !colourable colour c (fcgOffset p i + k) then []
    else if fcgOffset p i + k ∈ self then
      (List.range (stmtBlock p j).count).map (fun l => (fcgOffset p i + k, fcgOffset p j + l))
    else ((List.range (stmtBlock p j).count).filter (fun l =>
        colourable colour c (fcgOffset p j + l) && !lp (pairSystem o p i j k l))).map
          (fun l => (fcgOffset p i + k, fcgOffset p j + l)))

/-- Pairs `(i, j)` with `i < j < n`. -/
def upperPairs (n : Nat) : List (Nat × Nat) :=
  (List.range n).flatMap (fun i => (List.range' (i + 1) (n - (i + 1))).map (fun j => (i, j)))

/-- Edges between different loops of a statement, lib/framework-dfp.c:1080-1226. -/
def intraEdges (p : Prog) (i : Nat) : List (Nat × Nat) :=
  ((allPairs (stmtBlock p i).count).filter (fun x => x.1 != x.2)).map (fun x => (fcgOffset p i + x.1, fcgOffset p i + x.2))

/-- `trans->val[l][nvar + npar]` of statement `i`. -/
def cutId (p : Prog) (i l : Nat) : Int := ((p.stmts[i]?.bind (·.trans[l]?)).bind (·[p.nvar + p.npar]?)).getD 0

/-- `are_sccs_fused`, lib/framework-dfp.c:987-1012, for the components of statements `i` and `j`. -/
def sccsFused (a : Auto) (i j : Nat) : Bool :=
  (List.range a.p.hProps.length).all (fun l => a.p.hProps[l]? == some .loop ||
    cutId a.p (a.firstStmt (a.scc i).toNat) l == cutId a.p (a.firstStmt (a.scc j).toNat) l)

/-- `add_must_distribute_edges`, lib/framework-dfp.c:1016-1072. -/
def distributeEdges (a : Auto) : List (Nat × Nat) :=
  let g := transitiveClosure (ddgCreate a.p)
  (upperPairs a.p.stmts.length).flatMap (fun x =>
    if g.isAdjacent x.1 x.2 then []
    else if !sccsFused a x.1 x.2 then []
    else (List.range (stmtBlock a.p x.1).count).flatMap (fun k =>
      (List.range (stmtBlock a.p x.2).count).map (fun l => (fcgOffset a.p x.1 + k, fcgOffset a.p x.2 + l))))

/-- All entries set by `build_fusion_conflict_graph`, lib/framework-dfp.c:1080-1226. -/
def fcgEdges (lp : Cst → Bool) (o : SearchOpts) (a : Auto) (colour : List Nat) (c : Nat) : List (Nat × Nat) :=
  let self := selfEdges lp o a.p colour c
  self.map (fun v => (v, v)) ++
  (upperPairs a.p.stmts.length).flatMap (fun x =>
    if a.g.isAdjacent x.1 x.2 then pairEdges lp o a.p colour c self x.1 x.2 else []) ++
  (List.range a.p.stmts.length).flatMap (intraEdges a.p) ++
  (if c = 1 then distributeEdges a else [])

/-- `build_fusion_conflict_graph`, lib/framework-dfp.c:1080-1226. -/
def buildFcg (lp : Cst → Bool) (o : SearchOpts) (a : Auto) (colour : List Nat) (c : Nat) : Graph :=
  let es := fcgEdges lp o a colour c
  ⟨fcgSize a.p, fun u v => if (u, v) ∈ es then 1 else 0⟩

end Pluto
