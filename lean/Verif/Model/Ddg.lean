import Verif.Model.Prog
import Mathlib.Data.List.Sort

/-!
Model of lib/ddg.c and of the graph functions of lib/pluto.c. Arrays indexed by vertices are functions
on `Nat`; only indices below the number of vertices are used.
-/

namespace Pluto

/-- `struct graph`, lib/ddg.h:73-97 (number of vertices and adjacency matrix). -/
structure Graph where
  n : Nat
  adj : Nat → Nat → Nat

/-- Visit number, finish number and connected component of every vertex (`struct vertex`,
lib/ddg.h:21-34), and the clock. -/
structure DfsState where
  vn : Nat → Nat
  fn : Nat → Nat
  cc : Nat → Int
  time : Nat

/-- Array assignment `a[i] = v`. -/
def upd {α : Type} (a : Nat → α) (i : Nat) (v : α) : Nat → α := fun j => if j = i then v else a j

/-- `graph_transpose`, lib/ddg.c:72-84. -/
def Graph.transpose (g : Graph) : Graph := ⟨g.n, fun i j => g.adj j i⟩

/-- `get_undirected_graph`, lib/ddg.c:88-100: for `j <= i` the entry is `adj[i][j]`, or `adj[j][i]` if
that is zero; mirrored above the diagonal. -/
def Graph.undirected (g : Graph) : Graph :=
  let low := fun i j => if g.adj i j = 0 then g.adj j i else g.adj i j
  ⟨g.n, fun i j => if j ≤ i then low i j else low j i⟩

/-- `dfs_vertex`, lib/ddg.c:116-133. The recursion is bounded by fuel; `none` = out of fuel (shown
never to happen with fuel `n`). -/
def dfsVertex (g : Graph) : Nat → Nat → DfsState → Option DfsState
  | 0, _, _ => none
  | fuel + 1, v, s => do
    let s := { s with time := s.time + 1, vn := upd s.vn v (s.time + 1) }
    let s ← (List.range g.n).foldlM (fun (s : DfsState) j =>
      if g.adj v j ≠ 0 then
        let s := { s with cc := upd s.cc j (s.cc v) }
        if s.vn j = 0 then dfsVertex g fuel j s else some s
      else some s) s
    return { s with time := s.time + 1, fn := upd s.fn v (s.time + 1) }

/-- `dfs`, lib/ddg.c:136-149. -/
def dfsAll (g : Graph) (s0 : DfsState) : Option DfsState :=
  (List.range g.n).foldlM (fun s i => if s.vn i = 0 then dfsVertex g g.n i s else some s)
    { s0 with vn := fun _ => 0, time := 0 }

/-- State of `dfs_for_scc`: search state, `scc_id` (-1: none) and `numScc`. -/
structure SccState where
  d : DfsState
  scc : Nat → Int
  num : Nat

/-- Loop body of `dfs_for_scc` for vertex `v`. -/
def sccStep (g : Graph) (s : SccState) (v : Nat) : Option SccState :=
  if s.d.vn v = 0 then do
    let d ← dfsVertex g g.n v s.d
    return ⟨d, fun j => if j < g.n ∧ s.scc j = -1 ∧ d.vn j > 0 then (s.num : Int) else s.scc j, s.num + 1⟩
  else some s

/-- `dfs_for_scc`, lib/ddg.c:173-212. `qsort` by finish number is modelled by insertion sort (finish
numbers of different vertices differ). -/
def dfsForScc (g : Graph) (s0 : DfsState) : Option SccState :=
  (((List.range g.n).insertionSort (fun a b => s0.fn a ≤ s0.fn b)).reverse).foldlM (sccStep g)
    ⟨{ s0 with vn := fun _ => 0, time := 0 }, fun _ => -1, 0⟩

/-- `ddg_compute_scc`, lib/pluto.c:2018-2053: the component of every vertex and their number. `s0` is
the (arbitrary) previous content of the vertex fields. -/
def ddgComputeScc (g : Graph) (s0 : DfsState) : Option SccState := do
  let s ← dfsAll g s0
  dfsForScc g.transpose s

/-- Loop of `ddg_compute_cc` for vertex `i`; state: search state, `cc_id`, and the result array. -/
def ccStep (g : Graph) (s : DfsState × Int × (Nat → Int)) (i : Nat) :
    Option (DfsState × Int × (Nat → Int)) :=
  if s.1.vn i = 0 then do
    let id := s.2.1 + 1
    let d ← dfsVertex g g.n i { s.1 with cc := upd s.1.cc i id }
    return ({ d with cc := upd d.cc i id }, id, upd s.2.2 i id)
  else some ({ s.1 with cc := upd s.1.cc i s.2.1 }, s.2.1, upd s.2.2 i s.2.1)

/-- `ddg_compute_cc`, lib/pluto.c:1983-2015: component of every vertex and number of components. -/
def ddgComputeCc (g : Graph) (s0 : DfsState) : Option ((Nat → Int) × Nat) := do
  let s ← (List.range g.n).foldlM (ccStep g.undirected)
    ({ s0 with vn := fun _ => 0, time := 0 }, -1, fun _ => -1)
  return (s.2.2, (s.2.1 + 1).toNat)

/-- `compute_transitive_closure`, lib/ddg.c:103-113: loops over `i`, `j`, `k` with `k` innermost. -/
def transitiveClosure (g : Graph) : Graph :=
  ⟨g.n, (List.range g.n).foldl (fun a i => (List.range g.n).foldl (fun a j =>
    (List.range g.n).foldl (fun a k =>
      upd a i (upd (a i) j (if a i j ≠ 0 ∨ (a i k ≠ 0 ∧ a k j ≠ 0) then 1 else 0))) a) a) g.adj⟩

/-- The accumulation loop common to the next two functions: `adj[src][dest] += !satisfied` over the
non-input dependences. -/
def countDeps (deps : List Dep) (adj : Nat → Nat → Nat) : Nat → Nat → Nat :=
  deps.foldl (fun a d => if d.rar then a
    else upd a d.src (upd (a d.src) d.dest (a d.src d.dest + if d.satisfied then 0 else 1))) adj

/-- `ddg_create`, lib/pluto.c:1932-1947. -/
def ddgCreate (p : Prog) : Graph := ⟨p.stmts.length, countDeps p.deps (fun _ _ => 0)⟩

/-- `ddg_update`, lib/pluto.c:1908-1927. -/
def ddgUpdate (g : Graph) (p : Prog) : Graph := ⟨g.n, countDeps p.deps (fun _ _ => 0)⟩

/-- `is_adjacent`, lib/ddg.c:216-221. -/
def Graph.isAdjacent (g : Graph) (i j : Nat) : Bool := decide (g.adj i j ≠ 0 ∨ g.adj j i ≠ 0)

end Pluto
