import Verif.Model.FcgBuild
/-! Model of the automatic transformation with `--dfp --clusterscc` (which `--typedfuse` and `--hybridfuse` turn on,
tool/main.cpp): the fusion conflict graph has a vertex per loop of each strongly connected component, and components are
coloured instead of statements (lib/framework-dfp.c, lib/pluto.c).

`build_fusion_conflict_graph` (lib/framework-dfp.c:1080-1226) is a function argument here and defined in
Model/FcgCluster.lean; `is_scc_stencil` (lib/framework.cpp) is a function argument. Not modelled: statistics and printing; `dep_dist_mat` and `get_min_vertex_from_lp_sol`
(lib/framework-dfp.c:1929-1956), which nothing calls. `none` stands for a failed assertion, an out-of-range access, or for
running out of `fuel`. -/
namespace Pluto

/-- What `build_fusion_conflict_graph` leaves behind: the graph, `par_preventing_adj_mat`, and `is_parallel` of each
component. -/
structure ClFcg where
  g : Graph
  par : Nat → Nat → Nat
  isPar : Nat → Bool

/-- Calls of `build_fusion_conflict_graph`: program and dependence graph, colours, current colour, `has_parallel_hyperplane` and
`is_scc_stencil` of each component. -/
abbrev ClBuild := Auto → List Nat → Nat → (Nat → Bool) → (Nat → Bool) → ClFcg

/-- Options: `fuse == kTypedFuse`, `hybridcut`, `lpcolour`, `delayed_cut`. -/
structure ClOpts where
  typed : Bool
  hybrid : Bool
  lpcolour : Bool
  delayedCut : Bool

/-- The program and dependence graph, the fusion conflict graph, the colours of its vertices, `coloured_dims`,
`to_be_rebuilt`, and `is_scc_coloured`, `has_parallel_hyperplane`, `is_scc_stencil` of each component. -/
structure Cl where
  a : Auto
  f : ClFcg
  colour : List Nat
  coloured : Nat
  rebuild : Bool
  done : Nat → Bool
  hasPar : Nat → Bool
  stencil : Nat → Bool

/-- `sccs[s].max_dim`. -/
def Auto.width (a : Auto) (s : Nat) : Nat := (a.maxDim s).toNat

/-- `sccs[s].fcg_scc_offset`, lib/pluto.c:1619-1626 and lib/framework-dfp.c:2382-2383 (`max_dim` of earlier components
added up; it is not set for components without loops, where it is not used either). -/
def Auto.sccOffset (a : Auto) (s : Nat) : Nat := ((List.range s).map a.width).sum

/-- Vertices of component `s`. -/
def Auto.sccBlock (a : Auto) (s : Nat) : Block := ⟨a.sccOffset s, a.width s⟩

/-- Number of vertices, lib/pluto.c:1619-1626 and lib/framework-dfp.c:2424-2428. -/
def Auto.clSize (a : Auto) : Nat := a.sccOffset a.num

/-- `scc_has_must_distribute_edges`, lib/framework-dfp.c:1590-1620, in the clustered approach. -/
def Cl.mustDistribute (d : Cl) (k : Nat) : Bool :=
  if d.a.maxDim k = 0 then false
  else (List.range k).any (fun i => decide (d.a.maxDim i ≠ 0) && !d.a.connected i k &&
    d.f.g.isAdjacent (d.a.sccOffset i) (d.a.sccOffset k))

/-- `get_min_succ_scc`, lib/framework-dfp.c:1368-1376. -/
def Auto.minSucc (a : Auto) (s : Nat) : Nat :=
  ((List.range' (s + 1) (a.num - (s + 1))).find? (fun i : Nat => a.connected s i)).getD a.num

/-- `get_max_pred_scc`, lib/framework-dfp.c:1380-1387, plus one (0 if there is none). -/
def Auto.maxPredSucc (a : Auto) (s : Nat) : Nat :=
  (((List.range s).reverse.find? (fun i : Nat => a.connected i s)).map (· + 1)).getD 0

/-- `is_convex_scc`, lib/framework-dfp.c:1390-1398. -/
def Auto.isConvex (a : Auto) (s1 s2 : Nat) : Bool := decide (a.maxPredSucc s2 < a.minSucc s1 + 1)

/-- `get_convex_successors`, lib/framework-dfp.c:1623-1644. -/
def Cl.convexSucc (d : Cl) (s : Nat) : List Nat :=
  ((List.range' (s + 1) (d.a.num - (s + 1))).takeWhile (fun i => !d.mustDistribute i)).filter (fun i => d.a.isConvex s i)

/-- `get_convex_parallel_successors`, lib/framework-dfp.c:1648-1673. -/
def Cl.convexParSucc (d : Cl) (s : Nat) : List Nat := (d.convexSucc s).filter d.f.isPar

/-- `is_colour_par_preventing`, lib/framework-dfp.c:1677-1685. -/
def Cl.parPreventing (d : Cl) (c v : Nat) : Bool :=
  (List.range d.f.g.n).any (fun i => colourOf d.colour i == c && (d.f.par v i != 0 || d.f.par i v != 0))

/-- The condition under which `colour_scc_cluster_greedy` takes vertex `v` for a parallel loop that can be coloured,
lib/framework-dfp.c:1817-1826; also part of the conditions in lib/framework-dfp.c:1714-1719 and 1772-1777. -/
def Cl.parFree (d : Cl) (c v : Nat) : Bool :=
  colourOf d.colour v == 0 && d.f.g.adj v v == 0 && d.f.par v v == 0 && isValidColour d.f.g d.f.par v c d.colour true

/-- `get_common_parallel_dims`, lib/framework-dfp.c:1690-1735, for loop `k` of component `s`, which is parallel and not
coloured: the number of components among `succ` that have a loop that can be fused with it. -/
def Cl.commonPar (d : Cl) (c s : Nat) (succ : List Nat) (k : Nat) : Nat :=
  succ.countP (fun t => (List.range (d.a.width t)).any (fun j =>
    d.parFree c (d.a.sccOffset t + j) && !d.f.g.isAdjacent (d.a.sccOffset t + j) (d.a.sccOffset s + k) &&
    d.f.par (d.a.sccOffset t + j) (d.a.sccOffset s + k) == 0 && d.f.par (d.a.sccOffset s + k) (d.a.sccOffset t + j) == 0))

/-- `get_colouring_dim`, lib/framework-dfp.c:1741-1755: the first of the loops `0, …, n - 1` with the largest count;
none if all counts are 0. -/
def colouringDim (count : Nat → Nat) : Nat → Option Nat
  | 0 => none
  | n + 1 =>
    match colouringDim count n with
    | none => if count n > 0 then some n else none
    | some i => if count n > count i then some n else some i

/-- Give vertex `v` of component `s` colour `c` as a parallel loop. -/
def Cl.paintPar (d : Cl) (c s v : Nat) : Cl :=
  { d with colour := d.colour.set v c, done := fun t => if t = s then true else d.done t
           hasPar := fun t => if t = s then true else d.hasPar t }

/-- `colour_convex_successors`, lib/framework-dfp.c:1759-1789. `k` is the vertex coloured before. -/
def Cl.paintSucc (c k : Nat) : List Nat → Cl → Cl
  | [], d => d
  | t :: ts, d =>
    match (List.range (d.a.width t)).find? (fun j =>
        d.parFree c (d.a.sccOffset t + j) && d.f.par (d.a.sccOffset t + j) k == 0) with
    | some j => Cl.paintSucc c k ts (d.paintPar c t (d.a.sccOffset t + j))
    | none => Cl.paintSucc c k ts d

/-- `colour_scc_cluster_greedy`, lib/framework-dfp.c:1797-1896. -/
def Cl.greedy (c s : Nat) (d : Cl) : Cl × Bool :=
  let off := d.a.sccOffset s
  let pars := (List.range (d.a.width s)).filter (fun i => d.parFree c (off + i))
  match pars with
  | [] => (d, false)
  | i0 :: _ =>
    let succ := d.convexParSucc s
    if succ = [] then (d.paintPar c s (off + i0), true)
    else
      match colouringDim (fun k => if k ∈ pars then d.commonPar c s succ k else 0) (d.a.width s) with
      | none => (d.paintPar c s (off + i0), true)
      | some k => ((d.paintPar c s (off + k)).paintSucc c (off + k) succ, true)

/-- `cut_from_predecessor`, lib/framework-dfp.c:1899-1906; the list runs through the components below `s` from the last
one on. -/
def cutFromPred (isEmpty : Cst → Bool) (s : Nat) : List Nat → Auto → Option Auto
  | [], a => some a
  | i :: is, a =>
    if a.connected i s then do
      let (a, _) ← a.cutBetween isEmpty i s
      cutFromPred isEmpty s is a
    else cutFromPred isEmpty s is a

/-- `cut_around_scc`, lib/framework-dfp.c:1402-1442; the list runs through the components. -/
def cutAround (isEmpty : Cst → Bool) (fuse : Fuse) (s : Nat) : List Nat → Auto → Option Auto
  | [], a => some a
  | j :: js, a =>
    if j = s then cutAround isEmpty fuse s js a
    else if j < s ∧ a.connected j s = true then
      if fuse = .no then do
        let (a, _) ← a.cutAll isEmpty
        cutAround isEmpty fuse s js a
      else do
        let (a, _) ← a.cutBetween isEmpty j s
        match (List.range' (s + 1) (a.num - (s + 1))).find? (fun l : Nat => a.connected s l) with
        | some l => (a.cutBetween isEmpty s l).map (·.1)
        | none => some a
    else if a.connected s j = true then
      if fuse = .no then (a.cutAll isEmpty).map (·.1) else (a.cutBetween isEmpty s j).map (·.1)
    else cutAround isEmpty fuse s js a

/-- `get_colourable_dims`, lib/framework-dfp.c:1961-1983. -/
def Cl.colourable (d : Cl) (s : Nat) (disc : List Nat) : List Nat :=
  (List.range (d.a.width s)).filter (fun i => colourOf d.colour (d.a.sccOffset s + i) == 0 &&
    !d.f.g.isAdjacent (d.a.sccOffset s + i) (d.a.sccOffset s + i) && !isDiscarded (d.a.sccOffset s + i) disc)

/-- `get_min_convex_successor`, lib/framework-dfp.c:1910-1925, of a component with convex successors: the first that is
connected to it, else the last. -/
def Cl.minConvex (d : Cl) (s : Nat) : Nat :=
  ((d.convexSucc s).find? (fun t : Nat => d.a.connected s t)).getD ((d.convexSucc s).getLastD 0)

/-- `get_convex_preds_from_convex_successors`, lib/framework-dfp.c:2028-2047. -/
def convexPreds (m s : Nat) (succ : List Nat) : List Nat :=
  (succ.filter (fun t => decide (t ≤ m))).map (fun t => if t = m then s else t)

/-- `get_common_dims`, lib/framework-dfp.c:1988-2023, for loop `i` of component `s`. -/
def Cl.commonDims (d : Cl) (c s : Nat) (ts : List Nat) (i : Nat) : Nat :=
  ts.countP (fun t => (List.range (d.a.width t)).any (fun k =>
    colourOf d.colour (d.a.sccOffset t + k) == 0 && !d.f.g.isAdjacent (d.a.sccOffset s + i) (d.a.sccOffset t + k) &&
    d.f.g.adj (d.a.sccOffset t + k) (d.a.sccOffset t + k) == 0 &&
    isValidColour d.f.g d.f.par (d.a.sccOffset t + k) c d.colour false))

/-- `get_next_min_vertex_scc_cluster`, lib/framework-dfp.c:2050-2193: the loop of component `s` to be tried next, none
for -1. -/
def Cl.nextLoop (lpcolour : Bool) (c s : Nat) (disc : List Nat) (d : Cl) : Option Nat :=
  if lpcolour then
    match d.colourable s disc with
    | [] => none
    | i0 :: is =>
      let succ := d.convexSucc s
      if succ = [] then some i0
      else
        let m := d.minConvex s
        let ok := d.colourable m disc
        match colouringDim (fun i => if i ∈ ok then d.commonDims c m (convexPreds m s succ) i else 0) (d.a.width m) with
        | none => some i0
        | some j =>
          some (((i0 :: is).find? (fun i => !d.f.g.isAdjacent (d.a.sccOffset s + i) (d.a.sccOffset m + j))).getD i0)
  else (List.range (d.a.width s)).find? (fun i => !isDiscarded (d.a.sccOffset s + i) disc)

/-- The loop of `colour_scc_cluster`, lib/framework-dfp.c:2242-2295, with `n` tries left. -/
def Cl.tryLoops (o : ClOpts) (c s : Nat) : Nat → List Nat → Cl → Cl × Bool
  | 0, _, d => (d, false)
  | n + 1, disc, d =>
    match d.nextLoop o.lpcolour c s disc with
    | none => (d, false)
    | some i =>
      let v := d.a.sccOffset s + i
      if colourOf d.colour v > 0 && colourOf d.colour v != c then Cl.tryLoops o c s n (disc ++ [v]) d
      else if d.f.g.adj v v == 1 then Cl.tryLoops o c s n (disc ++ [v]) d
      else if isValidColour d.f.g d.f.par v c d.colour false then
        if o.typed && d.f.isPar s && d.parPreventing c v then Cl.tryLoops o c s n (disc ++ [v]) d
        else ({ d with colour := d.colour.set v c }, true)
      else Cl.tryLoops o c s n (disc ++ [v]) d

/-- Remove the edges between vertices below and from `off` on, `update_scc_cluster_fcg_between_sccs`,
lib/framework-dfp.c:851-898 (components are numbered in the order of their vertices). -/
def clearAcross (off n : Nat) (adj : Nat → Nat → Nat) : Nat → Nat → Nat := fun u v =>
  if u < n ∧ v < n ∧ ((u < off ∧ off ≤ v) ∨ (v < off ∧ off ≤ u)) then 0 else adj u v

/-- `update_fcg_between_sccs`, lib/framework-dfp.c:903-964, in the clustered approach, for `scc2 = s`. With `--nofuse` and
more than one component (the callers then have one) `update_scc_cluster_fcg_between_sccs` either fails its assertion
`scc1 != scc2` or writes to row `nVertices` of the adjacency matrix, which does not exist: its loops run up to
`dim1 <= max_dim`. -/
def Cl.updateFcg (o : ClOpts) (fuse : Fuse) (s : Nat) (d : Cl) : Option Cl :=
  if !o.typed && d.rebuild then none
  else if d.a.p.stmts.length = 1 then some d
  else if fuse = .no then none
  else
    some { d with f := { d.f with
      g := ⟨d.f.g.n, clearAcross (d.a.sccOffset s) d.a.clSize d.f.g.adj⟩
      par := if o.typed then clearAcross (d.a.sccOffset s) d.a.clSize d.f.par else d.f.par } }

/-- `colour_scc_cluster`, lib/framework-dfp.c:2196-2298. -/
def Cl.colourScc (isEmpty : Cst → Bool) (o : ClOpts) (fuse : Fuse) (c s : Nat) (d : Cl) : Option (Cl × Bool) :=
  if (d.coloured : Int) > d.a.maxDim s then some (d, true)
  else if (d.coloured : Int) = d.a.maxDim s then
    if o.delayedCut then some (d, true)
    else do
      let a ← cutAround isEmpty fuse s (List.range d.a.num) d.a
      return ({ d with a := a }, true)
  else if o.typed && !d.stencil s && d.f.isPar s && !(o.hybrid && d.hasPar s) then
    let r := d.greedy c s
    if r.2 then some r
    else do
      let a ← cutFromPred isEmpty s (List.range s).reverse d.a
      let d ← Cl.updateFcg o fuse s { d with a := a }
      return d.greedy c s
  else some (Cl.tryLoops o c s (d.a.width s) [] d)

/-- Distribution required by must distribute edges, lib/framework-dfp.c:2520-2526. -/
def Cl.distribute (isEmpty : Cst → Bool) (o : ClOpts) (fuse : Fuse) (k : Nat) (d : Cl) : Option Cl :=
  if k ≥ 1 ∧ d.mustDistribute k = true then do
    let d ← Cl.updateFcg o fuse k { d with a := { d.a with p := addScalarBetween d.a k } }
    let (p, _) ← satUpdateLast isEmpty d.a.p
    return { d with a := { d.a with p := p } }
  else some d

/-- `are_sccs_fused`, lib/framework-dfp.c:987-1012: the scalar rows of the first statements of the two components
agree. -/
def clFused (a : Auto) (s1 s2 : Nat) : Bool :=
  (List.range a.p.hProps.length).all (fun l => a.p.hProps[l]? == some .loop ||
    cutId a.p (a.firstStmt s1) l == cutId a.p (a.firstStmt s2) l)

/-- Separate component `s` from the one coloured before it, lib/framework-dfp.c:2540-2551 and 2554-2562. A scalar row
that is added without a cut is not checked for dependences that it satisfies. -/
def Cl.separate (isEmpty : Cst → Bool) (o : ClOpts) (fuse : Fuse) (prev s : Nat) (d : Cl) : Option Cl :=
  if clFused d.a prev s then
    if d.a.connected prev s then do
      let (a, _) ← d.a.cutBetween isEmpty prev s
      Cl.updateFcg o fuse s { d with a := a }
    else some { d with a := { d.a with p := addScalarBetween d.a s } }
  else some d

/-- Typed fusion separates parallel from sequential components, lib/framework-dfp.c:2532-2571. `pc` is
`is_parallel_scc_coloured`. -/
def Cl.typedCut (isEmpty : Cst → Bool) (o : ClOpts) (fuse : Fuse) (pc : Bool) (prev : Option Nat) (s : Nat) (d : Cl) : Option Cl :=
  match prev with
  | none => some d
  | some t =>
    if o.typed && ((!d.f.isPar s && pc) || (d.f.isPar s && !(o.hybrid && d.hasPar s) && !pc)) then
      Cl.separate isEmpty o fuse t s d
    else some d

/-- `cut_all_sccs` with `--nofuse`. -/
def Cl.cutIfNoFuse (isEmpty : Cst → Bool) (fuse : Fuse) (d : Cl) : Option Cl :=
  if fuse = .no then (d.a.cutAll isEmpty).map (fun x => { d with a := x.1 }) else some d

/-- The cut after which colouring component `s` is tried again, lib/framework-dfp.c:2670-2682. -/
def Cl.cutAndUpdate (isEmpty : Cst → Bool) (o : ClOpts) (fuse : Fuse) (prev : Option Nat) (s : Nat) (d : Cl) : Option Cl :=
  if fuse = .no then do
    let (a, _) ← d.a.cutAll isEmpty
    Cl.updateFcg o fuse 0 { d with a := a }
  else
    match (List.range ((prev.map (· + 1)).getD 0)).reverse.find? (fun j : Nat => d.a.connected j s) with
    | some j => do
      let (a, _) ← d.a.cutBetween isEmpty j s
      Cl.updateFcg o fuse s { d with a := a }
    | none => Cl.updateFcg o fuse s d

/-- `get_vertex_colour_from_scc_colour`, lib/framework-dfp.c:2302-2320: the colour of loop `j` of statement `i`. -/
def stmtColour (a : Auto) (colour : List Nat) (i j : Nat) : Nat :=
  if j < (a.p.stmts[i]?.map (·.dimOrig)).getD 0 then colourOf colour (a.sccOffset (a.scc i).toNat + j) else 0

/-- The statement whose colours a component gets, lib/framework-dfp.c:2371-2375: the first one with `dim == max_dim`, else
the last one. `dim` is the padded number of loops (`normalize_domains`). -/
def Auto.colourStmt (a : Auto) (s : Nat) : Nat :=
  ((a.sccStmts s).find? (fun i => decide (((a.p.stmts[i]?.map (·.dim)).getD 0 : Int) = a.maxDim s))).getD
    ((a.sccStmts s).getLastD 0)

/-- `get_scc_colours_from_vertex_colours`, lib/framework-dfp.c:2353-2390: the colours of the loops of the components. -/
def sccColours (a : Auto) (sc : Nat → Nat → Nat) : List Nat :=
  (List.range a.num).flatMap (fun s => (List.range (a.width s)).map (fun j => sc (a.colourStmt s) j))

/-- `rebuild_scc_cluster_fcg`, lib/framework-dfp.c:2395-2465. `has_parallel_hyperplane` and `is_scc_stencil` are carried
over from the component of the first statement (lib/framework-dfp.c:2325-2348). -/
def Cl.rebuildFcg (fcgOf : ClBuild) (c : Nat) (d : Cl) : Option Cl := do
  let sc := stmtColour d.a d.colour
  let a ← ({ d.a with g := ddgUpdate d.a.g d.a.p } : Auto).computeScc
  let colour := sccColours a sc
  let hasPar := fun s => d.hasPar (d.a.scc (a.firstStmt s)).toNat
  let stencil := fun s => d.stencil (d.a.scc (a.firstStmt s)).toNat
  return {
    a := a, f := fcgOf a colour c hasPar stencil, colour := colour, coloured := d.coloured, rebuild := false
    done := fun s => (List.range (a.width s)).any (fun j => sc (a.colourStmt s) j == c)
    hasPar := hasPar
    stencil := stencil }

/-- The last attempt, after a precise satisfaction check, lib/framework-dfp.c:2691-2723. -/
def Cl.lastTry (isEmpty : Cst → Bool) (o : ClOpts) (fcgOf : ClBuild) (fuse : Fuse) (c s : Nat) (d : Cl) :
    Option Cl := do
  let (p, _) ← computeDepSatisfactionPrecise isEmpty d.a.p
  let a := { d.a with p := p }
  let (d, ok) ← Cl.colourScc isEmpty o fuse c s { d with a := a, f := fcgOf a d.colour c d.hasPar d.stencil, rebuild := false }
  if ok = true then return d else none

/-- Component `s` is coloured. -/
def Cl.mark (d : Cl) (s : Nat) : Cl := { d with done := fun t => if t = s then true else d.done t }

/-- What becomes of component `s`: the next component is next, or all are visited again. -/
inductive ClNext
  | go (d : Cl)
  | again (d : Cl)

/-- Body of the loop of `colour_fcg_scc_based`, lib/framework-dfp.c:2493-2735, for component `s` that is not coloured yet
and has enough loops. -/
def Cl.colourOne (isEmpty : Cst → Bool) (o : ClOpts) (fcgOf : ClBuild) (fuse : Fuse) (c : Nat) (pc : Bool)
    (prev : Option Nat) (s : Nat) (d : Cl) : Option ClNext := do
  let d ← Cl.distribute isEmpty o fuse s d
  let d ← Cl.typedCut isEmpty o fuse pc prev s d
  let (d, ok) ← Cl.colourScc isEmpty o fuse c s d
  if ok = true then return .go (d.mark s)
  else if d.rebuild = true ∨ s = 0 then do
    let d ← Cl.cutIfNoFuse isEmpty fuse d
    let d ← Cl.rebuildFcg fcgOf c d
    return .again d
  else do
    let d ← Cl.cutAndUpdate isEmpty o fuse prev s d
    let (d, ok) ← Cl.colourScc isEmpty o fuse c s d
    if ok = true then return .go (d.mark s)
    else do
      let d ← Cl.lastTry isEmpty o fcgOf fuse c s d
      return .go (d.mark s)

/-- `colour_fcg_scc_based`, lib/framework-dfp.c:2493-2735, from component `s` on. `pc` is `is_parallel_scc_coloured`, which
is not reset when the components are visited again. -/
def Cl.colourFcg (isEmpty : Cst → Bool) (o : ClOpts) (fcgOf : ClBuild) (fuse : Fuse) (c : Nat) :
    Nat → Bool → Option Nat → Nat → Cl → Option Cl
  | 0, _, _, _, _ => none
  | fuel + 1, pc, prev, s, d =>
    if d.a.num ≤ s then some d
    else if d.done s || decide (d.a.maxDim s < (c : Int)) then Cl.colourFcg isEmpty o fcgOf fuse c fuel pc (some s) (s + 1) d
    else do
      match (← Cl.colourOne isEmpty o fcgOf fuse c pc prev s d) with
      | .go d' => Cl.colourFcg isEmpty o fcgOf fuse c fuel (if o.typed then d.f.isPar s else pc) (some s) (s + 1) d'
      | .again d' => Cl.colourFcg isEmpty o fcgOf fuse c fuel (if o.typed then d.f.isPar s else pc) none 0 d'

/-- `add_coeff_constraints_from_scc_clustered_fcg_colouring`, lib/framework-dfp.c:2865-2912, for the coefficient of loop
`k` of statement `i` in component `s`. -/
def clCoeffCst (a : Auto) (colour : List Nat) (c s i k : Nat) (cst : Cst) : Cst :=
  let v := stmtOffset a.p.nvar a.p.npar i + k
  let orig := ((a.p.stmts[i]?.map (·.isOrig)).getD []).getD k false
  if a.maxDim s < (c : Int) then
    if orig then addLb cst v 0 else setVar cst v 0
  else if colourOf colour (a.sccOffset s + k) == c && orig then addLb cst v 1
  else setVar cst v 0

/-- The loops of the statements of the components, in the order of
`add_coeff_constraints_from_scc_clustered_fcg_colouring`. -/
def Auto.clLoops (a : Auto) : List (Nat × Nat × Nat) :=
  (List.range a.num).flatMap (fun s => (a.sccStmts s).flatMap (fun i => (List.range (a.width s)).map (fun k => (s, i, k))))

/-- `add_coeff_constraints_from_scc_clustered_fcg_colouring`, lib/framework-dfp.c:2865-2912. -/
def clColourCst (a : Auto) (colour : List Nat) (c : Nat) (cst : Cst) : Cst :=
  a.clLoops.foldl (fun cst x => clCoeffCst a colour c x.1 x.2.1 x.2.2 cst) cst

/-- `scale_shift_permutations`, lib/framework-dfp.c:2952-3034, in the clustered approach, for colour `c`, with the
assertion of its caller that a hyperplane was found. All components were visited, so that all statements are counted as
coloured (`total_coloured_stmts`). -/
def clScaleShift (o : SearchOpts) (delayedCut : Bool) (L : Libs) (lex : Lex) (a : Auto) (colour : List Nat) (c : Nat) : Option Auto := do
  let coeff := clColourCst a colour c (coeffBoundConstraints o a.p)
  match (← lex a (addCst coeff (permutabilityConstraints o.rar o.nodepbound a.p))) with
  | some sol => return { a with p := addHyperplane a.p sol }
  | none =>
    if delayedCut then do
      let a ← a.cutSmart L.isEmpty
      match (← lex a (addCst coeff (permutabilityConstraints o.rar o.nodepbound a.p))) with
      | some sol => return { a with p := addHyperplane a.p sol }
      | none => none
    else none

/-- Body of the loop of `find_permutable_dimensions_scc_based`, lib/framework-dfp.c:2752-2856, in the clustered approach:
dependence graph and components are not updated. -/
def Cl.level (o : SearchOpts) (co : ClOpts) (L : Libs) (lex : Lex) (fcgOf : ClBuild) (fuse : Fuse) (fuel c : Nat)
    (d : Cl) : Option Cl := do
  let d ← Cl.colourFcg L.isEmpty co fcgOf fuse c fuel false none 0 { d with done := fun _ => false }
  let a ← clScaleShift o co.delayedCut L lex d.a d.colour c
  let (p, _) ← satUpdateLast L.isEmpty a.p
  return { d with a := { a with p := p }, coloured := d.coloured + 1, rebuild := true }

/-- `find_permutable_dimensions_scc_based`, lib/framework-dfp.c:2752-2856, from colour `c` on. -/
def Cl.levels (o : SearchOpts) (co : ClOpts) (L : Libs) (lex : Lex) (fcgOf : ClBuild) (fuse : Fuse) (fuel : Nat) :
    Nat → Nat → Cl → Option Cl
  | 0, _, d => some d
  | n + 1, c, d => do
    let d ← Cl.level o co L lex fcgOf fuse fuel c d
    Cl.levels o co L lex fcgOf fuse fuel n (c + 1) d

/-- Initial state, lib/pluto.c:1584-1660 and lib/framework-dfp.c:2760-2765. `sten` is `is_scc_stencil`, which is called
before the components are computed again with `--nofuse`; the values are used with typed fusion only. -/
def clInit (o : AutoOpts) (co : ClOpts) (L : Libs) (fcgOf : ClBuild) (sten : Auto → Nat → Bool) (a : Auto) :
    Option Cl := do
  let s ← autoInit { o with fuse := .max } L a
  let a ← noFuseCut o L s.a
  let colour := List.replicate a.clSize 0
  let st := fun k => co.typed && sten s.a k
  return ⟨a, fcgOf a colour 1 st st, colour, 0, false, fun _ => false, st, st⟩

/-- `pluto_auto_transform`, lib/pluto.c:1492-1850, with `--dfp --clusterscc` and without diamond tiling and custom fusion
files. `skew` is `introduce_skew` (Verif/Model/Skew.lean). `fuel` bounds the visits of components at a level. -/
def clTransform (o : AutoOpts) (co : ClOpts) (L : Libs) (lex : Lex) (fcgOf : ClBuild) (sten : Auto → Nat → Bool)
    (skew : Auto → Option Auto) (fuel : Nat) (d0 : DfsState) (p0 : Prog) : Option Prog := do
  let p := { p0 with deps := p0.deps.map (fun d => { d with satisfied := false }) }
  let a ← (⟨p, ddgCreate p, d0, fun _ => -1, 0⟩ : Auto).computeScc
  if p.stmts = [] then return p
  else do
    let d ← clInit o co L fcgOf sten a
    let d ← Cl.levels o.toSearchOpts co L lex fcgOf o.fuse fuel d.a.p.nvar 1 d
    let a ← skew d.a
    let a ← dfpEnd L a
    denormalizeDomains a.p

end Pluto
