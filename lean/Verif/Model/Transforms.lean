import Verif.Model.Tile

/-!
Model of the schedule edits made after tiling: `pluto_make_innermost_loop` (lib/transforms.c), the
wavefront and the diamond reschedule (lib/tile.c). `none`: a failed assertion or an access out of range.
-/

namespace Pluto

/-- Apply an edit to the listed statements, one after the other. -/
def updStmts (p : Prog) (is : List Nat) (f : Stmt → Option Stmt) : Option Prog :=
  is.foldlM (fun p i => do
    let st ← p.stmts[i]?
    let st' ← f st
    return { p with stmts := p.stmts.set i st' }) p

/-- `pluto_stmt_loop_interchange`, lib/transforms.c:60-66. The types of the levels are not touched. -/
def stmtInterchange (st : Stmt) (l1 l2 : Nat) : Option Stmt := do
  let r1 ← st.trans[l1]?
  let r2 ← st.trans[l2]?
  return { st with trans := (st.trans.set l1 r2).set l2 r1 }

/-- `n` interchanges of adjacent levels from `g` on: level `g` moves to `g + n`. -/
def rotate (st : Stmt) (g : Nat) : Nat → Option Stmt
  | 0 => some st
  | n + 1 => do stmtInterchange (← rotate st g n) (g + n) (g + n + 1)

/-- The loop `for (d = loop->depth; d < nrows; d++) if (scalar) break;` in
`pluto_make_innermost_loop`, lib/transforms.c:106-144, with `n` levels left. -/
def firstScalar (st : Stmt) : Nat → Nat → Option Nat
  | 0, d => some d
  | n + 1, d => do if (← isHyperplaneScalar st d) then return d else firstScalar st n (d + 1)

/-- `last_depth` in `pluto_make_innermost_loop`, lib/transforms.c:106-144, when scalar levels are not
crossed; `d - 1` is unsigned, so `d = 0` leaves the minimum unchanged. -/
def lastDepth (p : Prog) (l : Loop) : Option Nat :=
  l.stmts.foldlM (fun last i => do
    let st ← p.stmts[i]?
    let d ← firstScalar st (st.trans.length - l.depth) l.depth
    return if d = 0 then last else min last (d - 1)) (p.hProps.length - 1)

/-- `pluto_make_innermost_loop`, lib/transforms.c:106-144. With `across` the interchanges
`(current_level, d)`, `current_level = d` are those of adjacent levels. -/
def makeInnermost (p : Prog) (l : Loop) (lastLevel : Nat) (across : Bool) : Option Prog :=
  if p.hProps.length < 1 ∨ p.hProps.length < lastLevel then none
  else do
    let last ← if across then some (lastLevel - 1) else lastDepth p l
    updStmts p l.stmts (fun st => rotate st l.depth (last - l.depth))

/-- `pluto_is_band_innermost`, lib/polyloop.c:985-997, with `num_levels_introduced = 0`. -/
def isBandInnermost (p : Prog) (b : Band) (tiled : Nat) : Option Bool := do
  let bs ← b.loop.stmts.mapM (fun i => do
    let st ← p.stmts[i]?
    let first := b.loop.depth + (tiled + 1) * b.width
    let sc ← (List.range (st.trans.length - first)).mapM (fun j => isHyperplaneScalar st (first + j))
    return sc.all id)
  return bs.all id

/-- `are_stmts_fused_in_band`, lib/post_transform.c:291-316, for the one-statement bands of statements
`i` and `j`. -/
def fusedInBand (p : Prog) (b : Band) (tiled i j : Nat) : Option Bool := do
  let bs ← (List.range (tiled * b.width)).mapM (fun m => do
    if (← scalarAt p (b.loop.depth + m) i) then
      return decide ((← constAt p (b.loop.depth + m) i) = (← constAt p (b.loop.depth + m) j))
    else return true)
  return bs.all id

/-- One round of the inner loop of `fuse_per_stmt_bands`, lib/post_transform.c:321-401: `map` sends a
position in the list of statements to the number of its band. -/
def fuseStep (p : Prog) (b : Band) (tiled i : Nat) (map : List Nat) (j : Nat) : Option (List Nat) := do
  let mi ← map[i]?
  let mj ← map[j]?
  if mi = mj then return map
  else do
    let si ← b.loop.stmts[i]?
    let sj ← b.loop.stmts[j]?
    if (← fusedInBand p b tiled si sj) then return map.set j mi else return map

/-- The pass over `j > i` in `fuse_per_stmt_bands`, lib/post_transform.c:321-401. -/
def fuseWith (p : Prog) (b : Band) (tiled i : Nat) (map : List Nat) : Option (List Nat) :=
  ((List.range map.length).filter (fun j => i < j)).foldlM (fuseStep p b tiled i) map

/-- `get_per_stmt_band` and `fuse_per_stmt_bands`, lib/post_transform.c:321-401: the groups of statements
of the resulting bands. -/
def fuseBands (p : Prog) (b : Band) (tiled : Nat) : Option (List (List Nat)) := do
  let n := b.loop.stmts.length
  let (map, total) ← (List.range n).foldlM (fun (acc : List Nat × Nat) i => do
    let mi ← acc.1[i]?
    if mi < i then return acc
    else return (← fuseWith p b tiled i (acc.1.set i acc.2), acc.2 + 1)) (List.range n, 0)
  return (List.range total).map (fun t => ((b.loop.stmts.zip map).filter (fun x => x.2 == t)).map (·.1))

/-- One round of the last loop of `pluto_intra_tile_optimize_band`, lib/post_transform.c:444-520, for a
group of statements. The choice of the loop (`get_best_vectorizable_loop`, a cost model) is the
argument `best`. -/
def intraTileGroup (best : Prog → List Loop → Option Loop) (b : Band) (tiled : Nat) (p : Prog) (g : List Nat) : Option Prog := do
  let loops ← getLoopsUnder p g (b.loop.depth + tiled * b.width)
  match best p loops with
  | none => return p
  | some l =>
    if (← loopIsInnermost p l) then return p
    else makeInnermost p l (b.loop.depth + (tiled + 1) * b.width) (decide (0 < tiled))

/-- `make_parallel_loop_innermost`, lib/post_transform.c:406-441. -/
def makeParallelInnermost (best : Prog → List Loop → Option Loop) (p : Prog) (b : Band) (tiled : Nat) : Option Prog := do
  let loops ← getLoopsUnder p b.loop.stmts (b.loop.depth + tiled * b.width)
  let par ← loops.mapM (loopIsParallel p)
  let ploops := ((loops.zip par).filter (·.2)).map (·.1)
  let inner := loops.foldl (fun m l => max m l.depth) b.loop.depth
  if ploops = [] then return p
  else match best p ploops with
    | none => return p
    | some l => if (← loopIsInnermost p l) then return p else makeInnermost p l (inner + 1) true

/-- `pluto_intra_tile_optimize_band`, lib/post_transform.c:444-520. -/
def intraTileBand (best : Prog → List Loop → Option Loop) (p : Prog) (b : Band) (tiled : Nat) : Option Prog := do
  if (← isBandInnermost p b tiled) then do
    let groups ← fuseBands p b tiled
    groups.foldlM (intraTileGroup best b tiled) p
  else if 0 < tiled then makeParallelInnermost best p b tiled
  else return p

/-- One round of the loop in `pluto_tile`, lib/tile.c:214-326, that adds one-dimensional bands: an
innermost parallel loop is added if no band found so far dominates it. -/
def addParallelBand (p : Prog) (bands : List Band) (l : Loop) : Option (List Band) := do
  if (← loopIsInnermost p l) then do
    let ds ← bands.mapM (fun b => isLoopDominated p l b.loop)
    if ds.any id then return bands else return bands ++ [⟨l, 1⟩]
  else return bands

/-- The bands tiled by `pluto_tile`, lib/tile.c:214-326: the outermost permutable bands and the innermost
parallel loops that are not under one of them. (The code stops looking for a dominating band at the
first one; asking all of them makes no difference to the result.) -/
def tileBands (p : Prog) : Option (List Band) := do
  let bands ← outermostBands p
  let loops ← parallelLoops p
  loops.foldlM (addParallelBand p) bands

/-- `loop_depths[1 ..]` in `pluto_create_tile_schedule_band`, lib/tile.c:384-470: the levels of the
band after the first that are loops for all its statements. -/
def innerDepths (p : Prog) (b : Band) : Option (List Nat) := do
  let bs ← (List.range (b.width - 1)).mapM (fun m => do
    let sc ← b.loop.stmts.mapM (scalarAt p (b.loop.depth + 1 + m))
    return sc.all (fun s => !s))
  return (((List.range (b.width - 1)).zip bs).filter (·.2)).map (fun x => b.loop.depth + 1 + x.1)

/-- Sum of two rows. -/
def addRows (r s : List Int) : List Int := List.zipWith (· + ·) r s

/-- The row at level `k` added to the row at `first`, lib/tile.c:384-470. -/
def addRowAt (first : Nat) (st : Stmt) (k : Nat) : Option Stmt := do
  let r ← st.trans[first]?
  let s ← st.trans[k]?
  return { st with trans := st.trans.set first (addRows r s) }

/-- The rows at the given levels added to the row at `first`, lib/tile.c:384-470. -/
def wavefrontStmt (first : Nat) (ks : List Nat) (st : Stmt) : Option Stmt := ks.foldlM (addRowAt first) st

/-- One step of the update of a satisfaction vector, lib/tile.c:384-470. -/
def mergeBit (first : Nat) (v : List Bool) (k : Nat) : Option (List Bool) := do
  let a ← v[first]?
  let b ← v[k]?
  return (v.set first (a || b)).set k false

/-- The update of a satisfaction vector, lib/tile.c:384-470. -/
def mergeSatvec (first : Nat) (ks : List Nat) (v : List Bool) : Option (List Bool) := ks.foldlM (mergeBit first) v

/-- The update of a dependence, lib/tile.c:384-470. -/
def mergeDep (b : Band) (ks : List Nat) (d : Dep) : Option Dep :=
  if !d.rar && b.loop.stmts.contains d.src && b.loop.stmts.contains d.dest then do
    let v ← mergeSatvec b.loop.depth ks d.satvec
    return { d with satvec := v }
  else some d

/-- `pluto_create_tile_schedule_band`, lib/tile.c:384-470; `multipar`, `innerpar` are the options. -/
def createTileSchedule (p : Prog) (b : Band) (multipar innerpar : Bool) : Option (Prog × Bool) := do
  if (← loopIsParallel p b.loop) then return (p, false)
  else do
    let inner ← innerDepths p b
    if inner.length = 0 then return (p, false)
    else do
      let ks := if multipar then inner else inner.take 1
      let p1 ← if innerpar then some p else updStmts p b.loop.stmts (wavefrontStmt b.loop.depth ks)
      let ds ← p1.deps.mapM (mergeDep b ks)
      return ({ p1 with deps := ds }, true)

end Pluto
