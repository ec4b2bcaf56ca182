import Verif.Model.Transforms
import Verif.Model.Auto

/-! Tiling as a whole. -/

namespace Pluto

/-- `pluto_compute_dep_directions(prog)` followed by `pluto_compute_dep_satisfaction(prog)`, as called in
`pluto_tile`, lib/tile.c:214-326. -/
def recompute (isEmpty : Cst → Bool) (p : Prog) : Option Prog := do
  computeDepSatisfaction isEmpty (← computeDepDirections isEmpty p)

/-- The options read by `pluto_tile`, lib/tile.c:214-326, and the functions it calls: `second_level_tile`,
`intratileopt`, `parallel`, `multipar`, `innerpar`. -/
structure TileOpts where
  secondLevel : Bool
  intraTile : Bool
  parallel : Bool
  multipar : Bool
  innerpar : Bool

/-- A step done under a condition. -/
def stepIf (c : Bool) (f : Prog → Option Prog) (p : Prog) : Option Prog := if c then f p else some p

/-- One or two levels of tiling of the same bands, lib/tile.c:214-326; the result is the program and
`num_tiled_levels`. -/
def tileLevels (o : TileOpts) (sizes sizes2 : Nat → Nat → Int) (p : Prog) (bands : List Band) : Option (Prog × Nat) := do
  let p1 ← tileScatteringDims p bands sizes
  if o.secondLevel then return (← tileScatteringDims p1 bands sizes2, 2) else return (p1, 1)

/-- The intra-tile optimization in `pluto_tile`, lib/tile.c:214-326. The code recomputes directions and
satisfaction only if some band was changed; if none was, recomputing them changes nothing
(`recompute_idem`). -/
def intraTileBands (isEmpty : Cst → Bool) (best : Prog → List Loop → Option Loop) (tiled : Nat) (p : Prog) (bands : List Band) :
    Option Prog := do
  recompute isEmpty (← bands.foldlM (fun p b => intraTileBand best p b tiled) p)

/-- `pluto_create_tile_schedule`, lib/tile.c:473-484. -/
def createTileSchedules (o : TileOpts) (p : Prog) (bands : List Band) : Option (Prog × Bool) :=
  bands.foldlM (fun r b => (createTileSchedule r.1 b o.multipar o.innerpar).map (fun x => (x.1, r.2 || x.2))) (p, false)

/-- `pluto_tile`, lib/tile.c:214-326, without `pluto_diamond_tile_reschedule` (which does nothing unless
`pluto_diamond_tile` has changed a band). The two branches on `options->ft`, `options->lt` make the same
calls; the first has assertions on these options, which are not modelled. The result of
`pluto_get_innermost_permutable_bands` is not used by the code. `sizes`, `sizes2` are the tile sizes of
the first and second level. -/
def plutoTile (isEmpty : Cst → Bool) (best : Prog → List Loop → Option Loop) (o : TileOpts) (sizes sizes2 : Nat → Nat → Int)
    (p : Prog) : Option Prog := do
  let bands ← tileBands p
  let (p1, tiled) ← tileLevels o sizes sizes2 p bands
  let p2 ← recompute isEmpty p1
  let p3 ← stepIf o.intraTile (fun p => intraTileBands isEmpty best tiled p bands) p2
  stepIf o.parallel (fun p => (createTileSchedules o p bands).map (·.1)) p3

/-- `pluto_intra_tile_optimize`, lib/post_transform.c:524-546; on recomputing see `intraTileBands`. -/
def intraTileOptimize (isEmpty : Cst → Bool) (best : Prog → List Loop → Option Loop) (tiled : Nat) (p : Prog) : Option Prog := do
  intraTileBands isEmpty best tiled p (← outermostBands p)

/-- `pluto_schedule_prog`, lib/plutolib.c:30-102, after the automatic transformation and up to the wavefronts
of untiled programs; the same steps as in the tool, tool/main.cpp:670-700. -/
def beforeWave (isEmpty : Cst → Bool) (best : Prog → List Loop → Option Loop) (o : TileOpts) (tile : Bool)
    (sizes sizes2 : Nat → Nat → Int) (p : Prog) : Option Prog := do
  let p1 ← recompute isEmpty p
  if tile then plutoTile isEmpty best o sizes sizes2 p1 else stepIf o.intraTile (intraTileOptimize isEmpty best 0) p1

/-- The wavefronts of untiled programs in `pluto_schedule_prog`, lib/plutolib.c:30-102. -/
def waveUntiled (isEmpty : Cst → Bool) (o : TileOpts) (p : Prog) : Option Prog := do
  let p' ← computeDepSatisfaction isEmpty p
  return (← createTileSchedules o p' (← outermostBands p')).1

/-- The part of `pluto_schedule_prog`, lib/plutolib.c:30-102, after the automatic transformation. -/
def postTransform (isEmpty : Cst → Bool) (best : Prog → List Loop → Option Loop) (o : TileOpts) (tile identity : Bool)
    (sizes sizes2 : Nat → Nat → Int) (p : Prog) : Option Prog := do
  stepIf (o.parallel && !tile && !identity) (waveUntiled isEmpty o) (← beforeWave isEmpty best o tile sizes sizes2 p)

/-- `pluto_schedule_prog`, lib/plutolib.c:30-102; `failed` is its return value 1. `dia` is
`pluto_diamond_tile`; with `--identity` the schedules the program comes with are kept. Printing is left
out. -/
def scheduleProg (ao : AutoOpts) (L : Libs) (dia : Nat → Prog → Option (Prog × Bool)) (fuel : Nat) (d0 : DfsState)
    (best : Prog → List Loop → Option Loop) (o : TileOpts) (tile identity : Bool) (sizes sizes2 : Nat → Nat → Int) (p0 : Prog) :
    Option Outcome :=
  if identity then (postTransform L.isEmpty best o tile identity sizes sizes2 p0).map .success
  else match autoTransform ao L dia fuel d0 p0 with
    | some (.success p) => (postTransform L.isEmpty best o tile identity sizes sizes2 p).map .success
    | r => r

end Pluto
