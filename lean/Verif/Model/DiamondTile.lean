import Verif.Model.Pipeline
import Verif.Model.StmtEdit

/-! `pluto_tile` with diamond tiling. -/

namespace Pluto

/-- The call of `pluto_diamond_tile_reschedule` in `pluto_tile`, lib/tile.c:287-299; `ev` are the evicted hyperplanes of the statements. -/
def rescheduleTiles (isEmpty : Cst → Bool) (ev : List (Option Evicted)) (p : Prog) : Option Prog := do
  let (p', _, changed) ← reschedule p ev
  if changed then recompute isEmpty p' else return p'

/-- `pluto_tile`, lib/tile.c:214-326, in full; `diamond` is `options->diamondtile`. On the rest see `plutoTile`. -/
def plutoTileDiamond (isEmpty : Cst → Bool) (best : Prog → List Loop → Option Loop) (o : TileOpts) (diamond : Bool) (ev : List (Option Evicted))
    (sizes sizes2 : Nat → Nat → Int) (p : Prog) : Option Prog := do
  let bands ← tileBands p
  let (p1, tiled) ← tileLevels o sizes sizes2 p bands
  let p2 ← recompute isEmpty p1
  let p2' ← stepIf diamond (rescheduleTiles isEmpty ev) p2
  let p3 ← stepIf o.intraTile (fun p => intraTileBands isEmpty best tiled p bands) p2'
  stepIf o.parallel (fun p => (createTileSchedules o p bands).map (·.1)) p3

/-- The part of `pluto_schedule_prog`, lib/plutolib.c:30-102, after the automatic transformation, with `--diamond-tile`; `postTransform` otherwise. -/
def postTransformDiamond (isEmpty : Cst → Bool) (best : Prog → List Loop → Option Loop) (o : TileOpts) (tile identity diamond : Bool)
    (ev : List (Option Evicted)) (sizes sizes2 : Nat → Nat → Int) (p : Prog) : Option Prog := do
  let p1 ← recompute isEmpty p
  let p2 ← if tile then plutoTileDiamond isEmpty best o diamond ev sizes sizes2 p1 else stepIf o.intraTile (intraTileOptimize isEmpty best 0) p1
  stepIf (o.parallel && !tile && !identity) (waveUntiled isEmpty o) p2

end Pluto
