import Verif.Model.Pipeline
import Verif.Model.Reuse
import Verif.Model.Words

/-!
Where tile sizes come from: the file `tile.sizes` (lib/tile.c), and the selection of tile sizes
(lib/tile_size_selection_model.cpp). `none` stands for a failed assertion, an index out of range or a null pointer.
-/

namespace Pluto

/-- The contents of `tile.sizes` as `fscanf(f, "%d", ..)` sees it: numbers (`some`) and other text (`none`), and whether
there is a blank or a newline after the last of them. -/
structure SizeFile where
  toks : List (Option Int)
  blankEnd : Bool
deriving DecidableEq, Repr

/-- An open file: what is left, and `feof`. -/
structure SizeStream where
  toks : List (Option Int)
  eof : Bool
deriving DecidableEq, Repr

/-- `fscanf(tsfile, "%d", &v)` as used in lib/tile.c:26-80: the number, if one was read; the end-of-file indicator is set
when a number is followed directly by the end of the file or when there is nothing left to read; other text is not
consumed. Numbers outside `int` and text beginning with a sign (whose sign is consumed) are not modelled. -/
def scanInt (blankEnd : Bool) (s : SizeStream) : Option Int × SizeStream :=
  match s.toks with
  | [] => (none, { s with eof := true })
  | some v :: rest => (some v, ⟨rest, rest.isEmpty && !blankEnd⟩)
  | none :: _ => (none, s)

/-- A write `a[i] = v`, with `none` if the index is out of range. -/
def putAt (a : List Int) (i : Nat) (v : Int) : Option (List Int) := if i < a.length then some (a.set i v) else none

/-- The loop of `read_tile_sizes`, lib/tile.c:26-80, that reads the sizes of the first level, from `i` on with `n` rounds
left; `isLoop i` tells whether some statement has a loop there. The result is the final `i`, the stream and the
sizes. -/
def readSizes (blankEnd : Bool) (isLoop : Nat → Option Bool) : Nat → Nat → SizeStream → List Int → Option (Nat × SizeStream × List Int)
  | 0, i, s, sizes => some (i, s, sizes)
  | n + 1, i, s, sizes =>
    if s.eof then some (i, s, sizes)
    else do
      if (← isLoop i) then
        let (v, s') := scanInt blankEnd s
        let sizes' ← putAt sizes i (v.getD (sizes.getD i 0))
        readSizes blankEnd isLoop n (i + 1) s' sizes'
      else
        let sizes' ← putAt sizes i 42
        readSizes blankEnd isLoop n (i + 1) s sizes'

/-- The loop of `read_tile_sizes`, lib/tile.c:26-80, that reads the ratios of the second level. -/
def readRatios (blankEnd : Bool) : Nat → Nat → SizeStream → List Int → Option (Nat × SizeStream × List Int)
  | 0, i, s, ratios => some (i, s, ratios)
  | n + 1, i, s, ratios =>
    if s.eof then some (i, s, ratios)
    else do
      let (v, s') := scanInt blankEnd s
      let ratios' ← putAt ratios i (v.getD (ratios.getD i 0))
      readRatios blankEnd n (i + 1) s' ratios'

/-- `pluto_is_hyperplane_loop` for one of the statements at a level, lib/tile.c:45-49. -/
def anyLoopAt (p : Prog) (stmts : List Nat) (level : Nat) : Option Bool := do
  let bs ← stmts.mapM (scalarAt p level)
  return bs.any (fun b => !b)

/-- `num_tile_dims` in `read_tile_sizes`, lib/tile.c:26-80: the width of the band, or the number of levels given by the options
`--ft` and `--lt`. -/
def numTileDims (ft lt : Int) (width : Nat) : Nat := if 0 ≤ ft ∧ 0 ≤ lt then (lt - ft + 1).toNat else width

/-- `read_tile_sizes`, lib/tile.c:26-80: `tile_sizes`, `second_level_tile_size_ratios` and the return value. -/
def readTileSizes (file : Option SizeFile) (ft lt : Int) (p : Prog) (b : Band) (a : List Int × List Int) :
    Option ((List Int × List Int) × Bool) :=
  match file with
  | none => some (a, false)
  | some f => do
    let num := numTileDims ft lt b.width
    let (i, s, sizes) ← readSizes f.blankEnd (fun i => anyLoopAt p b.loop.stmts (b.loop.depth + i)) num 0 ⟨f.toks, false⟩ a.1
    if i < num then return ((sizes, a.2), false)
    else do
      let (i, _, ratios) ← readRatios f.blankEnd num 0 s a.2
      if i < num then
        if num ≤ ratios.length then return ((sizes, List.replicate num 8 ++ ratios.drop num), true) else none
      else return ((sizes, ratios), true)

/-- The call of `read_tile_sizes` in `pluto_tile_scattering_dims`, lib/tile.c:330-380, which ignores the return value. -/
def readSelect (file : Option SizeFile) (ft lt : Int) (p : Prog) (b : Band) (a : List Int × List Int) : Option (List Int × List Int) :=
  (readTileSizes file ft lt p b a).map (·.1)

/-- The arrays at the start of `pluto_tile_scattering_dims`, lib/tile.c:330-380. -/
def defaultSizes (p : Prog) : List Int × List Int :=
  (List.replicate p.hProps.length 32, List.replicate p.hProps.length 8)

/-- One round of the loop over the bands in `pluto_tile_scattering_dims`, lib/tile.c:330-380. `select` fills the arrays:
`read_tile_sizes` or `find_tile_sizes`. -/
def tileBandWith (select : Prog → Band → List Int × List Int → Option (List Int × List Int)) (second : Bool)
    (s : Prog × List Int × List Int) (b : Band) : Option (Prog × List Int × List Int) := do
  let a ← select s.1 b s.2
  let sizes := if second then a.2 else a.1
  if sizes.length < b.width then none
  else do
    let p' ← tileBand s.1 b (fun k => sizes.getD k 0)
    return (p', a)

/-- `pluto_tile_scattering_dims`, lib/tile.c:330-380, with its selection of tile sizes. -/
def tileScatteringWith (select : Prog → Band → List Int × List Int → Option (List Int × List Int)) (second : Bool) (p : Prog)
    (bands : List Band) : Option Prog := do
  let s ← bands.foldlM (tileBandWith select second) (p, defaultSizes p)
  sinkAll s.1

/-- `pluto_tile`, lib/tile.c:214-326, as in `plutoTile`, with the selection of tile sizes. -/
def plutoTileWith (isEmpty : Cst → Bool) (best : Prog → List Loop → Option Loop)
    (select : Prog → Band → List Int × List Int → Option (List Int × List Int)) (o : TileOpts) (p : Prog) : Option Prog := do
  let bands ← tileBands p
  let p0 ← tileScatteringWith select false p bands
  let (p1, tiled) ← (if o.secondLevel then (tileScatteringWith select true p0 bands).map (fun p => (p, 2)) else some (p0, 1))
  let p2 ← recompute isEmpty p1
  let p3 ← stepIf o.intraTile (fun p => intraTileBands isEmpty best tiled p bands) p2
  stepIf o.parallel (fun p => (createTileSchedules o p bands).map (·.1)) p3

/-! ### Selection of tile sizes -/

/-- One round of the last loop of `get_vectorizable_dimensions`, lib/tile_size_selection_model.cpp:412-466, for one of the fused
bands. `none`: no loop is found (null pointer) or the loop is below the band (index out of range). -/
def markVectorDim (p : Prog) (A : Accs) (diamond : Bool) (b : Band) (dims : List Bool) (g : List Nat) : Option (List Bool) := do
  let loops ← getLoopsUnder p g b.loop.depth
  let l ← (← bestVectorizable p A loops)
  if l.depth - b.loop.depth = 0 then return dims
  else if diamond ∧ l.depth - b.loop.depth ≤ 1 then return dims
  else if l.depth - b.loop.depth < dims.length then return dims.set (l.depth - b.loop.depth) true
  else none

/-- `get_vectorizable_dimensions`, lib/tile_size_selection_model.cpp:412-466. -/
def vectorDims (p : Prog) (A : Accs) (intraTile diamond : Bool) (b : Band) : Option (List Bool) := do
  let dims := List.replicate b.width false
  if intraTile then do
    let groups ← fuseBands p b 0
    groups.foldlM (markVectorDim p A diamond b) dims
  else return dims

/-- `pluto_loop_is_parallel_for_stmt`, lib/polyloop.c:321-353. As in `loopIsParallel`, all statements are original ones and
`dep_prop` is never PARALLEL. -/
def parallelForStmt (p : Prog) (l : Loop) (i : Nat) : Option Bool := do
  let bs ← (p.deps.filter (fun d => !d.rar && d.src == i && d.dest == i)).mapM (fun d => d.satvec[l.depth]?)
  return bs.all (fun b => !b)

/-- The loop for `par_loop_depth` in `find_tile_sizes`, lib/tile_size_selection_model.cpp:553-644: the last loop that is
parallel for each of its statements; the width of the band if there is none. -/
def parLoopDepth (p : Prog) (b : Band) : Option Nat := do
  let loops ← getLoopsUnder p b.loop.stmts b.loop.depth
  loops.foldlM (fun d l => do
    let bs ← l.stmts.mapM (parallelForStmt p l)
    return if bs.all id then l.depth - b.loop.depth else d) b.width

/-- `pluto_band_has_wavefront_parallelism`, lib/tile_size_selection_model.cpp:524-549. -/
def hasWavefront (p : Prog) (b : Band) : Option Bool := do
  if (← loopIsParallel p b.loop) then return false
  else do
    let bs ← (List.range (b.width - 1)).mapM (fun k => do
      let sc ← b.loop.stmts.mapM (scalarAt p (b.loop.depth + 1 + k))
      return sc.all (fun b => !b))
    return decide (1 < 1 + bs.count true)

/-- `get_dimensional_reuse` of a band, lib/tile_size_selection_model.cpp:478-499, with `get_dimensional_reuse` of a loop,
lib/post_transform.c:96-98. The counts are held as `float` in C, exactly below `2^24`; the model has natural numbers. -/
def dimReuseOf (p : Prog) (A : Accs) (b : Band) : Option (List Nat) := do
  let loops ← getLoopsUnder p b.loop.stmts b.loop.depth
  loops.foldlM (fun r l => do
    let n ← numInvariant p A l
    if l.depth - b.loop.depth < r.length then return r.set (l.depth - b.loop.depth) n else none) (List.replicate b.width 0)

/-- `vectorDim` as set by the constructor of `TileSizeSelectionModel`, lib/tile_size_selection_model.cpp:36-60. -/
def vectorDimOf (reuse : List Nat) (dims : List Bool) : Nat :=
  (List.range dims.length).foldl (fun v i =>
    if dims.getD i false then
      if v = dims.length then i else if reuse.getD v 0 ≤ reuse.getD i 0 then i else v
    else v) dims.length

/-- The two uses of floating-point arithmetic in `infer_tile_sizes`, lib/tile_size_selection_model.cpp:144-196, left open:
`dimReuse * root` and `dimReuse / min_dim_reuse * min_tile_size`, converted to unsigned numbers (`none` if they do not fit). -/
structure SizeArith where
  times : Nat → Nat → Option (BitVec 32)
  ratio : Nat → Nat → BitVec 32 → Option (BitVec 32)

/-- `min_reuse_dim` of `infer_tile_sizes`, lib/tile_size_selection_model.cpp:144-196. The minimum is searched only if `vectorDim`
is 0 (the code tests `!vectorDim`); otherwise it is the maximum. -/
def minReuseDim (reuse : List Nat) (vectorDim par : Nat) : Nat × Nat :=
  let mx := reuse.foldl max 0
  let mn := reuse.foldl (fun m r => if 0 < r ∧ vectorDim = 0 ∧ r < m then r else m) mx
  let d := reuse.findIdx (· == mn)
  if d = vectorDim ∨ d = par then
    ((((List.range reuse.length).find? (fun i => decide (i ≠ vectorDim ∧ i ≠ par) && reuse.getD i 0 == mn)).getD d), mn)
  else (d, mn)

/-- `infer_tile_sizes`, lib/tile_size_selection_model.cpp:144-196. -/
def inferSizes (ar : SizeArith) (reuse : List Nat) (vectorDim par : Nat) (wave : Bool) (ufactor : BitVec 32) (root : Nat) :
    Option (List (BitVec 32)) := do
  let (d, mn) := minReuseDim reuse vectorDim par
  if d = reuse.length then none
  else do
    let base ← roundTileSize (← ar.times (reuse.getD d 0) root) ufactor
    (List.range reuse.length).mapM (fun i =>
      if wave ∧ (i = 0 ∨ i = 1) then some 32
      else if i = vectorDim then some 512
      else if i = par then some 32
      else if i = d then some base
      else (ar.ratio (reuse.getD i 0) mn base).bind (roundTileSize · ufactor))

/-- `find_tile_sizes` (the static function), lib/tile_size_selection_model.cpp:553-644. `root` is the result of
`construct_expression_for_tile_volume` and `solve_reuse_expression`, which is left open. -/
def findSizes (ar : SizeArith) (root : Prog → Band → Option Nat) (A : Prog → Accs) (intraTile diamond : Bool) (ufactor : BitVec 32)
    (p : Prog) (b : Band) : Option (List (BitVec 32)) :=
  if b.width = 1 then some [32]
  else do
    let dims ← vectorDims p (A p) intraTile diamond b
    let par ← parLoopDepth p b
    if dims.length ≤ par then none
    else do
      let dims := dims.set par false
      let wave ← hasWavefront p b
      let dims := if wave then (dims.set 0 false).set 1 false else dims
      if wave ∧ b.width = 2 then return [32, 32]
      else do
        let reuse ← dimReuseOf p (A p) b
        if reuse.foldl max 0 = 0 then return dims.map (fun v => if v then 512 else 32)
        else do
          let reuse := if diamond then reuse.set 0 (reuse.getD 1 0) else reuse
          let r ← root p b
          inferSizes ar reuse (vectorDimOf reuse dims) par wave ufactor r

/-- `find_tile_sizes` (the global function), lib/tile_size_selection_model.cpp:646-680: fills `tile_sizes`; the ratios are left alone. -/
def findTileSizes (ar : SizeArith) (root : Prog → Band → Option Nat) (A : Prog → Accs) (intraTile diamond : Bool)
    (ufactor : BitVec 32) (p : Prog) (b : Band) (a : List Int × List Int) : Option (List Int × List Int) := do
  let v ← findSizes ar root A intraTile diamond ufactor p b
  if v.length ≠ b.width then none
  else do
    let sizes ← (List.range b.width).foldlM (fun sizes i => do
      let lp ← anyLoopAt p b.loop.stmts (b.loop.depth + i)
      putAt sizes i (if lp then (v.getD i 0).toInt else 42)) a.1
    return (sizes, a.2)

end Pluto
