import Verif.Spec.Cmdline

/-! What the flags that switch transformations on and off ask for. -/

namespace Pluto

/-- The last of the two flags `on` and `off` that is given, as a truth value; `d` if none is given. -/
def lastSwitch (on off : Flag) (d : Bool) (fs : List Flag) : Bool :=
  ((fs.filter (fun f => decide (f = on ∨ f = off))).getLast?.map (fun f => decide (f = on))).getD d

/-- The options are what the flags ask for: tiling, parallelization and diamond tiling are done unless the last flag
says otherwise, diamond tiling needs tiling, `--multipar` needs parallelization; the rest is done if it is asked for,
fusion is that of the last flag unless `--hybridfuse` is given, which fuses by types. -/
structure AsAsked (fs : List Flag) (o : CmdOpts) : Prop where
  tile : o.tile = lastSwitch .tile .notile true fs
  parallel : o.parallel = (lastSwitch .parallel .noparallel true fs || decide (.multipar ∈ fs))
  diamond : o.diamondtile = (lastSwitch .diamondTile .nodiamondTile true fs && lastSwitch .tile .notile true fs)
  fullDiamond : o.fulldiamondtile = (decide (.fullDiamondTile ∈ fs) && lastSwitch .tile .notile true fs)
  multipar : o.multipar = decide (.multipar ∈ fs)
  second : o.secondLevelTile = decide (.secondLevelTile ∈ fs)
  sizes : o.findTileSizes = decide (.determineTileSize ∈ fs)
  candl : o.candldep = decide (.candldep ∈ fs)
  isl : o.isldep = decide (.candldep ∉ fs)
  obj : o.perCcObj = decide (.perCcObj ∈ fs)
  colour : o.lpcolour = decide (.lpcolor ∈ fs)
  fuse : o.fuse = if .hybridfuse ∈ fs then .typed else lastFuse fs
  hybrid : o.hybridcut = decide (.hybridfuse ∈ fs)
  delayed : o.delayedCut = decide (.delayedcut ∈ fs)
  ilp : o.ilp = decide (.ilp ∈ fs)
  dfp : o.dfp = decide (WantsDfp fs)
  /-- Dependences are those of last writers if asked for and not refused, and with DFP. -/
  last : o.lastwriter = ((decide (.lastwriter ∈ fs) && decide (.nolastwriter ∉ fs)) || decide (WantsDfp fs))
  cluster : o.sccCluster = (decide (.clusterscc ∈ fs) || decide (.hybridfuse ∈ fs ∨ lastFuse fs = .typed))

end Pluto
