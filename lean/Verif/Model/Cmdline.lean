import Mathlib.Data.List.Basic

/-!
Model of the command line of the tool (tool/main.cpp): the options that depend on each other, how they are made consistent, which
solver is called, and the names of the output files. Options that only carry numbers or switch independent things are left out, as
are all messages.
-/

namespace Pluto

/-- Which solvers Pluto was built with (`GLPK`, `GUROBI`). -/
structure Build where
  glpk : Bool
  gurobi : Bool
deriving DecidableEq, Repr

inductive FuseOpt | noFuse | maximal | smart | typed
deriving DecidableEq, Repr

/-- The options that depend on each other, include/pluto/pluto.h, and the variable `nolastwriter` of `main`. -/
structure CmdOpts where
  tile : Bool
  parallel : Bool
  diamondtile : Bool
  fulldiamondtile : Bool
  perCcObj : Bool
  fuse : FuseOpt
  hybridcut : Bool
  delayedCut : Bool
  multipar : Bool
  secondLevelTile : Bool
  findTileSizes : Bool
  lastwriter : Bool
  nolastwriter : Bool
  isldep : Bool
  candldep : Bool
  pipsolve : Bool
  islsolve : Bool
  glpk : Bool
  gurobi : Bool
  lp : Bool
  dfp : Bool
  ilp : Bool
  lpcolour : Bool
  sccCluster : Bool
deriving DecidableEq, Repr

/-- The defaults, `pluto_options_alloc`, lib/program.cpp:834-940; `nolastwriter` is 0, tool/main.cpp:191. -/
def defaultOpts : CmdOpts where
  tile := true
  parallel := true
  diamondtile := true
  fulldiamondtile := false
  perCcObj := false
  fuse := .smart
  hybridcut := false
  delayedCut := false
  multipar := false
  secondLevelTile := false
  findTileSizes := false
  lastwriter := false
  nolastwriter := false
  isldep := false
  candldep := false
  pipsolve := false
  islsolve := true
  glpk := false
  gurobi := false
  lp := false
  dfp := false
  ilp := false
  lpcolour := false
  sccCluster := false

/-- The flags for these options. -/
inductive Flag
  | tile | notile | parallel | noparallel | diamondTile | nodiamondTile | fullDiamondTile | perCcObj | nofuse | maxfuse | smartfuse
  | typedfuse | hybridfuse | delayedcut | multipar | secondLevelTile | determineTileSize | lastwriter | nolastwriter | isldep | candldep
  | pipsolve | islsolve | glpk | gurobi | lp | dfp | ilp | lpcolor | clusterscc
deriving DecidableEq, Repr

/-- The table `pluto_options`, tool/main.cpp:196-275; `none` for a flag that is not in the table (`getopt_long` reports it and the
tool ends with the usage message). -/
def readFlag (b : Build) (o : CmdOpts) : Flag → Option CmdOpts
  | .tile => some { o with tile := true }
  | .notile => some { o with tile := false }
  | .parallel => some { o with parallel := true }
  | .noparallel => some { o with parallel := false }
  | .diamondTile => some { o with diamondtile := true }
  | .nodiamondTile => some { o with diamondtile := false }
  | .fullDiamondTile => some { o with fulldiamondtile := true }
  | .perCcObj => some { o with perCcObj := true }
  | .nofuse => some { o with fuse := .noFuse }
  | .maxfuse => some { o with fuse := .maximal }
  | .smartfuse => some { o with fuse := .smart }
  | .typedfuse => some { o with fuse := .typed }
  | .hybridfuse => some { o with hybridcut := true }
  | .delayedcut => some { o with delayedCut := true }
  | .multipar => some { o with multipar := true }
  | .secondLevelTile => some { o with secondLevelTile := true }
  | .determineTileSize => some { o with findTileSizes := true }
  | .lastwriter => some { o with lastwriter := true }
  | .nolastwriter => some { o with nolastwriter := true }
  | .isldep => some { o with isldep := true }
  | .candldep => some { o with candldep := true }
  | .pipsolve => some { o with pipsolve := true }
  | .islsolve => some { o with islsolve := true }
  | .glpk => if b.glpk then some { o with glpk := true } else none
  | .gurobi => if b.gurobi then some { o with gurobi := true } else none
  | .lp => if b.glpk || b.gurobi then some { o with lp := true } else none
  | .dfp => if b.glpk || b.gurobi then some { o with dfp := true } else none
  | .ilp => if b.glpk || b.gurobi then some { o with ilp := true } else none
  | .lpcolor => if b.glpk || b.gurobi then some { o with lpcolour := true } else none
  | .clusterscc => if b.glpk || b.gurobi then some { o with sccCluster := true } else none

/-- The loop over the arguments, tool/main.cpp:277-370. -/
def readFlags (b : Build) (fs : List Flag) : Option CmdOpts := fs.foldlM (readFlag b) defaultOpts

/-- The first checks, tool/main.cpp:383-410; `none`: the tool ends with a message. -/
def checkDeps (o : CmdOpts) : Option CmdOpts :=
  if o.isldep && o.candldep then none
  else
    let o := if !o.isldep && !o.candldep then { o with isldep := true } else o
    if o.lastwriter && o.candldep then none
    else if o.secondLevelTile && o.findTileSizes then none
    else some o

/-- Switches that need others, tool/main.cpp:412-440. -/
def fixSwitches (o : CmdOpts) : CmdOpts :=
  let o := if o.lastwriter && o.nolastwriter then { o with lastwriter := false } else o
  let o := if o.diamondtile && !o.tile then { o with diamondtile := false } else o
  let o := if o.fulldiamondtile && !o.tile then { o with diamondtile := false, fulldiamondtile := false } else o
  let o := if o.multipar && !o.parallel then { o with parallel := true } else o
  if o.hybridcut && decide (o.fuse ≠ .typed) then { o with fuse := .typed } else o

/-- What is done if Pluto was built with GLPK or Gurobi, tool/main.cpp:442-484. -/
def fixSolvers (o : CmdOpts) : CmdOpts :=
  let o := if o.lp && !(o.glpk || o.gurobi) then { o with glpk := true } else o
  let o := if (decide (o.fuse = .typed) || o.delayedCut) && !o.dfp then { o with dfp := true } else o
  let o := if o.dfp && !o.ilp then { o with lp := true } else o
  let o := if o.dfp && !(o.glpk || o.gurobi) then { o with glpk := true } else o
  if o.glpk || o.gurobi then { o with islsolve := false, pipsolve := false } else o

/-- The remaining checks, tool/main.cpp:486-539. -/
def checkDfp (o : CmdOpts) : Option CmdOpts :=
  let o := if o.pipsolve then { o with islsolve := false } else o
  if o.dfp && !(o.glpk || o.gurobi) then none
  else if decide (o.fuse = .typed) && !o.dfp then none
  else if o.delayedCut && !o.dfp then none
  else
    let o := if o.dfp && !o.lastwriter then { o with lastwriter := true } else o
    let o := if decide (o.fuse = .typed) && o.dfp && !o.sccCluster then { o with sccCluster := true } else o
    if o.dfp && o.perCcObj then none else some o

/-- The options that `main` works with, tool/main.cpp:190-539; `none`: the tool has ended with a message. -/
def cmdline (b : Build) (fs : List Flag) : Option CmdOpts := do
  let o ← readFlags b fs
  let o ← checkDeps o
  checkDfp (if b.glpk || b.gurobi then fixSolvers (fixSwitches o) else fixSwitches o)

inductive Solver | isl | pip | glpk | gurobi
deriving DecidableEq, Repr

/-- The solver called by `pluto_prog_constraints_lexmin`, lib/pluto.c:341-395; `none`: none is called, the result is NULL for every
system. -/
def solverUsed (b : Build) (o : CmdOpts) : Option Solver :=
  if o.islsolve then some .isl
  else if o.glpk || o.lp || o.dfp || o.gurobi then
    if o.glpk then (if b.glpk then some .glpk else none)
    else if o.gurobi then (if b.gurobi then some .gurobi else none)
    else none
  else some .pip

/-- A name without its ending `.c`, tool/main.cpp:728-736 and 746-755. -/
def stem (s : List Char) : List Char :=
  if 2 ≤ s.length ∧ s.drop (s.length - 2) = ['.', 'c'] then s.take (s.length - 2) else s

/-- `basename` of a path: what follows the last slash. (Paths that end in a slash are not modelled.) -/
def baseName (s : List Char) : List Char := (s.reverse.takeWhile (fun c => decide (c ≠ '/'))).reverse

/-- The name of the output file, tool/main.cpp:719-743; `out` is the argument of `-o`. -/
def outFile (src : List Char) (out : Option (List Char)) : List Char :=
  match out with
  | none => stem (baseName src) ++ ".pluto.c".toList
  | some o => o

/-- The name of the CLooG file, tool/main.cpp:745-756. -/
def cloogFile (src : List Char) (out : Option (List Char)) : List Char := stem (baseName (out.getD src)) ++ ".pluto.cloog".toList

end Pluto
