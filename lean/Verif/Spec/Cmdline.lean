import Verif.Model.Cmdline

/-! What is wanted from a command line, and when options fit together. -/

namespace Pluto

/-- The options fit together. -/
structure OptsConsistent (o : CmdOpts) : Prop where
  /-- Exactly one dependence analysis. -/
  oneDep : o.isldep = !o.candldep
  oneLevel : (o.secondLevelTile && o.findTileSizes) = false
  diamond : o.diamondtile = true → o.tile = true
  fullDiamond : o.fulldiamondtile = true → o.tile = true
  multipar : o.multipar = true → o.parallel = true
  hybrid : o.hybridcut = true → o.fuse = .typed
  /-- Fusion by types and delayed cuts need DFP and (fusion) clusters. -/
  typed : o.fuse = .typed → o.dfp = true ∧ o.sccCluster = true
  delayed : o.delayedCut = true → o.dfp = true
  /-- DFP and `--lp` need GLPK or Gurobi. -/
  lpSolver : o.lp = true ∨ o.dfp = true → o.glpk = true ∨ o.gurobi = true
  dfpMode : o.dfp = true → o.lp = true ∨ o.ilp = true
  dfpObj : o.dfp = true → o.perCcObj = false
  /-- GLPK or Gurobi, ISL, and PIP exclude each other. -/
  oneSolver : (o.glpk = true ∨ o.gurobi = true → o.islsolve = false ∧ o.pipsolve = false) ∧ (o.islsolve && o.pipsolve) = false

/-- The fusion asked for: the last of the flags. -/
def lastFuse (fs : List Flag) : FuseOpt :=
  (fs.filterMap (fun
    | .nofuse => some FuseOpt.noFuse
    | .maxfuse => some .maximal
    | .smartfuse => some .smart
    | .typedfuse => some .typed
    | _ => none)).getLast?.getD .smart

/-- The flags ask for something that only DFP can do. -/
def WantsDfp (fs : List Flag) : Prop := .dfp ∈ fs ∨ .delayedcut ∈ fs ∨ .hybridfuse ∈ fs ∨ lastFuse fs = .typed

instance (fs : List Flag) : Decidable (WantsDfp fs) := by unfold WantsDfp; infer_instance

/-- The solver that the flags ask for: GLPK comes before Gurobi, and is what is used where an LP solver is needed and none is asked
for; PIP if asked for; ISL otherwise. -/
def wantedSolver (fs : List Flag) : Solver :=
  if .glpk ∈ fs then .glpk
  else if .gurobi ∈ fs then .gurobi
  else if .lp ∈ fs ∨ WantsDfp fs then .glpk
  else if .pipsolve ∈ fs then .pip
  else .isl

end Pluto
