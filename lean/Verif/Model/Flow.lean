import Verif.Model.IslLib

/-!
Model of dependence analysis through isl, `compute_deps_isl` (lib/program.cpp), and of `pluto_schedule`
(lib/plutolib.c), which uses it. What isl computes is an argument (`FlowOps`).
-/

namespace Pluto

/-- A map of an `isl_union_map` of accesses: instances of the statement with number `stmt` to elements of the
array with number `arr`. -/
structure IslAcc where
  stmt : Nat
  arr : Nat
  rel : BMap
deriving DecidableEq, Repr

/-- A map of an `isl_union_map` of schedules: instances of a statement to times. -/
structure IslTime where
  stmt : Nat
  rel : BMap
deriving DecidableEq, Repr

/-- The functions of isl called in `compute_deps_isl` and `pluto_schedule`: `isl_union_map_compute_flow` (sinks,
must sources, may sources, schedule; must and may dependences), `isl_union_map_coalesce`,
`isl_union_map_union` on dependences, `isl_union_map_domain` and `isl_union_map_intersect_domain` on
schedules. -/
structure FlowOps where
  flow : List IslAcc → List IslAcc → List IslAcc → List IslTime → List IslDep × List IslDep
  coalesce : List IslDep → List IslDep
  union : List IslDep → List IslDep → List IslDep
  domain : List IslTime → List IslDom
  intersectDomain : List BMap → List IslDom → List BMap

/-- The results of `compute_deps_isl`; `none`: not written (or not asked for). -/
structure IslDeps where
  raw : List IslDep
  war : List IslDep
  waw : List IslDep
  rar : Option (List IslDep)
  transWar : Option (List IslDep)
  transWaw : Option (List IslDep)
deriving DecidableEq, Repr

/-- Options used by `compute_deps_isl`. -/
structure FlowOpts where
  lastwriter : Bool
  rar : Bool
  coalesce : Bool

/-- `compute_deps_isl` before coalescing, lib/program.cpp:623-696. `trans`: `trans_dep_war` and `trans_dep_waw`
are not NULL. -/
def computeDepsRaw (fo : FlowOps) (o : FlowOpts) (trans : Bool) (reads writes : List IslAcc) (sched : List IslTime) : IslDeps :=
  if o.lastwriter then
    let wa := fo.flow writes writes reads sched
    ⟨(fo.flow reads writes [] sched).1, wa.2, wa.1,
      if o.rar then some (fo.flow reads reads [] sched).1 else none,
      if trans then some (fo.flow writes [] reads sched).2 else none,
      if trans then some (fo.flow writes [] writes sched).2 else none⟩
  else
    ⟨(fo.flow reads [] writes sched).2, (fo.flow writes [] reads sched).2, (fo.flow writes [] writes sched).2,
      if o.rar then some (fo.flow reads [] reads sched).2 else none, none, none⟩

/-- `compute_deps_isl`, lib/program.cpp:623-696; `none`: a NULL pointer is used. -/
def computeDeps (fo : FlowOps) (o : FlowOpts) (trans : Bool) (reads writes : List IslAcc) (sched : List IslTime) : Option IslDeps :=
  let d := computeDepsRaw fo o trans reads writes sched
  if o.coalesce then
    if o.lastwriter && !trans then none
    else some ⟨fo.coalesce d.raw, fo.coalesce d.war, fo.coalesce d.waw, d.rar, d.transWar.map fo.coalesce, d.transWaw.map fo.coalesce⟩
  else some d

/-- The dependences that `pluto_schedule` passes on, lib/plutolib.c:429-452. -/
def scheduleDeps (fo : FlowOps) (o : FlowOpts) (reads writes : List IslAcc) (sched : List IslTime) : Option (List IslDep) := do
  let d ← computeDeps fo o false reads writes sched
  return fo.union (fo.union d.raw d.war) d.waw

/-- `pluto_schedule`, lib/plutolib.c:429-452, for a scheduler `run` (`pluto_schedule_prog`). `some none` is the
return value NULL (`isl_union_map_intersect_domain` of NULL is NULL). -/
def plutoSchedule (ops : IslOps) (fo : FlowOps) (o : FlowOpts) (run : Prog → Option Outcome) (reads writes : List IslAcc)
    (sched : List IslTime) : Option (Option (List BMap)) := do
  let deps ← scheduleDeps fo o reads writes sched
  let doms := fo.domain sched
  match ← plutoTransform ops run doms deps with
  | none => return none
  | some ms => return some (fo.intersectDomain ms doms)

end Pluto
