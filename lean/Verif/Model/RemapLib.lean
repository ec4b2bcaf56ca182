import Verif.Model.IslLib

/-!
Model of the functions of lib/plutolib.c that return remappings: matrices from which the iterators of a
statement are computed back from its time. Freeing and printing are left out (on freeing see DESIGN.md).
-/

namespace Pluto

/-- `Remapping`, include/pluto/pluto.h: the matrix and the divisors of each statement. -/
abbrev Remap := List (Mat × List Int)

/-- `pluto_get_remapping`, lib/plutolib.c:456-471. -/
def getRemapping (p : Prog) : Option Remap := p.stmts.mapM (fun st => remapping st.dim p.npar st.trans)

/-- `pluto_schedule_and_get_remapping`, lib/plutolib.c:473-496, for a scheduler `sched`
(`pluto_schedule_prog`). `some none` is the return value NULL; `none`: failed assertion, or no result. -/
def scheduleAndRemap (ops : IslOps) (sched : Prog → Option Outcome) (doms : List IslDom) (deps : List IslDep) : Option (Option Remap) := do
  let p ← progFromIsl ops doms deps
  match ← sched p with
  | .success p' => return some (← getRemapping p')
  | .failed _ => return none
  | .timeout => none

/-- What `pluto_parallel_schedule_with_remapping` gives back: its return value (`none` for NULL), and what it
stores for the pointers `remap` and `ploops`, `nploops` (`none`: nothing is stored). -/
structure ParallelOut where
  scheds : Option (List BMap)
  remap : Option Remap
  ploops : Option (List Loop)

/-- `pluto_parallel_schedule_with_remapping`, lib/plutolib.c:500-532. -/
def parallelScheduleWithRemap (ops : IslOps) (sched : Prog → Option Outcome) (doms : List IslDom) (deps : List IslDep) : Option ParallelOut := do
  let p ← progFromIsl ops doms deps
  match ← sched p with
  | .success p' => do
    let r ← getRemapping p'
    return ⟨some (← schedulesToIsl ops p'), some r, none⟩
  | .failed _ => return ⟨none, none, none⟩
  | .timeout => none

/-- The numbers in the list that `pluto_schedule_str`, lib/plutolib.c:543-597, makes: the number of loops and
their depths, counted from 1. -/
def loopNumbers (ploops : List Loop) : List Nat := ploops.length :: ploops.map (fun l => l.depth + 1)

/-- `pluto_schedule_str`, lib/plutolib.c:543-597, after reading its arguments and before writing its results as
strings; the result is the schedule, the remapping and, with `--parallel`, the list of parallel loops.
`nploop` is 0 before the call, so that an array that has not been stored counts as empty. On failure the
remapping is not initialised, and printing the schedule fails an assertion. -/
def scheduleStr (ops : IslOps) (sched : Prog → Option Outcome) (parallel : Bool) (doms : List IslDom) (deps : List IslDep) :
    Option (List BMap × Remap × Option (List Nat)) := do
  let out ← parallelScheduleWithRemap ops sched doms deps
  let r ← out.remap
  let s ← out.scheds
  return (s, r, if parallel then some (loopNumbers (out.ploops.getD [])) else none)

end Pluto
