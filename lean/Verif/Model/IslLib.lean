import Verif.Model.IslConv
import Verif.Model.Remap
import Verif.Model.Pipeline

/-!
Model of the library interface, lib/plutolib.c: programs from isl domains and dependences, and schedules
as isl relations. Accesses are left out: `reads` and `writes` only matter for the choice of loops in
intra-tile optimization, which is an argument of the model.
-/

namespace Pluto

/-- A set of the `isl_union_set` of domains; `id` is the number in its name `S_<id>`. Modelled for sets with
one basic set (for more see `extractDomain`, Verif/Model/CstList.lean). -/
structure IslDom where
  id : Nat
  set : BMap
deriving DecidableEq, Repr

/-- A basic map of the `isl_union_map` of dependences; `src` and `dest` are the numbers in the names of the
two spaces. -/
structure IslDep where
  src : Nat
  dest : Nat
  rel : BMap
deriving DecidableEq, Repr

/-- The statement made by `extract_stmt`, lib/plutolib.c:140-193 (with `pluto_stmt_alloc`). -/
def islStmt (ops : IslOps) (d : IslDom) : Stmt :=
  ⟨d.set.nout, d.set.nout, bsetToCst ops d.set, List.replicate d.set.nout true, [], []⟩

/-- `extract_stmt`, lib/plutolib.c:140-193, on the array of statements extracted so far; `none`: a repeated
domain (assertion) or an id out of the array. -/
def extractStmt (ops : IslOps) (a : List (Option Stmt)) (d : IslDom) : Option (List (Option Stmt)) :=
  match a[d.id]? with
  | some none => some (a.set d.id (some (islStmt ops d)))
  | _ => none

/-- `extract_stmts`, lib/plutolib.c:196-215. -/
def extractStmts (ops : IslOps) (ds : List IslDom) : Option (List Stmt) := do
  let a ← ds.foldlM (extractStmt ops) (List.replicate ds.length none)
  a.mapM id

/-- `basic_map_extract_dep`, lib/program.cpp:367-495, without `isldepaccesswise`, for a relation whose range
is not wrapped; `none`: failed assertion, or a statement that does not exist. All dependences given to
the library are typed RAW. -/
def extractDep (ops : IslOps) (stmts : List Stmt) (d : IslDep) : Option Dep := do
  let c := bmapToCst (ops.removeDivs d.rel)
  let s ← stmts[d.src]?
  let t ← stmts[d.dest]?
  if c.ncols ≠ s.dim + t.dim + (s.domain.ncols - s.dim) then none
  else some ⟨d.src, d.dest, false, c, c, false, -1, [], []⟩

/-- `prog->npar` as set by `pluto_prog_from_isl_domains_dependences`, lib/plutolib.c:318-383. -/
def firstNpar : List Stmt → Nat
  | [] => 0
  | st :: _ => st.domain.ncols - st.dim - 1

/-- `pluto_prog_from_isl_domains_dependences`, lib/plutolib.c:318-383, without accesses. (`nvar` is -1 in the
code if there are no statements.) -/
def progFromIsl (ops : IslOps) (doms : List IslDom) (deps : List IslDep) : Option Prog := do
  let stmts ← extractStmts ops doms
  let ds ← deps.mapM (extractDep ops stmts)
  return ⟨(stmts.map (·.dim)).foldl max 0, firstNpar stmts, stmts, ds, []⟩

/-- The loop of `pluto_schedules_to_isl`, lib/plutolib.c:281-313, for `n` statements from `i` on: the
relation of statement `i` is the `i`-th of the result. -/
def schedulesFrom (ops : IslOps) : Nat → Nat → Prog → Option (List BMap)
  | 0, _, _ => some []
  | n + 1, i, p => do
    let (sched, p') ← normalizeDomainSchedule p i
    let st ← p'.stmts[i]?
    let b ← bmapFromCst sched (sched.ncols - st.trans.length - p'.npar - 1) st.trans.length p'.npar
    let m := ops.projectIn b (sched.ncols - st.trans.length - st.domain.ncols)
    return m :: (← schedulesFrom ops n (i + 1) p')

/-- `pluto_schedules_to_isl`, lib/plutolib.c:281-313. -/
def schedulesToIsl (ops : IslOps) (p : Prog) : Option (List BMap) := schedulesFrom ops p.stmts.length 0 p

/-- `pluto_transform`, lib/plutolib.c:390-422, for a scheduler `sched` (`pluto_schedule_prog`). `some none` is
the return value NULL; `none`: failed assertion, or no result. -/
def plutoTransform (ops : IslOps) (sched : Prog → Option Outcome) (doms : List IslDom) (deps : List IslDep) :
    Option (Option (List BMap)) := do
  let p ← progFromIsl ops doms deps
  match ← sched p with
  | .success p' => return some (← schedulesToIsl ops p')
  | .failed _ => return none
  | .timeout => none

end Pluto
