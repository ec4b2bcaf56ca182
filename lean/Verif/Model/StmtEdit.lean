import Verif.Model.Auto
import Verif.Model.Matrix

/-!
Model of the remaining statement edits: access matrices under dimension edits, `pluto_stripmine`,
`pluto_diamond_tile_reschedule`, adding and removing statements. `none` stands for a failed assertion or
an access outside an array.
-/

namespace Pluto

/-! ### Access matrices -/

/-- The access part of `pluto_stmt_add_dim`, lib/program.cpp:1002-1084: every read and write access gets
a new column (`pluto_matrix_add_col`; the uninitialised entry of the C code, `junk`, is overwritten). -/
def accsAddDim (junk : Int) (accs : List Mat) (pos : Nat) : Option (List Mat) :=
  accs.mapM (fun m => m.addCol junk pos)

/-- The access part of `pluto_stmt_remove_dim`, lib/program.cpp:1088-1145. -/
def accsRemoveDim (accs : List Mat) (pos : Nat) : Option (List Mat) :=
  accs.mapM (fun m => m.removeCol pos)

/-! ### Strip-mining -/

/-- The two rows `pluto_stripmine` (lib/transforms.c:37-57) adds to the domain, from the schedule row `r`
of the strip-mined level (with the column of the new iterator). The constant of `r` is not copied, and
the final `+= factor` goes to column `trans->ncols`, behind the row. -/
def stripRows (factor : Int) (r : List Int) : List Row :=
  [⟨false, -factor :: (r.drop 1).dropLast ++ [0]⟩,
   ⟨false, factor :: ((r.drop 1).dropLast).map (fun a => -a) ++ [0]⟩]

/-- `pluto_stripmine`, lib/transforms.c:37-57, on the `dim`-th level of statement `i`. `spare` tells
whether the domain has an allocated column behind its last one: if not, the write to column
`trans->ncols` is outside the row. With a spare column the write has no effect on the system. -/
def stripmine (p : Prog) (i dim : Nat) (factor : Int) (spare : Bool) : Option Prog := do
  let p1 ← stmtAddDim p i 0 (some (dim, .tileSpaceLoop))
  let st ← p1.stmts[i]?
  let r ← st.trans[dim + 1]?
  if r.length ≠ st.domain.ncols ∨ spare = false then none
  else
    let st' := { st with domain := { st.domain with rows := st.domain.rows ++ stripRows factor r } }
    return { p1 with stmts := p1.stmts.set i st' }

/-! ### Diamond tile rescheduling -/

/-- `evicted_hyp` and `evicted_hyp_pos` of a statement, lib/pluto.h:166-170. -/
structure Evicted where
  hyp : List Int
  pos : Nat
deriving DecidableEq, Repr

/-- Body of the loop of `pluto_diamond_tile_reschedule`, lib/tile.c:85-105: the evicted hyperplane and the
part of schedule row `fl + pos` behind the first `fl` columns are exchanged. -/
def reschedStmt (st : Stmt) : Option Evicted → Option (Stmt × Option Evicted)
  | none => some (st, none)
  | some e => do
    let fl := st.dim - st.dimOrig
    let r ← st.trans[fl + e.pos]?
    if fl + e.hyp.length ≠ r.length then none
    else
      return ({ st with trans := st.trans.set (fl + e.pos) (r.take fl ++ e.hyp) },
        some { e with hyp := r.drop fl })

/-- `pluto_diamond_tile_reschedule`, lib/tile.c:85-105. The evicted hyperplanes are given per statement;
the Boolean is the return value. -/
def reschedule (p : Prog) (ev : List (Option Evicted)) : Option (Prog × List (Option Evicted) × Bool) := do
  let l ← (p.stmts.zip ev).mapM (fun x => reschedStmt x.1 x.2)
  return ({ p with stmts := l.map (·.1) }, l.map (·.2), ev.any Option.isSome)

/-! ### Adding and removing statements -/

/-- `pluto_create_stmt`, lib/program.cpp:1187-1206, with `pluto_stmt_alloc`, lib/program.cpp:1349-1404, the modelled
fields. -/
def createStmt (dim : Nat) (domain : Cst) (trans : List (List Int)) : Stmt :=
  ⟨dim, dim, domain, List.replicate dim true, trans, List.replicate trans.length .loop⟩

/-- One statement in `pluto_pad_stmt_transformations`, lib/program.cpp:1210-1246: zero rows up to `n`. -/
def padTrans (ncols n : Nat) (st : Stmt) : Stmt :=
  { st with
    trans := st.trans ++ List.replicate (n - st.trans.length) (zrow (ncols + st.dim))
    hypTypes := st.hypTypes ++ List.replicate (n - st.trans.length) .scalar }

/-- `pluto_pad_stmt_transformations`, lib/program.cpp:1210-1246 (`trans` is never NULL here). The rows
have `dim + npar + 1` columns. -/
def padTransformations (p : Prog) : Prog :=
  let n := (p.stmts.map (fun st => st.trans.length)).foldl max 0
  { p with
    stmts := p.stmts.map (padTrans (p.npar + 1) n)
    hProps := p.hProps ++ List.replicate (n - p.hProps.length) .scalar }

/-- `pluto_add_given_stmt`, lib/program.cpp:1249-1260. The id of a statement is its position. -/
def addGivenStmt (p : Prog) (st : Stmt) : Prog :=
  padTransformations { p with nvar := max p.nvar st.dim, stmts := p.stmts ++ [st] }

/-- `pluto_add_stmt`, lib/program.cpp:1268-1294; `tcols` is the number of columns of `trans`. -/
def addStmt (p : Prog) (domain : Cst) (trans : List (List Int)) (tcols : Nat) : Option Prog :=
  if tcols ≠ domain.ncols ∨ domain.ncols < p.npar + 1 then none
  else some (addGivenStmt p (createStmt (domain.ncols - p.npar - 1) domain trans))

/-- The dependence part of `decrement_stmt_id`, lib/program.cpp:2228-2242. -/
def decDep (id : Nat) (d : Dep) : Dep :=
  { d with src := if d.src = id then d.src - 1 else d.src, dest := if d.dest = id then d.dest - 1 else d.dest }

/-- The loop of `pluto_remove_stmt`, lib/program.cpp:2245-2263, on statements and dependences: statement
`i + 1` moves to `i` and everything that names it follows, for `n` positions from `i`. Statement ids are
positions. -/
def removeLoop : Nat → Nat → List Stmt × List Dep → List Stmt × List Dep
  | 0, _, s => s
  | n + 1, i, (ss, ds) =>
    removeLoop n (i + 1) ((match ss[i + 1]? with | some st => ss.set i st | none => ss), ds.map (decDep (i + 1)))

/-- `pluto_remove_stmt`, lib/program.cpp:2245-2263. `nvar` can only grow. Dependences of the removed
statement are kept; `transdeps` are not modelled. -/
def removeStmt (p : Prog) (i : Nat) : Option Prog :=
  if p.stmts.length = 0 ∨ i ≥ p.stmts.length then none
  else
    let (ss, ds) := removeLoop (p.stmts.length - 1 - i) i (p.stmts, p.deps)
    let ss := ss.dropLast
    some { p with stmts := ss, deps := ds, nvar := (ss.map (·.dim)).foldl max p.nvar }

end Pluto
