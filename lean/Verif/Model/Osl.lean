import Verif.Model.Pet

/-!
Model of the front end for OpenScop (clan, or a file read with --readscop), tool/osl_pluto.c. Not modelled: texts and
names of iterators and parameters, the dependences kept besides `prog->deps` (`transdeps`), the conversion of candl's
dependence polyhedra (it is followed by a failing assertion), `.linearized` files.
-/

namespace Pluto

/-- `osl_relation_t`, as used: the rows (the first entry is 0 for an equality), and the numbers of output, input and
local dimensions and of parameters. Columns: [e | out | in | local | par | 1]. -/
structure OslRel where
  rows : List (List Int)
  nout : Nat
  nin : Nat
  nloc : Nat
  npar : Nat
deriving DecidableEq, Repr

/-- `type` of an access relation (those that tool/osl_pluto.c distinguishes). -/
inductive OslType | read | write | mayWrite
deriving DecidableEq, Repr

/-- `osl_statement_t`, as used: the union of relations of the domain (the list linked with `next`), the scattering and
the accesses. -/
structure OslStmt where
  domain : List OslRel
  scat : OslRel
  accs : List (OslType × OslRel)
deriving DecidableEq, Repr

/-- `osl_scop_t`, as used. -/
structure OslScop where
  context : OslRel
  stmts : List OslStmt
deriving DecidableEq, Repr

/-- `osl_access_list_filter_read`, tool/osl_pluto.c:164-193. -/
def OslStmt.reads (s : OslStmt) : List OslRel := (s.accs.filter (fun a => a.1 == .read)).map (·.2)

/-- `osl_access_list_filter_write`, tool/osl_pluto.c:129-159. -/
def OslStmt.writes (s : OslStmt) : List OslRel := (s.accs.filter (fun a => a.1 == .write || a.1 == .mayWrite)).map (·.2)

/-- `osl_relation_get_row_id_for_nth_dimension`, tool/osl_pluto.c:476-506: the row in which column `n` is not zero;
`none`: exit. -/
def OslRel.rowOf (r : OslRel) (n : Nat) : Option (List Int) :=
  if r.rows.length < n then none
  else match r.rows.filter (fun w => w.getD n 0 != 0) with
    | [w] => some w
    | _ => none

/-- `osl_relation_to_pluto_constraints`, tool/osl_pluto.c:721-745 (only the first relation of a union); `none`: exit. -/
def oslToCst (r : OslRel) : Option Cst :=
  if r.nloc ≠ 0 then none
  else some ⟨r.nout + r.nin + r.nloc + r.npar + 1, r.rows.map (fun w => ⟨w.headD 0 == 0, w.drop 1⟩)⟩

/-- `osl_scattering_to_pluto_trans`, tool/osl_pluto.c:511-538; `none`: exit or failed assertion. -/
def oslTrans (r : OslRel) : Option (List (List Int)) :=
  if r.nloc ≠ 0 ∨ ∃ w ∈ r.rows, w.headD 0 ≠ 0 then none
  else (List.range r.rows.length).mapM (fun i => (r.rowOf (i + 1)).map (·.drop (r.nout + 1)))

/-- `osl_access_relation_to_pluto_matrix`, tool/osl_pluto.c:545-581; `none`: exit. -/
def oslAccMat (r : OslRel) : Option (List (List Int)) :=
  if r.nloc ≠ 0 then none
  else if r.rows.length = 1 then some [List.replicate (r.nin + r.nloc + r.npar + 1) 0]
  else (List.range (r.rows.length - 1)).mapM (fun i => (r.rowOf (i + 2)).map (·.drop (r.nout + 1)))

/-- `osl_relation_get_array_id` of the osl library: the constant in the row of the first output dimension. -/
def oslArrayId (r : OslRel) : Nat := (((r.rows.find? (fun w => w.getD 1 0 != 0)).getD []).getLastD 0).toNat

/-- `osl_scattering_to_isl_map`, tool/osl_pluto.c:933-952, and `extract_equalities_osl`, tool/osl_pluto.c:907-928;
entries go through an `int`; `none`: exit, or a matrix of the wrong size for isl. -/
def oslScatMap (r : OslRel) : Option BMap :=
  if r.nloc ≠ 0 then none
  else do
    let eqs ← (List.range r.rows.length).mapM (fun i => (r.rowOf (i + 1)).map (fun w => (w.drop 1).map putSi))
    return ⟨r.nin, r.nout, 0, r.npar, eqs.map (outInRow r.nin r.nout), []⟩

/-- `osl_basic_access_to_isl_union_map`, tool/osl_pluto.c:993-1025 (and the same part of
`osl_access_list_to_isl_union_map`, tool/osl_pluto.c:1038-1082), before the intersection with the domain, and
`extract_equalities_osl_access`, tool/osl_pluto.c:957-987: a scalar is element 0 of a one-dimensional array; `none`:
exit, or a matrix of the wrong size for isl. -/
def oslAccMap (r : OslRel) : Option BMap :=
  if r.nloc ≠ 0 ∨ r.nout ≠ r.rows.length then none
  else if r.rows.length = 1 then some ⟨r.nin, 1, 0, r.npar, [outInRow r.nin 1 (-1 :: List.replicate (r.nin + r.npar + 1) 0)], []⟩
  else do
    let eqs ← (List.range (r.rows.length - 1)).mapM (fun i => (r.rowOf (i + 2)).map (fun w => (w.drop 2).map putSi))
    return ⟨r.nin, r.rows.length - 1, 0, r.npar, eqs.map (outInRow r.nin (r.rows.length - 1)), []⟩

/-- `osl_relation_to_isl_set`, tool/osl_pluto.c:1101-1142. -/
def oslSet (r : OslRel) : BMap :=
  ⟨0, r.nout, 0, r.npar, (r.rows.filter (fun w => w.headD 0 == 0)).map (fun w => (w.drop 1).map putSi),
    (r.rows.filter (fun w => w.headD 0 != 0)).map (fun w => (w.drop 1).map putSi)⟩

/-- `isl_set_intersect_params`, for basic sets: the constraints of the context are added. -/
def withParams (ctx b : BMap) : BMap :=
  { b with eqs := b.eqs ++ ctx.eqs.map (fun r => List.replicate b.nout 0 ++ r), ineqs := b.ineqs ++ ctx.ineqs.map (fun r => List.replicate b.nout 0 ++ r) }

/-- `isl_map_intersect_domain`, for a basic map without existentially quantified variables and a basic set. -/
def withDomain (dom m : BMap) : BMap :=
  let ins := fun r : List Int => r.take m.nin ++ List.replicate m.nout 0 ++ r.drop m.nin
  { m with eqs := m.eqs ++ dom.eqs.map ins, ineqs := m.ineqs ++ dom.ineqs.map ins }

/-- The isl objects that `compute_deps_osl` makes for a statement: the schedule, and for every access the array and
the basic maps. -/
structure OslIsl where
  sched : BMap
  reads : List PetAcc
  writes : List PetAcc
deriving DecidableEq, Repr

/-- The map of an access, with a basic map for every relation of the domain, tool/osl_pluto.c:1187-1472. -/
def oslIslAcc (ctx : BMap) (s : OslStmt) (a : OslRel) : Option PetAcc := do
  let m ← oslAccMap a
  return ⟨oslArrayId a - 1, s.domain.map (fun d => withDomain (withParams ctx (oslSet d)) m)⟩

/-- The maps of a statement, tool/osl_pluto.c:1187-1472. -/
def oslIslStmt (ctx : BMap) (s : OslStmt) : Option OslIsl := do
  let sched ← oslScatMap s.scat
  let rs ← s.reads.mapM (oslIslAcc ctx s)
  let ws ← s.writes.mapM (oslIslAcc ctx s)
  return ⟨sched, rs, ws⟩

/-- The number that stands for the name of an access: with `isldepaccesswise`, a name for every access, otherwise the
name of the statement, tool/osl_pluto.c:1187-1472. -/
def oslCode (accs : Bool) (i : Nat) (w : Bool) (k : Nat) : Nat := if accs then accCode i w k else i

/-- The statement number read from a name. -/
def oslCodeStmt (accs : Bool) (c : Nat) : Nat := if accs then nameStmt (codeName c) else c

/-- The maps of the accesses `l` of statement `i`. -/
def oslNamed (accs : Bool) (i : Nat) (w : Bool) (l : List PetAcc) : List IslAcc :=
  (l.mapIdx (fun k a => a.parts.map (fun b => (⟨oslCode accs i w k, a.arr, b⟩ : IslAcc)))).flatten

/-- `reads` of `compute_deps_osl`, tool/osl_pluto.c:1187-1472. -/
def oslReads (accs : Bool) (l : List OslIsl) : List IslAcc := (l.mapIdx (fun i s => oslNamed accs i false s.reads)).flatten

/-- `writes` of `compute_deps_osl`, tool/osl_pluto.c:1187-1472. -/
def oslWrites (accs : Bool) (l : List OslIsl) : List IslAcc := (l.mapIdx (fun i s => oslNamed accs i true s.writes)).flatten

/-- `schedule` of `compute_deps_osl`, tool/osl_pluto.c:1187-1472: for every access, or for every statement; it is not
restricted to the domain. -/
def oslTimes (accs : Bool) (l : List OslIsl) : List IslTime :=
  (l.mapIdx (fun i s => if accs then
      s.reads.mapIdx (fun k _ => (⟨accCode i false k, s.sched⟩ : IslTime)) ++ s.writes.mapIdx (fun k _ => ⟨accCode i true k, s.sched⟩)
    else [⟨i, s.sched⟩])).flatten

/-- An access of a statement: the number of the array and the matrix. -/
abbrev OslAcc := Nat × List (List Int)

/-- A dependence with its type and accesses. -/
structure OslDep where
  dep : Dep
  type : DepType
  srcAcc : Option OslAcc
  destAcc : Option OslAcc
deriving DecidableEq, Repr

/-- `stmt->reads` or `stmt->writes` as set by `osl_to_pluto_stmts`, tool/osl_pluto.c:748-902. -/
def oslAccs (l : List OslRel) : Option (List OslAcc) := l.mapM (fun r => (oslAccMat r).map (fun m => (oslArrayId r - 1, m)))

/-- `basic_map_extract_dep`, lib/program.cpp:367-495, for a program whose statements have the accesses `ra`, `wa`
(`accs`: option `isldepaccesswise`); `none`: failed assertion, or an access or statement that does not exist. -/
def oslExtractDep (ops : IslOps) (accs : Bool) (ra wa : List (List OslAcc)) (stmts : List Stmt) (type : DepType) (d : IslDep) : Option OslDep := do
  let dep ← extractDep ops stmts ⟨oslCodeStmt accs d.src, oslCodeStmt accs d.dest, d.rel⟩
  let dep := { dep with rar := type == .rar }
  if !accs then return ⟨dep, type, none, none⟩
  let (st, sn) ← nameAcc (codeName d.src)
  let (dt, dn) ← nameAcc (codeName d.dest)
  let sr ← ra[dep.src]?
  let sw ← wa[dep.src]?
  let tr ← ra[dep.dest]?
  let tw ← wa[dep.dest]?
  match type with
  | .raw => return ⟨dep, .raw, some (← sw[sn]?), some (← tr[dn]?)⟩
  | .waw => return ⟨dep, .waw, some (← sw[sn]?), some (← tw[dn]?)⟩
  | .war =>
    let ta ← tw[dn]?
    if st = 'w' ∧ dt = 'w' then return ⟨dep, .waw, some (← sw[sn]?), some ta⟩
    else return ⟨dep, .war, some (← sr[sn]?), some ta⟩
  | .rar => return ⟨dep, .rar, some (← sr[sn]?), some (← tr[dn]?)⟩

/-- `compute_deps_osl`, tool/osl_pluto.c:1187-1472. -/
def oslDeps (ops : IslOps) (fo : FlowOps) (o : FlowOpts) (accs : Bool) (isl : List OslIsl) (ra wa : List (List OslAcc)) (stmts : List Stmt) :
    Option (List OslDep) := do
  let d ← computeDeps fo o true (oslReads accs isl) (oslWrites accs isl) (oslTimes accs isl)
  let a ← d.raw.mapM (oslExtractDep ops accs ra wa stmts .raw)
  let b ← d.war.mapM (oslExtractDep ops accs ra wa stmts .war)
  let c ← d.waw.mapM (oslExtractDep ops accs ra wa stmts .waw)
  let r ← (d.rar.getD []).mapM (oslExtractDep ops accs ra wa stmts .rar)
  return a ++ b ++ c ++ r

/-- The loop body of `osl_to_pluto_stmts`, tool/osl_pluto.c:748-902; `rows`: the maximal number of rows of scatterings;
`none`: exit or failed assertion. -/
def oslStmt (npar rows : Nat) (s : OslStmt) : Option Stmt := do
  let d ← s.domain.head?
  let dom ← oslToCst d
  let f ← oslTrans s.scat
  if dom.ncols ≠ d.nout + npar + 1 then none
  else some ⟨d.nout, d.nout, dom, List.replicate d.nout true,
    f ++ List.replicate (rows - f.length) (List.replicate (d.nout + npar + 1) 0),
    List.replicate f.length .loop ++ List.replicate (rows - f.length) .scalar⟩

/-- The maximal number of rows of scatterings, tool/osl_pluto.c:748-902. -/
def oslRows (sc : OslScop) : Nat := (sc.stmts.map (·.scat.rows.length)).foldl max 0

/-- The number of iterators of a statement, `osl_statement_get_nb_iterators` of the osl library. -/
def OslStmt.niter (s : OslStmt) : Nat := (s.domain.head?.map (·.nout)).getD 0

/-- `osl_scop_to_pluto_prog`, tool/osl_pluto.c:1620-1743, with the option isldep (the default): the program, and its
dependences with types and accesses. -/
def oslToProg (ops : IslOps) (fo : FlowOps) (o : FlowOpts) (accs : Bool) (sc : OslScop) : Option (Prog × List OslDep) := do
  let npar := sc.context.npar
  let rows := oslRows sc
  let sts ← sc.stmts.mapM (oslStmt npar rows)
  let ra ← sc.stmts.mapM (fun s => oslAccs s.reads)
  let wa ← sc.stmts.mapM (fun s => oslAccs s.writes)
  let isl ← sc.stmts.mapM (oslIslStmt (oslSet sc.context))
  let ds ← oslDeps ops fo o accs isl ra wa sts
  let hyps := if sts = [] then [] else (List.range rows).map (fun i => if i % 2 = 1 then HypType.loop else .scalar)
  return (⟨(sc.stmts.map (·.niter)).foldl max 0, npar, sts, ds.map (·.dep), hyps⟩, ds)

/-- `switch` without `break`: the assignments from the first case that matches on are all executed. -/
def switchThrough {α β : Type} (cases : List ((α → Bool) × β)) (init : β) (v : α) : β :=
  (cases.dropWhile (fun c => !c.1 v)).foldl (fun _ c => c.2) init

/-- A dependence in candl's list, as used: statements and type (`none`: undefined). -/
structure CandlDep where
  src : Nat
  dest : Nat
  type : Option DepType
deriving DecidableEq, Repr

/-- The type given to a dependence by `deps_read`, tool/osl_pluto.c:1475-1615: the cases of the first `switch` do not
end with `break`. `none`: `PLUTO_DEP_UNDEFINED`. -/
def candlType (t : Option DepType) : Option DepType :=
  switchThrough [((· == some .raw), some .raw), ((· == some .waw), some .waw), ((· == some .war), some .war), ((· == some .rar), some .rar),
    (fun _ => true, none)] none t

/-- `deps_read`, tool/osl_pluto.c:1475-1615 (option candldep): an argument converts the polyhedra and finds the
accesses; `none`: failed assertion (the second `switch`). -/
def depsRead {β : Type} (conv : CandlDep → DepType → Option β) (l : List CandlDep) : Option (List β) :=
  l.mapM (fun d => match candlType d.type with
    | none => none
    | some t => conv d t)

/-- `pluto_trans_to_osl_scattering`, tool/osl_pluto.c:48-85. -/
def scatFromTrans (npar ncols : Nat) (m : List (List Int)) : OslRel :=
  ⟨m.mapIdx (fun i r => 0 :: (List.replicate m.length 0).set i (-1) ++ r), m.length, ncols - npar - 1, 0, npar⟩

/-- `pluto_constraints_to_osl_domain`, tool/osl_pluto.c:446-470. -/
def domainFromCst (npar : Nat) (c : Cst) : OslRel :=
  ⟨c.rows.map (fun r => (if r.eq then 0 else 1) :: r.val), c.ncols + 1 - npar - 2, 0, 0, npar⟩

/-- Blank columns inserted into an access, one for every new iterator, tool/osl_pluto.c:587-716. -/
def blankColumns (n : Nat) (r : OslRel) : OslRel :=
  { r with rows := r.rows.map (fun w => w.take (r.nout + 1) ++ List.replicate n 0 ++ w.drop (r.nout + 1)), nin := r.nin + n }

/-- `pluto_populate_scop`, tool/osl_pluto.c:587-716: domains, scatterings and accesses (`orig`: the number of iterators
in the body); `none`: a statement of the scop that does not exist is used. Statements beyond those of the program
are kept. -/
def populateScop (p : Prog) (sc : OslScop) (orig : OslStmt → Nat) : Option OslScop :=
  if sc.stmts.length < p.stmts.length then none
  else some { sc with stmts := sc.stmts.mapIdx (fun i s => match p.stmts[i]? with
    | none => s
    | some st =>
      let d := domainFromCst p.npar st.domain
      let niter := st.domain.ncols + 1 - (sc.context.npar + 2)
      ⟨[d], scatFromTrans p.npar (st.dim + p.npar + 1) st.trans, s.accs.map (fun a => (a.1, blankColumns (niter - orig s) a.2))⟩) }

end Pluto
