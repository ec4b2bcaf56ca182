import Verif.Model.Flow
import Mathlib.Data.Nat.Pairing

/-!
Model of the front end for pet, tool/pet_to_pluto.cpp, and of the extraction of accesses and of the accesses of
dependences, lib/program.cpp. Not modelled: the text of statements, and the context of the program. An
access is represented by the array and the basic map it is made from; the matrices made from these maps are in Model/IslAff.lean.
-/

namespace Pluto

/-- A map of the `isl_union_map` returned by `pet_stmt_collect_accesses`: one for each array, as the basic maps
it consists of. -/
structure PetAcc where
  arr : Nat
  parts : List BMap
deriving DecidableEq, Repr

/-- `struct pet_stmt`, as used: the domain (modelled for one basic set), the schedule of `pet_scop` restricted to
it, may-reads and may-writes. `kill`: for a kill statement, the arrays of the maps that it kills. -/
structure PetStmt where
  domain : BMap
  sched : BMap
  reads : List PetAcc
  writes : List PetAcc
  kill : Option (List Nat)
deriving DecidableEq, Repr

/-- The statement has a single map of writes, to the array `k`, tool/pet_to_pluto.cpp:173-222. -/
def writesOnly (s : PetStmt) (k : Nat) : Bool :=
  match s.writes with
  | [w] => w.arr == k
  | _ => false

/-- The inner loop of `mark_trivial_dead_code`, tool/pet_to_pluto.cpp:173-222, for the killed array `k`. -/
def markWriters (k : Nat) (ps : List PetStmt) (dead : List Bool) : List Bool :=
  List.zipWith (fun st d => d || writesOnly st k) ps dead

/-- An iteration of the outer loop of `mark_trivial_dead_code`, tool/pet_to_pluto.cpp:173-222. -/
def markStep (ps : List PetStmt) (dead : List Bool) (s : Nat) : List Bool :=
  match (ps[s]?).bind (·.kill) with
  | none => dead
  | some [k] => markWriters k ps (dead.set s true)
  | some _ => dead.set s true

/-- `mark_trivial_dead_code`, tool/pet_to_pluto.cpp:173-222. -/
def markDead (ps : List PetStmt) : List Bool := (List.range ps.length).foldl (markStep ps) (List.replicate ps.length false)

/-- The statements that `pet_to_pluto_stmts`, tool/pet_to_pluto.cpp:225-368, does not skip. -/
def petLive (ps : List PetStmt) : List PetStmt := ((ps.zip (markDead ps)).filter (fun x => !x.2)).map (·.1)

/-- The number that stands for the name `S_<i>_r<k>` or `S_<i>_w<k>` in the union maps. -/
def accCode (i : Nat) (w : Bool) (k : Nat) : Nat := Nat.pair i (Nat.pair (if w then 1 else 0) k)

/-- The name made by `compute_deps_pet`, tool/pet_to_pluto.cpp:79-169, and `set_tuple_name`,
tool/pet_to_pluto.cpp:58-74 (whose buffer is too small from 1000 accesses on). -/
def accName (i : Nat) (w : Bool) (k : Nat) : List Char :=
  'S' :: '_' :: (Nat.repr i).toList ++ '_' :: (if w then 'w' else 'r') :: (Nat.repr k).toList

/-- The name that a number stands for. -/
def codeName (c : Nat) : List Char := accName (Nat.unpair c).1 ((Nat.unpair (Nat.unpair c).2).1 == 1) (Nat.unpair (Nat.unpair c).2).2

/-- `atoi` on a text without leading spaces and sign. -/
def atoi (t : List Char) : Nat := Nat.ofDigitChars 10 (t.takeWhile (·.isDigit)) 0

/-- The statement number in a name, lib/program.cpp:367-495. -/
def nameStmt (t : List Char) : Nat := atoi (t.drop 2)

/-- The text after the first underscore. -/
def afterUnderscore : List Char → List Char
  | [] => []
  | c :: t => if c = '_' then t else afterUnderscore t

/-- The kind and number of the access in a name, lib/program.cpp:367-495; `none`: failed assertion. -/
def nameAcc (t : List Char) : Option (Char × Nat) :=
  match afterUnderscore (t.drop 2) with
  | [] => none
  | c :: r => some (c, atoi r)

/-- `PlutoDepType`, lib/pluto.h:218-225 (those used). -/
inductive DepType | raw | war | waw | rar
deriving DecidableEq, Repr

/-- `stmt->reads` as set by `extract_accesses_for_pluto_stmt`, lib/program.cpp:555-596: an access for every basic
map (array and basic map). -/
def stmtReads (s : PetStmt) : List (Nat × BMap) := s.reads.flatMap (fun a => a.parts.map (fun b => (a.arr, b)))

/-- `stmt->writes`, likewise. -/
def stmtWrites (s : PetStmt) : List (Nat × BMap) := s.writes.flatMap (fun a => a.parts.map (fun b => (a.arr, b)))

/-- A dependence with its type and accesses. -/
structure PetDep where
  dep : Dep
  type : DepType
  srcAcc : Option (Nat × BMap)
  destAcc : Option (Nat × BMap)
deriving DecidableEq, Repr

/-- `basic_map_extract_dep`, lib/program.cpp:367-495, with names of spaces and accesses (`accs`: option
`isldepaccesswise`); `none`: failed assertion, or an access or statement that does not exist. -/
def petExtractDep (ops : IslOps) (accs : Bool) (ps : List PetStmt) (stmts : List Stmt) (type : DepType) (d : IslDep) : Option PetDep := do
  let dep ← extractDep ops stmts ⟨nameStmt (codeName d.src), nameStmt (codeName d.dest), d.rel⟩
  if !accs then return ⟨dep, type, none, none⟩
  let (st, sn) ← nameAcc (codeName d.src)
  let (dt, dn) ← nameAcc (codeName d.dest)
  let s ← ps[dep.src]?
  let t ← ps[dep.dest]?
  match type with
  | .raw => return ⟨dep, .raw, some (← (stmtWrites s)[sn]?), some (← (stmtReads t)[dn]?)⟩
  | .waw => return ⟨dep, .waw, some (← (stmtWrites s)[sn]?), some (← (stmtWrites t)[dn]?)⟩
  | .war =>
    let ta ← (stmtWrites t)[dn]?
    if st = 'w' ∧ dt = 'w' then return ⟨dep, .waw, some (← (stmtWrites s)[sn]?), some ta⟩
    else return ⟨dep, .war, some (← (stmtReads s)[sn]?), some ta⟩
  | .rar => return ⟨{ dep with rar := true }, .rar, some (← (stmtReads s)[sn]?), some (← (stmtReads t)[dn]?)⟩

/-- Accesses of statement `i` with names that include kind and number of the map, `set_tuple_name`,
tool/pet_to_pluto.cpp:58-74. -/
def namedAccs (i : Nat) (w : Bool) (l : List PetAcc) : List IslAcc :=
  (l.mapIdx (fun k a => a.parts.map (fun b => (⟨accCode i w k, a.arr, b⟩ : IslAcc)))).flatten

/-- `reads` of `compute_deps_pet`, tool/pet_to_pluto.cpp:79-169. -/
def petReads (ps : List PetStmt) : List IslAcc := (ps.mapIdx (fun i s => namedAccs i false s.reads)).flatten

/-- `writes` of `compute_deps_pet`, tool/pet_to_pluto.cpp:79-169. -/
def petWrites (ps : List PetStmt) : List IslAcc := (ps.mapIdx (fun i s => namedAccs i true s.writes)).flatten

/-- `schedules` of `compute_deps_pet`, tool/pet_to_pluto.cpp:79-169: the schedule of the statement for each of its
named accesses. -/
def petTimes (ps : List PetStmt) : List IslTime :=
  (ps.mapIdx (fun i s => s.reads.mapIdx (fun k _ => (⟨accCode i false k, s.sched⟩ : IslTime)) ++
    s.writes.mapIdx (fun k _ => ⟨accCode i true k, s.sched⟩))).flatten

/-- `compute_deps_pet`, tool/pet_to_pluto.cpp:79-169. RAR dependences are computed (option `rar`) but not used. -/
def petDeps (ops : IslOps) (fo : FlowOps) (o : FlowOpts) (accs : Bool) (ps : List PetStmt) (stmts : List Stmt) : Option (List PetDep) := do
  let d ← computeDeps fo o true (petReads ps) (petWrites ps) (petTimes ps)
  let a ← d.raw.mapM (petExtractDep ops accs ps stmts .raw)
  let b ← d.war.mapM (petExtractDep ops accs ps stmts .war)
  let c ← d.waw.mapM (petExtractDep ops accs ps stmts .waw)
  return a ++ b ++ c

/-- The statement made by `pet_to_pluto_stmts`, tool/pet_to_pluto.cpp:225-368; the schedule matrix (`func`:
`isl_map_to_pluto_func`, lib/constraints_isl.c:422-449) is padded with zero rows. -/
def petStmt (ops : IslOps) (func : BMap → List (List Int)) (npar rows : Nat) (s : PetStmt) : Stmt :=
  let f := func s.sched
  ⟨s.domain.nout, s.domain.nout, bsetToCst ops s.domain, List.replicate s.domain.nout true,
    f ++ List.replicate (rows - f.length) (List.replicate (s.domain.nout + npar + 1) 0),
    List.replicate f.length .loop ++ List.replicate (rows - f.length) .scalar⟩

/-- `pet_to_pluto_prog`, tool/pet_to_pluto.cpp:611-720, and `pet_to_pluto_stmts`, tool/pet_to_pluto.cpp:225-368: the
program, and its dependences with types and accesses. (`nvar` is -1 in the code if there are no statements.) -/
def petToProg (ops : IslOps) (fo : FlowOps) (o : FlowOpts) (accs : Bool) (func : BMap → List (List Int)) (npar : Nat) (ps : List PetStmt) :
    Option (Prog × List PetDep) := do
  let live := petLive ps
  let rows := (live.map (·.sched.nout)).foldl max 0
  let sts := live.map (petStmt ops func npar rows)
  let ds ← petDeps ops fo o accs live sts
  let hyps := if sts = [] then [] else
    (List.range ((ps.map (·.sched.nout)).foldl max 0)).map (fun i => if i % 2 = 1 then HypType.loop else .scalar)
  return (⟨(ps.map (·.domain.nout)).foldl max 0, npar, sts, ds.map (·.dep), hyps⟩, ds)

/-- The code generation context made from the option `codegen-context`, tool/pet_to_pluto.cpp:611-720. -/
def codegenContext (npar : Nat) (c : Int) : Cst :=
  if c = -1 then ⟨npar + 1, []⟩
  else ⟨npar + 1, (List.range npar).map (fun i => ⟨false, (List.replicate npar 0).set i 1 ++ [-c]⟩)⟩

end Pluto
