import Verif.Model.IslAff
import Verif.Model.IslLib

/-! Model of the extraction of accesses by the library interface, lib/plutolib.c. -/

namespace Pluto

/-- A map of the union maps `reads` and `writes` given to the library: the name of the domain space, and the array
with the basic maps. -/
structure NamedAcc where
  name : List Char
  acc : PetAcc
deriving DecidableEq, Repr

/-- `stmt_filter`, lib/plutolib.c:266-277, for all maps of the union: those kept for statement `i`. -/
def stmtFilter (i : Nat) (l : List NamedAcc) : List PetAcc :=
  (l.filter (fun a => decide (atoi (a.name.drop 2) = i))).map (·.acc)

/-- `extract_accesses_for_pluto_stmt`, lib/program.cpp:555-596, with its assertions on the number of columns (`none`:
one fails, or isl has no affine expression), for a statement with `dim` loops. A matrix without rows has the right
number of columns. -/
def checkedAccs (P : PwOps) (dim npar : Nat) (l : List PetAcc) : Option (List (Nat × List (List Int))) := do
  let accs ← stmtAccs P l
  if accs.all (fun a => a.2.all (fun r => r.length == dim + npar + 1)) then some accs else none

/-- The reads and writes of each statement as set by `pluto_prog_from_isl_domains_dependences`, lib/plutolib.c:318-383
(lines 348-369); empty unless both are given. -/
def islAccesses (P : PwOps) (npar : Nat) (stmts : List Stmt) (reads writes : Option (List NamedAcc)) :
    Option (List (List (Nat × List (List Int)) × List (Nat × List (List Int)))) :=
  match reads, writes with
  | some r, some w => (stmts.mapIdx (fun i st => (i, st))).mapM (fun x => do
    return (← checkedAccs P x.2.dim npar (stmtFilter x.1 r), ← checkedAccs P x.2.dim npar (stmtFilter x.1 w)))
  | _, _ => some (stmts.map (fun _ => ([], [])))

end Pluto
