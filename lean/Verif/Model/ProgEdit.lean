import Verif.Model.Transforms
import Verif.Model.StmtEdit

/-!
Model of the edits of a whole program: a new parameter (`pluto_prog_add_param`), interchange of two levels
(`pluto_interchange`), a new scalar level that separates statements (`pluto_separate_stmts`,
`pluto_separate_stmt`). `none` stands for a failed assertion or an access outside an array.
-/

namespace Pluto

/-! ### Parameters -/

/-- A program with what `Prog` leaves out and `pluto_prog_add_param` changes: access matrices of each statement
(writes and reads), `param_context`, `codegen_context` and `params`, lib/pluto.h:329-422. -/
structure FullProg where
  prog : Prog
  accs : List (List Mat)
  paramCtx : Cst
  codegenCtx : Cst
  params : List String
deriving DecidableEq

/-- `pluto_constraints_add_dim` on a parameter position, lib/constraints.c:1601-1636 called at
lib/program.cpp:957-982 (first element of a union only). -/
def addParamDim (npar pos : Nat) (c : Cst) : Option Cst :=
  if c.ncols < npar + 1 ∨ c.ncols - 1 - npar + pos > c.ncols - 1 then none else some (addDim c (c.ncols - 1 - npar + pos))

/-- The statement part of `pluto_prog_add_param`, lib/program.cpp:955-970, without accesses. -/
def stmtAddParam (npar pos : Nat) (st : Stmt) : Option Stmt := do
  let dom ← addParamDim npar pos st.domain
  return { st with domain := dom, trans := st.trans.map (fun r => r.insertIdx (r.length - 1 - npar + pos) 0) }

/-- The dependence part of `pluto_prog_add_param`, lib/program.cpp:971-975. `bounding_poly` is not changed. -/
def depAddParam (npar pos : Nat) (d : Dep) : Option Dep := do
  return { d with dpoly := (← addParamDim npar pos d.dpoly) }

/-- The access part of `pluto_prog_add_param`, lib/program.cpp:964-969: a new column at `dim + pos`. -/
def accsAddParam (junk : Int) (pos : Nat) (x : Stmt × List Mat) : Option (List Mat) :=
  accsAddDim junk x.2 (x.1.dim + pos)

/-- `pluto_prog_add_param`, lib/program.cpp:954-992. (`junk`: what the memory of new matrix columns contains.) -/
def progAddParam (junk : Int) (P : FullProg) (name : String) (pos : Nat) : Option FullProg := do
  let np := P.prog.npar
  let ss ← P.prog.stmts.mapM (stmtAddParam np pos)
  let accs ← (P.prog.stmts.zip P.accs).mapM (accsAddParam junk pos)
  let ds ← P.prog.deps.mapM (depAddParam np pos)
  let pc ← addParamDim np pos P.paramCtx
  let cc ← addParamDim np pos P.codegenCtx
  return ⟨{ P.prog with npar := np + 1, stmts := ss, deps := ds }, accs, pc, cc, P.params.insertIdx pos name⟩

/-! ### Interchange -/

/-- `pluto_interchange`, lib/transforms.c:68-79. The types the statements record for the levels (`hyp_types`) and the
levels recorded with the dependences stay as they were. -/
def progInterchange (p : Prog) (l1 l2 : Nat) : Option Prog := do
  let ss ← p.stmts.mapM (fun st => stmtInterchange st l1 l2)
  let h1 ← p.hProps[l1]?
  let h2 ← p.hProps[l2]?
  return { p with stmts := ss, hProps := (p.hProps.set l1 h2).set l2 h1 }

/-! ### Separation -/

/-- `pluto_stmt_add_hyperplane`, lib/program.cpp:1147-1163 (tile dimensions aside). -/
def stmtAddLevel (npar : Nat) (ty : HypType) (pos : Nat) (st : Stmt) : Option Stmt :=
  if pos > st.trans.length then none
  else some { st with
    trans := st.trans.insertIdx pos (zrow (st.dim + npar + 1)), hypTypes := st.hypTypes.insertIdx pos ty }

/-- `stmt->trans->val[level][ncols - 1] = c`, lib/program.cpp:2039-2041 and 2057. -/
def setLevelConst (level : Nat) (c : Int) (st : Stmt) : Option Stmt := do
  let r ← st.trans[level]?
  return { st with trans := st.trans.set level (r.dropLast ++ [c]) }

/-- The loop over the given statements in `pluto_separate_stmts`, lib/program.cpp:2039-2041, from number `k` on. -/
def setOffsets (level : Nat) (offset : Int) : List Nat → Nat → List Stmt → Option (List Stmt)
  | [], _, ss => some ss
  | i :: is, k, ss => do
    let st ← ss[i]?
    let st' ← setLevelConst level (offset + 1 + k) st
    setOffsets level offset is (k + 1) (ss.set i st')

/-- `pluto_separate_stmts`, lib/program.cpp:2030-2045, with `pluto_prog_add_hyperplane`, lib/program.cpp:1165-1182;
statements are given by their positions. -/
def separateStmts (p : Prog) (is : List Nat) (level : Nat) (offset : Int) : Option Prog := do
  let ss ← p.stmts.mapM (stmtAddLevel p.npar .scalar level)
  let ss ← setOffsets level offset is 0 ss
  if level > p.hProps.length then none
  else return { p with stmts := ss, hProps := p.hProps.insertIdx level .scalar }

/-- `pluto_separate_stmt`, lib/program.cpp:2049-2061. -/
def separateStmt (p : Prog) (i : Nat) (level : Nat) : Option Prog := do
  let ss ← p.stmts.mapM (stmtAddLevel p.npar .scalar level)
  let st ← ss[i]?
  let st' ← setLevelConst level 1 st
  if level > p.hProps.length then none
  else return { p with stmts := ss.set i st', hProps := p.hProps.insertIdx level .scalar }

end Pluto
