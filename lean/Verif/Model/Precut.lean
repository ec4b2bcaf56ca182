import Verif.Model.Auto

/-!
Model of the custom fusion structure (`.fst` and `.precut` files): `get_loop_type` and `precut`,
lib/pluto.c, and the automatic transformation that starts from them.

A file is the list of the integers in it. `none` stands for a failed assertion, a read past the end of
the file (the variable then has no value) or an out-of-range access. The `tile` fields that `precut` sets are left out: no
other code reads them. The limits of `int` and `long` are left out.
-/

namespace Pluto

/-- The two files in the working directory; `none`: the file cannot be opened. -/
structure CutFiles where
  fst : Option (List Int)
  precut : Option (List Int)

/-- `get_loop_type`, lib/pluto.c:863-871, for one row: some coefficient before the constant is positive. -/
def loopType (r : List Int) : HypType :=
  if r.dropLast.any (fun c => decide (c > 0)) then .loop else .scalar

/-- The components of a `.fst` file after the first number, lib/pluto.c:904-915: `n` components left. -/
def readComps (nstmts : Nat) : Nat → List Int → Option (List (List Nat))
  | 0, _ => some []
  | _ + 1, [] => none
  | n + 1, c :: f =>
    if c > nstmts then none
    else if f.length < c.toNat + 1 then none
    else
      let ids := f.take c.toNat
      if ids.all (fun i => decide (0 ≤ i) && decide (i ≤ (nstmts : Int) - 1)) then do
        let l ← readComps nstmts n (f.drop (c.toNat + 1))
        return ids.map Int.toNat :: l
      else none

/-- Constant of the new row of statement `i`, lib/pluto.c:924-932: zero at first, then the number of every
component that has the statement is written in turn; `c` is the number of the first component of the list. -/
def compConst (i : Nat) : List (List Nat) → Nat → Int → Int
  | [], _, v => v
  | ids :: l, c, v => compConst i l (c + 1) (if i ∈ ids then (c : Int) else v)

/-- `precut` for a `.fst` file, lib/pluto.c:893-939. Inner `none`: the function returns false. -/
def precutFst (isEmpty : Cst → Bool) (a : Auto) : List Int → Option (Option Auto)
  | [] => none
  | n :: f =>
    if n > a.p.stmts.length then some none
    else do
      let comps ← readComps a.p.stmts.length n.toNat f
      let p := addScalarRows a.p (fun i => [compConst i comps 0 0])
      let (p, _) ← depSatUpdate isEmpty p (p.hProps.length - 1)
      return some { a with p := p, g := ddgUpdate a.g p }

/-- The coefficients of the loops in one row, lib/pluto.c:970-977: the next number of the file for every
original loop, zero for every other. -/
def readCutLoops : List Bool → List Int → Option (List Int × List Int)
  | [], f => some ([], f)
  | false :: l, f => do
    let (r, f) ← readCutLoops l f
    return (0 :: r, f)
  | true :: _, [] => none
  | true :: l, v :: f => do
    let (r, f) ← readCutLoops l f
    return (v :: r, f)

/-- The rows of one statement, lib/pluto.c:957-993: `n` rows left. `orig` is `is_orig_loop`, `dimOrig` and
`cols` are compared for every row. Coefficients of the parameters are read and dropped. -/
def readCutRows (npar dimOrig : Nat) (orig : List Bool) (cols : Int) : Nat → List Int → Option (List (List Int) × List Int)
  | 0, f => some ([], f)
  | _ + 1, [] => none
  | n + 1, z :: f =>
    if cols ≠ 1 + dimOrig + npar + 1 then none
    else if z ≠ 0 then none
    else do
      let (r, f) ← readCutLoops orig f
      if f.length < npar then none
      else
        match f.drop npar with
        | [] => none
        | c :: f => do
          let (rs, f) ← readCutRows npar dimOrig orig cols n f
          return ((r ++ zrow npar ++ [c]) :: rs, f)

/-- What the file has for one statement, lib/pluto.c:953-1003: number of rows, number of columns, the rows, a
number that is not used and `depth` numbers that are not used. -/
def readCutStmt (npar : Nat) (depth : Int) (st : Stmt) : List Int → Option (List (List Int) × List Int)
  | rows :: cols :: f => do
    let (rs, f) ← readCutRows npar st.dimOrig st.isOrig cols rows.toNat f
    if f.length < 1 + depth.toNat then none else return (rs, f.drop (1 + depth.toNat))
  | _ => none

/-- What the file has for the statements, lib/pluto.c:953-1003. -/
def readCutStmts (npar : Nat) (depth : Int) : List Stmt → List Int → Option (List (List (List Int)))
  | [], _ => some []
  | st :: l, f => do
    let (rs, f) ← readCutStmt npar depth st f
    let rss ← readCutStmts npar depth l f
    return rs :: rss

/-- Statement `st` with the rows read for it, lib/pluto.c:966-992. -/
def addFileRows (st : Stmt) (rs : List (List Int)) : Stmt :=
  { st with trans := st.trans ++ rs, hypTypes := st.hypTypes ++ rs.map loopType }

/-- Type of one hyperplane of the program, lib/pluto.c:1007-1016: `get_loop_type` is called for every
statement and the last one decides. -/
def fileHypType (stmts : List Stmt) (l : Nat) : Option HypType := do
  let ts ← stmts.mapM (fun st => st.trans[l]?.map loopType)
  ts.getLast?

/-- `precut` for a `.precut` file, lib/pluto.c:946-1021. The number of hyperplanes is the number of rows of
the last statement, their rows are taken from the end of those of the first statement. Simplification: all
hyperplanes are added before the first update (`dep_satisfaction_update` and `ddg_update` do not look at
them), and there are no rows before (`precut` is called with empty schedules). -/
def precutRows (isEmpty : Cst → Bool) (a : Auto) : List Int → Option Auto
  | n :: depth :: f =>
    if n ≠ a.p.stmts.length then none
    else do
      let rss ← readCutStmts a.p.npar depth a.p.stmts f
      let stmts := List.zipWith addFileRows a.p.stmts rss
      let rows := (rss.getLast?.map List.length).getD 0
      let n0 := (stmts.head?.map (·.trans.length)).getD 0
      if n0 < rows then none
      else do
        let ts ← (List.range rows).mapM (fun k => fileHypType stmts (n0 - rows + k))
        updateLevels isEmpty { a with p := { a.p with stmts := stmts, hProps := a.p.hProps ++ ts } }
          a.p.hProps.length rows
  | _ => none

/-- `precut`, lib/pluto.c:874-1025, at depth 0. A `.fst` file is looked at first; the other file is only
opened if there is none. -/
def precut (isEmpty : Cst → Bool) (F : CutFiles) (a : Auto) : Option (Option Auto) :=
  match F.fst, F.precut with
  | some f, _ => precutFst isEmpty a f
  | none, some f => (precutRows isEmpty a f).map some
  | none, none => some none

/-- The state at the beginning of the main loop, lib/pluto.c:1510-1587, with the files. -/
def autoInitFiles (o : AutoOpts) (L : Libs) (F : CutFiles) (a : Auto) : Option LoopState := do
  let p1 := { a.p with stmts := a.p.stmts.map (fun st => { st with trans := [], hypTypes := [] }) }
  let p2 ← normalizeDomains p1
  let a := { a with p := { p2 with hProps := [] } }
  match (← precut L.isEmpty F a) with
  | some a => return ⟨a, true, 0, maxIndHyps a.p, false⟩
  | none => do
    let a ← initCut o L a
    return ⟨a, true, 0, 0, false⟩

/-- `pluto_auto_transform`, lib/pluto.c:1492-1850, with the files. -/
def autoTransformFiles (o : AutoOpts) (L : Libs) (dia : Nat → Prog → Option (Prog × Bool)) (F : CutFiles) (fuel : Nat)
    (d0 : DfsState) (p0 : Prog) : Option Outcome := do
  let p := { p0 with deps := p0.deps.map (fun d => { d with satisfied := false }) }
  let a ← (⟨p, ddgCreate p, d0, fun _ => -1, 0⟩ : Auto).computeScc
  if p.stmts = [] then return .success p
  else do
    let s ← autoInitFiles o L F a
    let req := (s.a.p.stmts.map (·.dim)).foldl max 0
    match (← autoLoop o L dia req fuel s) with
    | none => return .timeout
    | some (.inl q) => return .success (← denormalizeDomains q)
    | some (.inr q) =>
      let q ← denormalizeDomains q
      return .failed { q with stmts := List.zipWith restoreStmt p0.stmts q.stmts, hProps := p0.hProps }

end Pluto
