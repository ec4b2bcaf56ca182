import Verif.Model.Search
import Verif.Model.Satisfaction
import Verif.Model.Ddg
import Verif.Model.CstList

/-!
Model of the automatic transformation: lib/pluto.c (cuts, `find_permutable_hyperplanes`,
`normalize_domains`, `denormalize_domains`, `pluto_auto_transform`) and the statement dimension edits of
lib/program.cpp it uses. `none` stands for a failed assertion or an out-of-range access.

Not modelled: `--dfp`, `--per-cc-obj` (both off by default), `.fst`/`.precut` files, printing. Diamond
tiling is the argument `dia` (Verif/Model/Diamond.lean; the function that returns its input unchanged and
`false` when it is switched off); its first argument, the number of hyperplanes just found, is not used
by the code and serves to state conditions on runs.
-/

namespace Pluto

/-! ### Dimension edits -/

/-- The dependence part of `pluto_stmt_add_dim`, lib/program.cpp:1002-1084: a new column for every end
point that is statement `i`. `p` is the program with the dimension of the statement already increased. -/
def depAddDim (p : Prog) (i pos : Nat) (d : Dep) : Dep :=
  let d := if d.src = i then { d with dpoly := addDim d.dpoly pos, bpoly := addDim d.bpoly pos } else d
  if d.dest = i then
    let c := dimOf p d.src + pos
    { d with dpoly := addDim d.dpoly c, bpoly := addDim d.bpoly c }
  else d

/-- The statement part of `pluto_stmt_add_dim`. A new schedule row is as long as the new domain. -/
def stmtAddDimAt (st : Stmt) (pos : Nat) (time : Option (Nat × HypType)) : Stmt :=
  let trans := st.trans.map (fun r => r.insertIdx pos 0)
  { st with
    domain := addDim st.domain pos
    dim := st.dim + 1
    trans := match time with
      | none => trans
      | some (t, _) => trans.insertIdx t ((zrow (st.domain.ncols + 1)).set pos 1)
    hypTypes := match time with
      | none => st.hypTypes
      | some (t, ty) => st.hypTypes.insertIdx t ty
    isOrig := st.isOrig.insertIdx pos true }

/-- `pluto_stmt_add_dim`, lib/program.cpp:1002-1084. `time` is the time position and type of the new
schedule row, `none` for time position -1. Iterator names, access matrices and `transdeps` are left
out. -/
def stmtAddDim (p : Prog) (i pos : Nat) (time : Option (Nat × HypType)) : Option Prog := do
  let st ← p.stmts[i]?
  if pos > st.dim ∨ st.domain.ncols < st.dim + 1 then none
  else if (match time with | none => false | some (t, _) => decide (t > st.trans.length)) then none
  else
    let p' := { p with stmts := p.stmts.set i (stmtAddDimAt st pos time) }
    return { p' with deps := p'.deps.map (depAddDim p' i pos) }

/-- The dependence part of `pluto_stmt_remove_dim`, lib/program.cpp:1088-1145. `bounding_poly` is not
updated. -/
def depRemoveDim (p : Prog) (i pos : Nat) (d : Dep) : Dep :=
  let d := if d.src = i then { d with dpoly := removeDim d.dpoly pos } else d
  if d.dest = i then { d with dpoly := removeDim d.dpoly (dimOf p d.src + pos) } else d

/-- The statement part of `pluto_stmt_remove_dim`. -/
def stmtRemoveDimAt (st : Stmt) (pos : Nat) : Stmt :=
  { st with
    domain := removeDim st.domain pos
    dim := st.dim - 1
    trans := st.trans.map (fun r => r.eraseIdx pos)
    isOrig := st.isOrig.eraseIdx pos }

/-- `pluto_stmt_remove_dim`, lib/program.cpp:1088-1145 (same omissions as `stmtAddDim`). -/
def stmtRemoveDim (p : Prog) (i pos : Nat) : Option Prog := do
  let st ← p.stmts[i]?
  if pos > st.dim ∨ st.domain.ncols < st.dim + 1 then none
  else
    let p' := { p with stmts := p.stmts.set i (stmtRemoveDimAt st pos) }
    return { p' with deps := p'.deps.map (depRemoveDim p' i pos) }

/-- `pluto_sink_statement`, lib/transforms.c:23-33. -/
def sinkStatement (p : Prog) (i depth : Nat) (val : Int) : Option Prog := do
  let st ← p.stmts[i]?
  if st.domain.ncols ≠ st.dim + p.npar + 1 then none
  else
    let p' ← stmtAddDim p i depth none
    let st' ← p'.stmts[i]?
    let st'' := { st' with domain := setVar st'.domain depth val, isOrig := st'.isOrig.set depth false }
    return { p' with stmts := p'.stmts.set i st'' }

/-! ### Padding -/

/-- Constraints on the parameters gathered from the domains, lib/pluto.c:1157-1177: the loop stops at the
first statement with which the number of rows would exceed `nstmts * npar`. -/
def paramContextRows (npar limit : Nat) : List Stmt → Nat → List Row → Option (List Row)
  | [], _, acc => some acc
  | st :: sts, count, acc =>
    let copy := fmEliminateFront st.domain st.dimOrig
    if copy.ncols ≠ npar + 1 then none
    else
      let count := count + copy.rows.length
      if count ≤ limit then paramContextRows npar limit sts count (acc ++ copy.rows) else some acc

/-- The new bounding polyhedron of a dependence, lib/pluto.c:1181-1202: every context row becomes an
inequality. -/
def contextBound (npar : Nat) (ctx : Cst) (d : Dep) : Dep :=
  { d with bpoly := addCst d.dpoly ⟨d.dpoly.ncols, ctx.rows.map (fun r =>
      ⟨false, zrow (d.dpoly.ncols - (npar + 1)) ++ (List.range (npar + 1)).map (fun j => coef r.val j)⟩)⟩ }

/-- Padding of statement `i` with `n` dimensions, lib/pluto.c:1208-1213. -/
def padStmt (p : Prog) (i : Nat) : Nat → Option Prog
  | 0 => some p
  | n + 1 => do
    let st ← p.stmts[i]?
    let p' ← sinkStatement p i st.dim 0
    padStmt p' i n

/-- Parameters with only non-positive coefficients, at least one negative, in the dependence
polyhedron, lib/pluto.c:1246-1259. -/
def negParam (p : Prog) (d : Dep) (j : Nat) : Bool :=
  let vals := d.dpoly.rows.map (fun r => coef r.val (2 * p.nvar + j))
  vals.any (fun v => decide (v < 0)) && vals.all (fun v => decide (v ≤ 0))

/-- Rows added to the bounding polyhedron for such parameters, lib/pluto.c:1262-1268. -/
def addNegParams (p : Prog) (d : Dep) : Dep :=
  { d with bpoly := ⟨d.bpoly.ncols, d.bpoly.rows ++ ((List.range p.npar).filter (negParam p d)).map
      (fun j => ⟨false, (zrow d.bpoly.ncols).set (2 * p.nvar + j) 1⟩)⟩ }

/-- First part of `normalize_domains`, lib/pluto.c:1138-1273. -/
def addContext (p : Prog) : Option Prog :=
  if p.npar ≥ 1 then do
    let rows ← paramContextRows p.npar (p.stmts.length * p.npar) p.stmts 0 []
    let ctx := simplify ⟨p.npar + 1, rows⟩
    return { p with deps := p.deps.map (contextBound p.npar ctx) }
  else some p

/-- `normalize_domains`, lib/pluto.c:1138-1273. `pluto_constraints_normalize_row` has no effect. -/
def normalizeDomains (p : Prog) : Option Prog := do
  let p ← addContext p
  let p ← (List.range p.stmts.length).foldlM (fun p i => do
    let st ← p.stmts[i]?
    padStmt p i (p.nvar - st.dim)) p
  if p.deps.all (fun d => decide (d.dpoly.ncols = dimOf p d.src + dimOf p d.dest + p.npar + 1)) then
    return { p with deps := p.deps.map (addNegParams p) }
  else none

/-- Inner loop of `denormalize_domains` for statement `i`: `n` positions left, `pos = j - del_count`. -/
def unpadStmt (p : Prog) (i : Nat) : Nat → Nat → Option Prog
  | 0, _ => some p
  | n + 1, pos => do
    let st ← p.stmts[i]?
    let b ← st.isOrig[pos]?
    if b then unpadStmt p i n (pos + 1)
    else do
      let p' ← stmtRemoveDim p i pos
      unpadStmt p' i n pos

/-- Body of the loop of `denormalize_domains`. -/
def denormalizeStmt (p : Prog) (i : Nat) : Option Prog := do
  let p ← unpadStmt p i p.nvar 0
  let st ← p.stmts[i]?
  if st.domain.ncols ≠ st.dim + p.npar + 1 ∨ st.trans.any (fun r => decide (r.length ≠ st.dim + p.npar + 1))
  then none
  else return { p with stmts := p.stmts.set i { st with isOrig := List.replicate st.dim true } }

/-- `denormalize_domains`, lib/pluto.c:1277-1304. -/
def denormalizeDomains (p : Prog) : Option Prog :=
  (List.range p.stmts.length).foldlM denormalizeStmt p

/-! ### Cuts -/

/-- The program together with its dependence graph (`prog->ddg`), the component numbers and their
count. -/
structure Auto where
  p : Prog
  g : Graph
  d : DfsState
  scc : Nat → Int
  num : Nat

/-- `ddg_compute_scc` on the state, lib/pluto.c:2018-2053 (`ddgComputeScc` keeping the vertex fields). -/
def Auto.computeScc (a : Auto) : Option Auto := do
  let d ← dfsAll a.g a.d
  let s ← dfsForScc a.g.transpose d
  return { a with d := d, scc := s.scc, num := s.num }

/-- `ddg_sccs_direct_connected`, lib/pluto.c:434-450. -/
def Auto.connected (a : Auto) (c1 c2 : Int) : Bool :=
  (List.range a.p.stmts.length).any (fun i => decide (a.scc i = c1) &&
    (List.range a.p.stmts.length).any (fun j => decide (a.scc j = c2) && decide (a.g.adj i j > 0)))

/-- Append to every statement `i` a scalar schedule row for each constant in `f i`
(`pluto_prog_add_hyperplane` and `pluto_stmt_add_hyperplane` at the end). -/
def addScalarRows (p : Prog) (f : Nat → List Int) : Prog :=
  { p with
    stmts := p.stmts.mapIdx (fun i st => { st with
      trans := st.trans ++ (f i).map (fun k => zrow (p.nvar + p.npar) ++ [k])
      hypTypes := st.hypTypes ++ (f i).map (fun _ => HypType.scalar) })
    hProps := p.hProps ++ [HypType.scalar] }

/-- `trans->nrows--` for every statement and `num_hyperplanes--`. -/
def dropLastRow (p : Prog) : Prog :=
  { p with
    stmts := p.stmts.map (fun st => { st with trans := st.trans.dropLast, hypTypes := st.hypTypes.dropLast })
    hProps := p.hProps.dropLast }

/-- `dep_satisfaction_update` for level `stmts[0]->trans->nrows - 1`. -/
def satUpdateLast (isEmpty : Cst → Bool) (p : Prog) : Option (Prog × Nat) := do
  let st ← p.stmts[0]?
  if st.trans.length = 0 then none else depSatUpdate isEmpty p (st.trans.length - 1)

/-- Common end of `cut_between_sccs` and `cut_scc_dim_based`: keep the new row if it satisfies some
dependence, else remove it (lib/pluto.c:481-495, 566-579). -/
def Auto.keepIfUseful (isEmpty : Cst → Bool) (a : Auto) (p1 : Prog) : Option (Auto × Nat) := do
  let (p2, n) ← satUpdateLast isEmpty p1
  if n ≥ 1 then return ({ a with p := p2, g := ddgUpdate a.g p2 }, n)
  else return ({ a with p := dropLastRow p2 }, n)

/-- `cut_between_sccs`, lib/pluto.c:453-496. -/
def Auto.cutBetween (isEmpty : Cst → Bool) (a : Auto) (c1 c2 : Int) : Option (Auto × Nat) :=
  if a.connected c1 c2 then
    a.keepIfUseful isEmpty (addScalarRows a.p (fun i => [if a.scc i < c2 then 0 else 1]))
  else some (a, 0)

/-- `cut_all_sccs`, lib/pluto.c:499-529. -/
def Auto.cutAll (isEmpty : Cst → Bool) (a : Auto) : Option (Auto × Nat) :=
  if a.num = 1 then some (a, 0)
  else do
    let (p2, n) ← satUpdateLast isEmpty (addScalarRows a.p (fun i => [a.scc i]))
    return ({ a with p := p2, g := ddgUpdate a.g p2 }, n)

/-- `get_max_orig_dim_in_scc`, lib/pluto.c:1952-1964, for the components computed last. -/
def Auto.maxDim (a : Auto) (k : Nat) : Int :=
  (a.p.stmts.mapIdx (fun i st => (a.scc i, st.dimOrig))).foldl
    (fun m x => if x.1 = (k : Int) then max m (x.2 : Int) else m) (-1)

/-- The variable `count` of `cut_scc_dim_based` after component `k` has been visited
(`cur_max_dim` is then the dimensionality of component `k`). -/
def Auto.dimCount (a : Auto) : Nat → Nat
  | 0 => 0
  | k + 1 => a.dimCount k + (if a.maxDim (k + 1) ≠ a.maxDim k then 1 else 0)

/-- `cut_scc_dim_based`, lib/pluto.c:541-589: statement `i` gets a row for every `k` with
`scc_id == k`. -/
def Auto.cutDimBased (isEmpty : Cst → Bool) (a : Auto) : Option (Auto × Nat) :=
  if a.num = 1 then some (a, 0)
  else a.keepIfUseful isEmpty (addScalarRows a.p (fun i =>
    ((List.range a.num).filter (fun k : Nat => decide (a.scc i = (k : Int)))).map
      (fun k => (a.dimCount k : Int))))

/-- Pairs of components visited by the last loops of `cut_smart` and `cut_conservative`, in order. -/
def farPairs (n : Nat) : List (Nat × Nat) :=
  (List.range (n - 1)).flatMap (fun i => (List.range' (i + 1) (n - 1 - i)).reverse.map (fun j => (i, j)))

/-- `stmts[0]->trans->nrows`. -/
def nrows0 (p : Prog) : Option Nat := p.stmts[0]?.map (·.trans.length)

/-- Last loop of `cut_smart`, lib/pluto.c:592-624. -/
def Auto.smartFar (isEmpty : Cst → Bool) (a : Auto) : List (Nat × Nat) → Option Auto
  | [] => some a
  | (i, j) :: l => do
    let n ← nrows0 a.p
    if n ≤ 4 * a.p.nvar + 2 then
      if a.connected i j then do
        let (a', _) ← a.cutBetween isEmpty i j
        a'.smartFar isEmpty l
      else a.smartFar isEmpty l
    else do
      let (a', _) ← a.cutAll isEmpty
      return a'

/-- Last loop of `cut_conservative`, lib/pluto.c:628-652. -/
def Auto.conservativeFar (isEmpty : Cst → Bool) (a : Auto) : List (Nat × Nat) → Option Auto
  | [] => some a
  | (i, j) :: l => do
    let n ← nrows0 a.p
    if n ≤ 4 * a.p.nvar + 2 then do
      let (a', n) ← a.cutBetween isEmpty i j
      if n ≠ 0 then return a' else a'.conservativeFar isEmpty l
    else do
      let (a', _) ← a.cutAll isEmpty
      return a'

/-- `ceil(num_sccs / 2.0)`. -/
def Auto.center (a : Auto) : Nat := (a.num + 1) / 2

/-- `cut_smart`, lib/pluto.c:592-624. -/
def Auto.cutSmart (isEmpty : Cst → Bool) (a : Auto) : Option Auto :=
  if a.num = 0 then some a
  else if fullRanked a.p then do
    let (a', _) ← a.cutAll isEmpty
    return a'
  else do
    let (a1, n1) ← a.cutDimBased isEmpty
    if n1 ≠ 0 then return a1
    else do
      let (a2, n2) ← a1.cutBetween isEmpty ((a1.center : Int) - 1) a1.center
      if n2 ≠ 0 then return a2 else a2.smartFar isEmpty (farPairs a2.num)

/-- `cut_conservative`, lib/pluto.c:628-652. -/
def Auto.cutConservative (isEmpty : Cst → Bool) (a : Auto) : Option Auto := do
  let (a1, n1) ← a.cutDimBased isEmpty
  if n1 ≠ 0 then return a1
  else do
    let (a2, n2) ← a1.cutBetween isEmpty ((a1.center : Int) - 1) a1.center
    if n2 ≠ 0 then return a2 else a2.conservativeFar isEmpty (farPairs a2.num)

/-! ### Search -/

/-- The loop of `find_permutable_hyperplanes`: at most `n` more solutions; result: program and number
of solutions found. `base` is `basecst`. -/
def findLoop (o : SearchOpts) (L : Libs) (base : Cst) (eager : Bool) : Nat → Prog → Option (Prog × Nat)
  | 0, p => some (p, 0)
  | n + 1, p => do
    let curr := addCst base (nonTrivialConstraints p eager)
    let ind := linearIndConstraints o L p curr eager
    if ind.rows = [] then return (p, 0)
    else
      match (← progLexmin o.dfp L.solve p (addCst curr ind)) with
      | none => return (p, 0)
      | some sol => do
        let (p', k) ← findLoop o L base eager n (addHyperplane p sol)
        return (p', k + 1)

/-- `find_permutable_hyperplanes`, lib/pluto.c:770-857. -/
def findPermutable (o : SearchOpts) (L : Libs) (eager : Bool) (maxSols : Nat) (p : Prog) :
    Option (Prog × Nat) :=
  if maxSols = 0 then some (p, 0)
  else findLoop o L (addCst (permutabilityConstraints o.rar o.nodepbound p) (coeffBoundConstraints o p))
    eager maxSols p

/-- `PlutoFuseType`, include/pluto/pluto.h; every other value behaves like `max` without `--dfp`. -/
inductive Fuse | no | smart | max
deriving DecidableEq, Repr

/-- Options of the automatic transformation. -/
structure AutoOpts extends SearchOpts where
  fuse : Fuse

/-- Variables of the main loop: `hyp_search_mode == EAGER`, `depth`, `num_ind_sols_found`,
`conc_start_found`. -/
structure LoopState where
  a : Auto
  eager : Bool
  depth : Nat
  found : Nat
  conc : Bool

/-- `pluto_get_max_ind_hyps`, lib/program.cpp:2127-2135. -/
def maxIndHyps (p : Prog) : Nat := (p.stmts.map (numIndHyps p)).foldl max 0

/-- `get_num_unsatisfied_inter_scc_deps`, lib/pluto.c:1884-1900. -/
def Auto.unsatInter (a : Auto) : Nat :=
  a.p.deps.countP (fun d => !d.rar && decide (a.scc d.src ≠ a.scc d.dest) && !d.satisfied)

/-- `dep_satisfaction_update` and `ddg_update` for levels `level, ..., level + n - 1`,
lib/pluto.c:1748-1752. -/
def updateLevels (isEmpty : Cst → Bool) (a : Auto) (level : Nat) : Nat → Option Auto
  | 0 => some a
  | n + 1 => do
    let (p, _) ← depSatUpdate isEmpty a.p level
    updateLevels isEmpty { a with p := p, g := ddgUpdate a.g p } (level + 1) n

/-- What one iteration of the main loop does. -/
inductive StepRes
  | go (s : LoopState)
  | fail (s : LoopState)

/-- Diamond tiling of the first band with at least two hyperplanes, lib/pluto.c:1743-1747. -/
def diaStep (dia : Nat → Prog → Option (Prog × Bool)) (s : LoopState) (nsols : Nat) : Option LoopState :=
  if nsols ≥ 2 ∧ s.conc = false then do
    let (p, c) ← dia nsols s.a.p
    return { s with a := { s.a with p := p }, conc := c }
  else some s

/-- The part of the main loop when hyperplanes were found, lib/pluto.c:1741-1753. -/
def foundStep (L : Libs) (dia : Nat → Prog → Option (Prog × Bool)) (s : LoopState) (nsols : Nat) :
    Option LoopState := do
  let s ← diaStep dia s nsols
  let n ← nrows0 s.a.p
  if n < nsols then none
  else do
    let a ← updateLevels L.isEmpty s.a (n - nsols) nsols
    return { s with a := a }

/-- The cut chosen by the fusion heuristic, lib/pluto.c:1759-1773. -/
def fuseCut (o : AutoOpts) (L : Libs) (depth : Nat) (a : Auto) : Option Auto :=
  match o.fuse with
  | .no => (a.cutAll L.isEmpty).map (·.1)
  | .smart => a.cutSmart L.isEmpty
  | .max => if depth ≥ 2 * a.p.nvar + 1 then (a.cutAll L.isEmpty).map (·.1)
      else a.cutConservative L.isEmpty

/-- The part of the main loop when none was found, lib/pluto.c:1754-1821. -/
def noneStep (o : AutoOpts) (L : Libs) (s : LoopState) : Option StepRes := do
  let a ← s.a.computeScc
  let s := { s with a := a }
  if a.unsatInter ≥ 1 then do
    let a' ← fuseCut o L s.depth a
    return .go { s with a := a' }
  else if s.eager then return .go { s with eager := false }
  else if depsSatCheck a.p = false then return .fail s
  else return .go s

/-- Precise satisfaction in LAZY mode, lib/pluto.c:1819-1820. -/
def preciseIfLazy (L : Libs) (eager : Bool) (p : Prog) : Option Prog :=
  if eager then some p else (computeDepSatisfactionPrecise L.isEmpty p).map (·.1)

/-- Precise satisfaction in LAZY mode and `depth++`, lib/pluto.c:1819-1821. -/
def endStep (L : Libs) (s : LoopState) : Option LoopState := do
  let p ← preciseIfLazy L s.eager s.a.p
  return { s with a := { s.a with p := p }, depth := s.depth + 1 }

/-- Distribution at the start of every iteration with `--nofuse`, lib/pluto.c:1702-1705. -/
def noFuseCut (o : AutoOpts) (L : Libs) (a : Auto) : Option Auto :=
  if o.fuse = .no then do
    let a ← a.computeScc
    (a.cutAll L.isEmpty).map (·.1)
  else some a

/-- One iteration of the main loop, lib/pluto.c:1694-1827. `req` is `num_ind_sols_req`. -/
def autoStep (o : AutoOpts) (L : Libs) (dia : Nat → Prog → Option (Prog × Bool)) (req : Nat) (s : LoopState) :
    Option StepRes := do
  let a ← noFuseCut o L s.a
  let left := (a.p.stmts.map (fun st => st.dimOrig - numIndHyps a.p st)).foldl max 0
  if s.eager = true ∧ left + s.found ≠ req then none
  else
    let (p, nsols) ← findPermutable o.toSearchOpts L s.eager left a.p
    let s := { s with a := { a with p := p }, found := maxIndHyps p }
    if nsols ≥ 1 then do
      let s ← foundStep L dia s nsols
      return .go (← endStep L s)
    else
      match (← noneStep o L s) with
      | .fail s => return .fail s
      | .go s => return .go (← endStep L s)

/-- Outcome of `pluto_auto_transform`: return value 0 (`success`) or 1 (`failed`); `timeout` when the
bound on the number of iterations given to the model is used up (the C loop has no bound). -/
inductive Outcome
  | timeout
  | failed (p : Prog)
  | success (p : Prog)

/-- The main loop `do ... while (!full_ranked || !deps_satisfaction_check)`. `inl`: loop ended
normally, `inr`: failure exit. -/
def autoLoop (o : AutoOpts) (L : Libs) (dia : Nat → Prog → Option (Prog × Bool)) (req : Nat) :
    Nat → LoopState → Option (Option (Prog ⊕ Prog))
  | 0, _ => some none
  | fuel + 1, s => do
    match (← autoStep o L dia req s) with
    | .fail s => return some (.inr s.a.p)
    | .go s =>
      if fullRanked s.a.p = false ∨ depsSatCheck s.a.p = false then autoLoop o L dia req fuel s
      else return some (.inl s.a.p)

/-- Statement with the saved transformation, lib/pluto.c:1812-1817. -/
def restoreStmt (saved st : Stmt) : Stmt := { st with trans := saved.trans, hypTypes := saved.hypTypes }

/-- Cut before the main loop, lib/pluto.c:1579-1581. -/
def initCut (o : AutoOpts) (L : Libs) (a : Auto) : Option Auto :=
  if o.fuse = .smart then (a.cutDimBased L.isEmpty).map (·.1) else some a

/-- Initial state of the main loop, lib/pluto.c:1510-1587. -/
def autoInit (o : AutoOpts) (L : Libs) (a : Auto) : Option LoopState := do
  let p1 := { a.p with stmts := a.p.stmts.map (fun st => { st with trans := [], hypTypes := [] }) }
  let p2 ← normalizeDomains p1
  let a := { a with p := { p2 with hProps := [] } }
  let a ← initCut o L a
  return ⟨a, true, 0, 0, false⟩

/-- `pluto_auto_transform`, lib/pluto.c:1492-1850. `d0` is the (arbitrary) initial content of the graph
vertices. -/
def autoTransform (o : AutoOpts) (L : Libs) (dia : Nat → Prog → Option (Prog × Bool)) (fuel : Nat)
    (d0 : DfsState) (p0 : Prog) : Option Outcome := do
  let p := { p0 with deps := p0.deps.map (fun d => { d with satisfied := false }) }
  let a ← (⟨p, ddgCreate p, d0, fun _ => -1, 0⟩ : Auto).computeScc
  if p.stmts = [] then return .success p
  else do
    let s ← autoInit o L a
    let req := (s.a.p.stmts.map (·.dim)).foldl max 0
    match (← autoLoop o L dia req fuel s) with
    | none => return .timeout
    | some (.inl q) => return .success (← denormalizeDomains q)
    | some (.inr q) =>
      let q ← denormalizeDomains q
      return .failed { q with stmts := List.zipWith restoreStmt p0.stmts q.stmts, hProps := p0.hProps }

end Pluto
