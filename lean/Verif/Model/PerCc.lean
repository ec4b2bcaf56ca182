import Verif.Model.Diamond

/-!
Model of `--per-cc-obj` (lib/pluto.c, lib/framework.cpp): every connected component of the dependence graph has a
bounding function of its own. In front of the columns of `CST_WIDTH` there are `(npar + 1) * num_ccs` more: columns
`0 .. npar` are for the sum of the bounding functions, columns `(npar + 1) * (1 + c) ..` for component `c`.
`none` stands for a failed assertion or a write outside the allocated row.
-/

namespace Pluto

/-- `(npar + 1) * num_ccs`, the number of additional columns, lib/pluto.c:285-287. -/
def ccExt (p : Prog) (ncc : Nat) : Nat := (p.npar + 1) * ncc

/-- A system whose columns are moved by `ext`. -/
def widenCst (ext : Nat) (c : Cst) : Cst := ⟨ext + c.ncols, mapRows (fun r => zrow ext ++ r) c.rows⟩

/-- The constraints of a dependence with the columns of its component, lib/framework.cpp:434-446. -/
def depCstCc (nodepbound : Bool) (p : Prog) (cc : Nat → Int) (ncc : Nat) (d : Dep) : Cst :=
  (List.range (p.npar + 1)).foldl (fun c j =>
      interchangeCols c (ccExt p ncc + j) (p.npar + 1 + (p.npar + 1) * (cc d.src).toNat + j))
    (addLeadingDims (depCst nodepbound p d) (ccExt p ncc))

/-- `pluto_constraints_add`, lib/constraints.c:285-307, into a system with `b.1` allocated rows of `b.2` columns
(`pluto_constraints_resize_single`, lib/constraints.c:127-170, allocates more): the new allocation and the result.
`none`: column counts differ, or a row longer than the allocated ones is copied. -/
def addBuf (b : Nat × Nat) (g c : Cst) : Option ((Nat × Nat) × Cst) :=
  if g.ncols ≠ c.ncols then none
  else if b.1 < g.rows.length + c.rows.length then
    some ((g.rows.length + c.rows.length, max g.ncols b.2), addCst g c)
  else if b.2 < g.ncols ∧ c.rows ≠ [] then none
  else some (b, addCst g c)

/-- `permStep` with `--per-cc-obj`, lib/framework.cpp:413-471; the state has the allocation of `globcst`.
`pluto_constraints_simplify` leaves the allocation as it is: the result is not larger. -/
def permStepCc (rarOpt nodepbound : Bool) (p : Prog) (cc : Nat → Int) (ncc : Nat) (st : (Nat × Nat) × Cst × Nat) (d : Dep) :
    Option ((Nat × Nat) × Cst × Nat) :=
  if rarOpt = false ∧ d.rar = true then some st
  else if d.satisfied then some st
  else do
    let c := depCstCc nodepbound p cc ncc d
    let (b, g) ← addBuf st.1 st.2.1 c
    if g.rows.length ≥ simplifyThreshold + 3000 * st.2.2 ∧
        g.rows.length - c.rows.length < simplifyThreshold + 3000 * st.2.2 then
      return (b, simplify g, st.2.2 + 1)
    else return (b, g, st.2.2)

/-- `get_permutability_constraints`, lib/framework.cpp:348-485, with `--per-cc-obj`. `buf` is the allocation of
`prog->globcst`: `none` at first, then whatever it is after the last call. -/
def permutabilityCc (rarOpt nodepbound : Bool) (p : Prog) (cc : Nat → Int) (ncc : Nat) (buf : Option (Nat × Nat)) :
    Option ((Nat × Nat) × Cst) := do
  let total := ((p.deps.filter (fun d => rarOpt || !d.rar)).map (fun d => (depCst nodepbound p d).rows.length)).sum
  let w := ccExt p ncc + cstWidth p.nvar p.npar p.stmts.length
  let (b, g, _) ← p.deps.foldlM (permStepCc rarOpt nodepbound p cc ncc) (buf.getD (total, w), ⟨w, []⟩, 0)
  return (b, simplify g)

/-- `get_per_cc_obj_sum_constraints`, lib/pluto.c:740-759. -/
def objSumCst (p : Prog) (ncc : Nat) : Cst :=
  let w := ccExt p ncc + cstWidth p.nvar p.npar p.stmts.length
  ⟨w, (List.range (p.npar + 1)).map (fun i =>
    ⟨false, (List.range' 1 ncc).foldl (fun r j => r.set (j + i) (-1)) ((zrow w).set i 1)⟩)⟩

/-- `get_linear_ind_constraints`, lib/pluto.c:664-733, and `get_stmt_lin_ind_constraints`, lib/framework.cpp:696-870, with
`--per-cc-obj`: the rows have the same entries `ext` columns later (`coeff_offset`), and the emptiness test is that of
the row together with `currcst`, which has the additional columns. -/
def linearIndCc (o : SearchOpts) (L : Libs) (p : Prog) (ext : Nat) (curr : Cst) (eager : Bool) : Cst :=
  widenCst ext (linearIndConstraints o { L with isEmpty := fun c => L.isEmpty (addCst (widenCst ext c) curr) } p
    ⟨cstWidth p.nvar p.npar p.stmts.length, []⟩ eager)

/-- The program with the additional columns counted as parameters: `get_coeff_bounding_constraints`,
lib/framework.cpp:937-993, and `pluto_prog_constraints_lexmin`, lib/pluto.c:275-431, use `npar` only for the number of columns
before the coefficients (`coeff_offset`, `trans_coeff_offset`). -/
def withExt (p : Prog) (ext : Nat) : Prog := { p with npar := p.npar + ext }

/-- The loop of `find_permutable_hyperplanes`, lib/pluto.c:770-857, with `--per-cc-obj`.
`get_non_trivial_sol_constraints` (lib/framework.cpp:880-934) sets the same entries `ext` columns later, and
`pluto_add_hyperplane_from_ilp_solution` (lib/framework.cpp:1416-1449) reads `ext` columns later. -/
def findLoopCc (o : SearchOpts) (L : Libs) (ncc : Nat) (base : Cst) (eager : Bool) : Nat → Prog → Option (Prog × Nat)
  | 0, p => some (p, 0)
  | n + 1, p => do
    let ext := ccExt p ncc
    let curr := addCst base (widenCst ext (nonTrivialConstraints p eager))
    let ind := linearIndCc o L p ext curr eager
    if ind.rows = [] then return (p, 0)
    else
      match (← progLexmin o.dfp L.solve (withExt p ext) (addCst (addCst curr ind) (objSumCst p ncc))) with
      | none => return (p, 0)
      | some sol => do
        let (p', k) ← findLoopCc o L ncc base eager n (addHyperplane p (sol.drop ext))
        return (p', k + 1)

/-- `find_permutable_hyperplanes`, lib/pluto.c:770-857, with `--per-cc-obj`; the bounds of the coefficients are added to
`prog->globcst` itself. -/
def findPermutableCc (o : SearchOpts) (L : Libs) (cc : Nat → Int) (ncc : Nat) (eager : Bool) (maxSols : Nat)
    (buf : Option (Nat × Nat)) (p : Prog) : Option (Option (Nat × Nat) × Prog × Nat) :=
  if maxSols = 0 then some (buf, p, 0)
  else do
    let (b, g) ← permutabilityCc o.rar o.nodepbound p cc ncc buf
    let (b, base) ← addBuf b g (coeffBoundConstraints o (withExt p (ccExt p ncc)))
    let (p, k) ← findLoopCc o L ncc base eager maxSols p
    return (some b, p, k)

/-- `ddg_compute_cc` and the search, lib/pluto.c:1727-1731. -/
def searchCc (o : SearchOpts) (L : Libs) (buf : Option (Nat × Nat)) (eager : Bool) (maxSols : Nat) (a : Auto) :
    Option (Option (Nat × Nat) × Prog × Nat) := do
  let (cc, ncc) ← ddgComputeCc a.g a.d
  findPermutableCc o L cc ncc eager maxSols buf a.p

/-! ### The main loop with another search -/

/-- One iteration of the main loop of `pluto_auto_transform`, lib/pluto.c:1694-1827, as `autoStep`, with any search
`find` and what it keeps between the calls. -/
def autoStepWith {σ : Type} (find : σ → Bool → Nat → Auto → Option (σ × Prog × Nat)) (o : AutoOpts) (L : Libs)
    (dia : Nat → Prog → Option (Prog × Bool)) (req : Nat) (s : LoopState) (m : σ) : Option (StepRes × σ) := do
  let a ← noFuseCut o L s.a
  let left := (a.p.stmts.map (fun st => st.dimOrig - numIndHyps a.p st)).foldl max 0
  if s.eager = true ∧ left + s.found ≠ req then none
  else
    let (m, p, nsols) ← find m s.eager left a
    let s := { s with a := { a with p := p }, found := maxIndHyps p }
    if nsols ≥ 1 then do
      let s ← foundStep L dia s nsols
      return (.go (← endStep L s), m)
    else
      match (← noneStep o L s) with
      | .fail s => return (.fail s, m)
      | .go s => return (.go (← endStep L s), m)

/-- The main loop of `pluto_auto_transform`, lib/pluto.c:1694-1827, as `autoLoop`, with any search. -/
def autoLoopWith {σ : Type} (find : σ → Bool → Nat → Auto → Option (σ × Prog × Nat)) (o : AutoOpts) (L : Libs)
    (dia : Nat → Prog → Option (Prog × Bool)) (req : Nat) : Nat → LoopState → σ → Option (Option (Prog ⊕ Prog))
  | 0, _, _ => some none
  | fuel + 1, s, m => do
    match (← autoStepWith find o L dia req s m) with
    | (.fail s, _) => return some (.inr s.a.p)
    | (.go s, m) =>
      if fullRanked s.a.p = false ∨ depsSatCheck s.a.p = false then autoLoopWith find o L dia req fuel s m
      else return some (.inl s.a.p)

/-- `pluto_auto_transform`, lib/pluto.c:1492-1850, as `autoTransform`, with any search. -/
def autoTransformWith {σ : Type} (find : σ → Bool → Nat → Auto → Option (σ × Prog × Nat)) (m : σ) (o : AutoOpts) (L : Libs)
    (dia : Nat → Prog → Option (Prog × Bool)) (fuel : Nat) (d0 : DfsState) (p0 : Prog) : Option Outcome := do
  let p := { p0 with deps := p0.deps.map (fun d => { d with satisfied := false }) }
  let a ← (⟨p, ddgCreate p, d0, fun _ => -1, 0⟩ : Auto).computeScc
  if p.stmts = [] then return .success p
  else do
    let s ← autoInit o L a
    let req := (s.a.p.stmts.map (·.dim)).foldl max 0
    match (← autoLoopWith find o L dia req fuel s m) with
    | none => return .timeout
    | some (.inl q) => return .success (← denormalizeDomains q)
    | some (.inr q) =>
      let q ← denormalizeDomains q
      return .failed { q with stmts := List.zipWith restoreStmt p0.stmts q.stmts, hProps := p0.hProps }

/-- `pluto_auto_transform`, lib/pluto.c:1492-1850, with `--per-cc-obj`. -/
def autoTransformCc (o : AutoOpts) (L : Libs) (dia : Nat → Prog → Option (Prog × Bool)) (fuel : Nat) (d0 : DfsState) (p0 : Prog) :
    Option Outcome :=
  autoTransformWith (searchCc o.toSearchOpts L) none o L dia fuel d0 p0

/-- The system of `get_face_with_concurrent_start_for_stmts`, lib/framework.cpp:1467-1481, with `--per-cc-obj`: only the
bounds of the coefficients have the additional columns. -/
def faceCstCc (o : SearchOpts) (p : Prog) (ncc : Nat) (stmts : List Nat) : Option Cst :=
  let f := feautrierConstraints o.rar p stmts
  let b := coeffBoundConstraints o (withExt p (ccExt p ncc))
  if f.ncols ≠ b.ncols then none else some (addCst f b)

end Pluto
