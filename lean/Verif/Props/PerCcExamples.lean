import Verif.Props.PerCc

/-! C71: runs with `--per-cc-obj`. -/

namespace Pluto

def exSelfRows : List Row := [⟨true, [-1, 1, 0, -1]⟩, ⟨false, [1, 0, 0, -1]⟩, ⟨false, [0, -1, 1, 0]⟩]

def exRevNRows : List Row := [⟨true, [1, 1, -1, 0]⟩, ⟨false, [1, 0, 0, -1]⟩, ⟨false, [0, 1, 0, -1]⟩]

/-- `S0: a[i] = a[i-1]`, `S1: b[i] = b[i-1] + a[N-i]`, `1 <= i <= N`: the loops cannot be fused. -/
def exRevN : Prog :=
  ⟨1, 1, [exLoopN, exLoopN], [exSelf 0, exSelf 1, ⟨0, 1, false, ⟨4, exRevNRows⟩, ⟨4, exRevNRows⟩, false, -1, [], []⟩], []⟩

def ccTab : List (Cst × Bool) :=
  [(⟨4, ⟨false, [0, 0, 0, 0]⟩ :: exSelfRows⟩, false), (⟨4, ⟨false, [0, 0, 0, 0]⟩ :: exRevNRows⟩, false),
   (⟨4, ⟨false, [0, 0, 0, -1]⟩ :: exRevNRows⟩, true), (⟨4, ⟨false, [1, -1, 0, 0]⟩ :: exSelfRows⟩, true)]

theorem ccTab_ok : EmptyOracle (tabOracle ccTab) := by
  refine tabOracle_ok _ ?_
  intro e he
  simp only [ccTab, List.mem_cons, List.not_mem_nil, or_false] at he
  rcases he with rfl | rfl | rfl | rfl
  · simp only [Bool.false_eq_true, false_iff, not_not]
    exact ⟨[1, 2, 2], rfl, by decide⟩
  · simp only [Bool.false_eq_true, false_iff, not_not]
    exact ⟨[1, 1, 2], rfl, by decide⟩
  · simp only [true_iff]
    rintro ⟨x, hx, hs⟩
    match x, hx with
    | [a, b, c], _ =>
      have := hs ⟨false, [0, 0, 0, -1]⟩ (by simp)
      simp [Row.Sat, aff, dot] at this
  · simp only [true_iff]
    rintro ⟨x, hx, hs⟩
    match x, hx with
    | [a, b, c], _ =>
      have h1 := hs ⟨false, [1, -1, 0, 0]⟩ (by simp)
      have h2 := hs ⟨true, [-1, 1, 0, -1]⟩ (by simp [exSelfRows])
      simp [Row.Sat, aff, dot] at h1 h2
      omega

/-- The solver knows points of the systems for one and for two components, and without the option. -/
noncomputable def ccLibs : Libs :=
  ⟨fun _ rows => if rows = [] then [[1]] else [], tabOracle ccTab,
    listSolver [[1, 1, 0, 1, 0, 1, 1, 0, 1, 0], [1, 1, 0, 1, 1, 0, 1, 0], [0, 1, 1, 0, 1, 0]]⟩

def ccDfs : DfsState := ⟨fun _ => 0, fun _ => 0, fun _ => 0, 0⟩

/-- The hypotheses of `C71_legal_partial` are met: two components, one loop each. -/
example : EmptyOracle ccLibs.isEmpty ∧ FeasibleOracle ccLibs.solve ∧ exInd.InputOK ∧
    (ddgComputeCc (ddgCreate exInd) ccDfs).map (fun r => r.2) = some 2 ∧
    Outcome.view (autoTransformCc ⟨⟨true, false, false, false, -1⟩, .max⟩ ccLibs noDiamond 10 ccDfs exInd) =
      some (true, [[[1, 0, 0]], [[1, 0, 0]]]) :=
  ⟨ccTab_ok, listSolver_ok _, ⟨by decide, by decide⟩, by decide +kernel, by decide +kernel⟩

/-- The hypotheses of `C71_bounds` are met: the system of the first call, a solution and the component of `S1`. -/
example : (∀ d ∈ exInd.deps, DepOK exInd d) ∧ (ddgCreate exInd).n = exInd.stmts.length ∧
    (∃ cc, ddgComputeCc (ddgCreate exInd) ccDfs = some (cc, 2) ∧ cc 1 = 1 ∧
      ∃ b cst, permutabilityCc false false exInd cc 2 none = some (b, cst) ∧ cst.Sat ([1, 1, 0, 1, 0, 1, 1, 0, 1, 0] : List Int)) ∧
    CcLen exInd 2 [1, 1, 0, 1, 0, 1, 1, 0, 1, 0] ∧ DepInst (exSelf 1).dpoly 1 1 1 ([2] : List Int) [3] [5] := by
  refine ⟨?_, rfl, ?_, rfl, ⟨rfl, rfl, rfl, by decide⟩⟩
  · intro d hd
    simp only [exInd, List.mem_cons, List.not_mem_nil, or_false] at hd
    rcases hd with rfl | rfl <;> exact ⟨by decide, by decide, by decide, by decide, by decide, by decide⟩
  · have h : ((ddgComputeCc (ddgCreate exInd) ccDfs).bind (fun r => if r.2 = 2 ∧ r.1 1 = 1 then
        (permutabilityCc false false exInd r.1 2 none).map (fun s => decide (s.2.Sat ([1, 1, 0, 1, 0, 1, 1, 0, 1, 0] : List Int))) else none)) = some true := by
      decide +kernel
    obtain ⟨⟨cc, n⟩, h1, h⟩ := Option.bind_eq_some_iff.mp h
    split_ifs at h with hc
    obtain ⟨⟨b, cst⟩, h2, h3⟩ := Option.map_eq_some_iff.mp h
    simp only at hc
    exact ⟨cc, by rw [h1, hc.1], hc.2, b, cst, h2, by simpa using h3⟩

/-- C71 violated: `prog->globcst` keeps the columns allocated at the first call. Here the first system has no solution, the
loops are cut apart and the second call has one component more: its rows are longer than the rows allocated. Without
`--per-cc-obj` the program is transformed. -/
theorem C71_violated_growth :
    ¬ ∀ (o : AutoOpts) (L : Libs) (fuel : Nat) (d0 : DfsState) (p0 : Prog), EmptyOracle L.isEmpty → FeasibleOracle L.solve → p0.InputOK →
      (∃ p, autoTransform o L noDiamond fuel d0 p0 = some (.success p)) →
      ∃ r, autoTransformCc o L noDiamond fuel d0 p0 = some r := by
  intro h
  have hs : Outcome.view (autoTransform ⟨⟨true, false, false, false, -1⟩, .max⟩ ccLibs noDiamond 10 ccDfs exRevN) =
      some (true, [[[0, 0, 0], [1, 0, 0]], [[0, 0, 1], [1, 0, 0]]]) := by decide +kernel
  have hn : (autoTransformCc ⟨⟨true, false, false, false, -1⟩, .max⟩ ccLibs noDiamond 10 ccDfs exRevN).isNone = true := by
    decide +kernel
  obtain ⟨r, hr⟩ := h ⟨⟨true, false, false, false, -1⟩, .max⟩ ccLibs 10 ccDfs exRevN ccTab_ok (listSolver_ok _) ⟨by decide, by decide⟩ (by
    generalize autoTransform ⟨⟨true, false, false, false, -1⟩, .max⟩ ccLibs noDiamond 10 ccDfs exRevN = r at hs
    match r, hs with
    | some (.success p), _ => exact ⟨p, rfl⟩)
  rw [hr] at hn
  cases hn

/-- The first system has no solution at all: whatever (sound) solver is used, the loops are cut apart. -/
theorem C71_growth_infeasible (cc : Nat → Int) (h0 : cc 0 = 0) (h1 : cc 1 = 0) (b : Nat × Nat) (cst : Cst)
    (h : permutabilityCc false false exRevN cc 1 none = some (b, cst)) (sol : List Int) (hl : CcLen exRevN 1 sol) (hs : cst.Sat sol) :
    sol.getD 4 0 ≤ 0 := by
  have hcc : CcOK exRevN cc 1 := by
    intro i hi
    have : i = 0 ∨ i = 1 := by have : exRevN.stmts.length = 2 := rfl; omega
    rcases this with rfl | rfl
    · exact ⟨0, h0, by omega⟩
    · exact ⟨0, h1, by omega⟩
  have hd : ∀ d ∈ exRevN.deps, DepOK exRevN d := by
    intro d hd
    simp only [exRevN, List.mem_cons, List.not_mem_nil, or_false] at hd
    rcases hd with rfl | rfl | rfl <;> exact ⟨by decide, by decide, by decide, by decide, by decide, by decide⟩
  have hz : PadZero (withExt exRevN (ccExt exRevN 1)) sol := by
    intro i st hs k hk ho
    have : k = 0 := by have : (withExt exRevN (ccExt exRevN 1)).nvar = 1 := rfl; omega
    subst this
    have : ∀ st ∈ exRevN.stmts, st.isOrig.getD 0 true = true := by decide
    rw [this st (List.mem_of_getElem? hs)] at ho
    cases ho
  have hdep := (permutabilityCc_spec false false exRevN hcc (fun d h => ⟨(hd d h).src, (hd d h).dest⟩) h).2 sol
  have hsat := hdep.mp hs ⟨0, 1, false, ⟨4, exRevNRows⟩, ⟨4, exRevNRows⟩, false, -1, [], []⟩ (by simp [exRevN]) (by simp) rfl
  by_contra hc
  have hc' : 0 < sol.getD 4 0 := by omega
  match sol, hl with
  | [x0, x1, x2, x3, x4, x5, x6, x7], _ =>
    have hx : 0 < x4 := hc'
    obtain ⟨m, hm1, hm2⟩ : ∃ m : Int, 1 ≤ m ∧ x6 + x7 - x5 < m :=
      ⟨max 1 (x6 + x7 - x5 + 1), le_max_left _ _, by have := le_max_right 1 (x6 + x7 - x5 + 1); omega⟩
    have key := depCc_legal false hcc (sol := [x0, x1, x2, x3, x4, x5, x6, x7]) rfl hz (hd _ (by simp [exRevN])) rfl hsat [m] [1]
      [m + 1] ⟨rfl, rfl, rfl, by
        intro r hr
        simp only [exRevNRows, List.mem_cons, List.not_mem_nil, or_false] at hr
        rcases hr with rfl | rfl | rfl <;> simp [Row.Sat, aff, dot] <;> omega⟩
    simp [hyperplaneRow, stmtOffset, exRevN, ccExt, zrow, coef, aff, dot] at key
    nlinarith

/-- C71 violated: with `--per-cc-obj` the system for the face with concurrent start is never built: the Feautrier constraints
do not have the additional columns, and the assertion of `pluto_constraints_add` fails. -/
theorem C71_violated_diamond (o : SearchOpts) (p : Prog) (ncc : Nat) (stmts : List Nat) (h : 1 ≤ ncc) : faceCstCc o p ncc stmts = none := by
  unfold faceCstCc
  have h1 : (feautrierConstraints o.rar p stmts).ncols = cstWidth p.nvar p.npar p.stmts.length := by
    unfold feautrierConstraints
    rw [simplify_ncols]
    have key : ∀ (l : List Dep) (g : Cst), (l.foldl (fun g d => if o.rar = false ∧ d.rar = true then g
        else if d.src ∈ stmts ∧ d.dest ∈ stmts then addCst g (feautrierDep p d) else g) g).ncols = g.ncols := by
      intro l
      induction l with
      | nil => intro g; rfl
      | cons d l ih => intro g; rw [List.foldl_cons, ih]; split_ifs <;> rfl
    rw [key]
  have h2 := (coeffBound_wid o (withExt p (ccExt p ncc))).1
  rw [withExt_width] at h2
  have : 1 ≤ ccExt p ncc := Nat.mul_pos (by omega) h
  simp only
  rw [if_pos (by rw [h1, h2]; omega)]

example : faceCstCc ⟨true, false, false, false, -1⟩ exInd 2 [0, 1] = none := C71_violated_diamond _ _ _ _ (by omega)

/-- The hypotheses of `C71_columns_partial`, `C71_sum_partial` are met. -/
example : (exInd.npar + 1) * 2 + cstWidth exInd.nvar exInd.npar exInd.stmts.length = 11 ∧
    CcLen { exInd with npar := 0 } 2 [3, 1, 2, 1, 0, 1, 0] ∧ SumBounded { exInd with npar := 0 } 2 [3, 1, 2, 1, 0, 1, 0] :=
  ⟨rfl, rfl, by unfold SumBounded; decide⟩

end Pluto
