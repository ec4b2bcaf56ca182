import Verif.Lemmas.TerminateRun
import Verif.Props.Schedule
import Verif.Props.CoeffBounds
import Verif.Props.Ddg

/-! C87: the main loop of the automatic transformation ends. -/

namespace Pluto

/-- C87: the main loop ends after at most one iteration per loop and dependence of the program, and two more, unless
it comes to a state in LAZY mode in which all dependences are satisfied, some statement lacks a loop and no hyperplane
is found. What is missing: that it never comes to such a state, see `C87_violated`. -/
theorem C87_terminates_partial (o : AutoOpts) (L : Libs) (hE : EmptyOracle L.isEmpty) (hL : FeasibleOracle L.solve)
    (hK : KernelOracle L.kernel) (fuel : Nat) (d0 : DfsState) (p0 : Prog) (hp : p0.InputOK)
    (hne : ∀ d ∈ p0.deps, d.rar = false → ∃ s t q, p0.Inst d s t q) (hf : p0.loopsAndDeps + 1 < fuel)
    (hs : ∀ s, ComesTo o L d0 p0 s → ¬ EmptyHanded o L s) : autoTransform o L noDiamond fuel d0 p0 ≠ some .timeout := by
  intro h
  unfold autoTransform at h
  simp only [Option.bind_eq_bind, Option.bind_eq_some_iff] at h
  obtain ⟨a, h1, h⟩ := h
  split_ifs at h with hnil
  · simp at h
  rw [Option.bind_eq_some_iff] at h
  obtain ⟨s, h2, h⟩ := h
  rw [Option.bind_eq_some_iff] at h
  obtain ⟨r, h3, h⟩ := h
  obtain ⟨p3, hc, m2, m3, m4, hcut⟩ := init_state (X := True) hp h1 h2
  have hk := pad_skelOK hp m2 m3
  have hal := start_alive hp hne m2
  have hse : s.eager = true := by
    unfold autoInit at h2
    simp only [Option.bind_eq_bind, Option.bind_eq_some_iff, Option.pure_def, Option.some.injEq] at h2
    obtain ⟨_, _, _, _, rfl⟩ := h2
    rfl
  have hI3 : Todo (todo p3) p3 := by
    refine ⟨fun st hst l row hl => ?_, Nat.le_refl _⟩
    intro hh
    rw [m4] at hh
    simp at hh
  have ha : AInv True (skel p3) s.a ∧ Todo (todo p3) s.a.p := by
    unfold initCut at hcut
    split_ifs at hcut
    · obtain ⟨⟨a2, n⟩, h5, h6⟩ := Option.map_eq_some_iff.mp hcut
      rw [← h6]
      exact ⟨(cutDimBased_spec hE hk hc h5).1.toAInv, cutDimBased_keeps hE hk (todo_moves hE hk hal _) hc hI3 h5⟩
    · simp only [Option.some.injEq] at hcut
      rw [← hcut]
      exact ⟨hc.toAInv, hI3⟩
  have hb := start_todo hp m2 m3
  have hend := autoLoop_ends (o := o) hE hL hK hk hal fuel s ha.1 ha.2.1
    (req := (s.a.p.stmts.map (·.dim)).foldl max 0) (by
      rw [hse]
      have := ha.2.2
      simp only [if_true]
      omega) (fun n s' hit => hs s' ⟨a, s, n, h1, h2, hit⟩)
  match r with
  | none => exact hend h3
  | some (.inr q) =>
    simp only [Option.bind_eq_bind, Option.bind_eq_some_iff] at h
    obtain ⟨_, _, h⟩ := h
    simp at h
  | some (.inl q) =>
    simp only [Option.bind_eq_bind, Option.bind_eq_some_iff] at h
    obtain ⟨_, _, h⟩ := h
    simp at h

/-! ### The loop does not end -/

/-- `S(i)` for `0 <= i <= 9`; no dependences. -/
def exOneLoop : Prog :=
  ⟨1, 0, [⟨1, 1, ⟨2, [⟨false, [1, 0]⟩, ⟨false, [-1, 9]⟩]⟩, [true], [], []⟩], [], []⟩

/-- Any search options with all coefficients at most zero. -/
def exNoCoeff (flic dfp rar nodepbound : Bool) : AutoOpts := ⟨⟨flic, dfp, rar, nodepbound, 0⟩, .max⟩

theorem exOneLoop_needs : ∃ st, exOneLoop.stmts[0]? = some st ∧ NeedsLoops st := by
  refine ⟨_, rfl, ?_⟩
  show rowRank 1 [] < 1
  have : rowRank 1 ([] : List (List Int)) = 0 := by
    unfold rowRank rowSpace
    simp
  omega

theorem exOneLoop_finds_none (b1 b2 b3 b4 : Bool) (L : Libs) (hL : FeasibleOracle L.solve) (eager : Bool) (n : Nat) :
    findPermutable (exNoCoeff b1 b2 b3 b4).toSearchOpts L eager n exOneLoop = some (exOneLoop, 0) := by
  have hpad : exOneLoop.Padded := by
    intro st hst
    simp only [exOneLoop, List.mem_singleton] at hst
    subst hst
    exact ⟨by decide, rfl, rfl, by simp, rfl⟩
  have ho : exOneLoop.OrigOK := by
    intro st hst
    simp only [exOneLoop, List.mem_singleton] at hst
    subst hst
    exact ⟨rfl, rfl⟩
  have hpw : ∀ b b' : Bool, Wid (cstWidth exOneLoop.nvar exOneLoop.npar exOneLoop.stmts.length) (permutabilityConstraints b b' exOneLoop) := by
    intro b b'
    refine ⟨by cases b <;> cases b' <;> decide +kernel, ?_⟩
    cases b <;> cases b' <;> decide +kernel
  unfold findPermutable
  split_ifs with h0
  · rfl
  obtain ⟨n, rfl⟩ : ∃ m, n = m + 1 := ⟨n - 1, by omega⟩
  simp only [findLoop]
  set o := (exNoCoeff b1 b2 b3 b4).toSearchOpts with hoo
  set base := addCst (permutabilityConstraints o.rar o.nodepbound exOneLoop) (coeffBoundConstraints o exOneLoop) with hb
  split_ifs with hr
  · rfl
  have hwid : Wid (cstWidth exOneLoop.nvar exOneLoop.npar exOneLoop.stmts.length) base :=
    Wid.add (hpw _ _) (coeffBound_wid _ _)
  have hall := (hwid.add (nonTrivial_wid exOneLoop eager)).add (linearInd_wid o L exOneLoop ho
    (addCst base (nonTrivialConstraints exOneLoop eager)) eager)
  have hw1 : 1 ≤ cstWidth exOneLoop.nvar exOneLoop.npar exOneLoop.stmts.length := by unfold cstWidth; omega
  cases hx : progLexmin o.dfp L.solve exOneLoop (addCst (addCst base (nonTrivialConstraints exOneLoop eager))
      (linearIndConstraints o L exOneLoop (addCst base (nonTrivialConstraints exOneLoop eager)) eager)) with
  | none =>
    exfalso
    unfold progLexmin at hx
    rw [if_neg (by rw [hall.1]; simp)] at hx
    simp at hx
  | some r =>
    cases r with
    | none => rfl
    | some sol =>
      exfalso
      obtain ⟨f1, f2, f3⟩ := progLexmin_feasible o.dfp L.solve hL exOneLoop ho _ (hall.wf hw1)
        (fun hn => hr (List.append_eq_nil_iff.mp hn).2) sol hx
      have hbnd : (coeffBoundConstraints o exOneLoop).Sat sol := fun r hr => f3 r (by simp [addCst, hb, hr])
      have hnt : (nonTrivialConstraints exOneLoop eager).Sat sol := fun r hr => f3 r (by simp [addCst, hr])
      have hle := ((C38_bounds o exOneLoop sol f1).mp hbnd).2.1 (by show (0 : Int) ≠ -1; decide)
      obtain ⟨st, hst, hn⟩ := exOneLoop_needs
      have hpos : ∃ (i : Nat) (st : Stmt), exOneLoop.stmts[i]? = some st ∧ ∃ a ∈ stmtCoeffs exOneLoop i st sol, 0 < a := by
        cases eager with
        | true => exact ⟨0, st, hst, C38_nonzero exOneLoop hpad sol f1 hnt 0 st hst hn⟩
        | false =>
          obtain ⟨i, st, e1, _, e2⟩ := C38_nontrivial_lazy exOneLoop hpad sol f1 ⟨st, List.mem_of_getElem? hst, hn⟩ hnt
          exact ⟨i, st, e1, e2⟩
      obtain ⟨i, st, hi, a, ha, hlt⟩ := hpos
      obtain ⟨j, hj, rfl⟩ := List.getElem_of_mem ha
      have hj' : j < (stmtCoeffs exOneLoop i st sol).length := hj
      simp only [stmtCoeffs, List.length_take, List.length_drop] at hj'
      have := hle (exOneLoop.npar + 1 + i * (exOneLoop.nvar + 1) + j) (by omega) (by omega)
      rw [List.getD_eq_getElem?_getD, List.getElem?_eq_getElem (by omega), Option.getD_some] at this
      simp only [stmtCoeffs, List.getElem_take, List.getElem_drop] at hlt
      have h0 : o.coeffBound = 0 := rfl
      omega

theorem exOneLoop_step (b1 b2 b3 b4 : Bool) (L : Libs) (hL : FeasibleOracle L.solve) (s : LoopState)
    (hp : s.a.p = exOneLoop) (hf : s.found = 0) :
    ∃ s', autoStep (exNoCoeff b1 b2 b3 b4) L noDiamond 1 s = some (.go s') ∧ s'.a.p = exOneLoop ∧ s'.found = 0 := by
  obtain ⟨a, eager, depth, found, conc⟩ := s
  obtain ⟨p, g, d, scc, num⟩ := a
  subst hp hf
  unfold autoStep
  have hl : (exOneLoop.stmts.map (fun st => st.dimOrig - numIndHyps exOneLoop st)).foldl max 0 = 1 := by decide +kernel
  have hm : maxIndHyps exOneLoop = 0 := by decide +kernel
  have hnf : noFuseCut (exNoCoeff b1 b2 b3 b4) L ⟨exOneLoop, g, d, scc, num⟩ = some ⟨exOneLoop, g, d, scc, num⟩ := rfl
  simp only [Option.bind_eq_bind, hnf, Option.bind_some, hl, exOneLoop_finds_none b1 b2 b3 b4 L hL eager 1, hm]
  rw [if_neg (by omega)]
  obtain ⟨s1, e1, _⟩ := C14_scc g d
  unfold ddgComputeScc at e1
  rw [Option.bind_eq_bind, Option.bind_eq_some_iff] at e1
  obtain ⟨d1, e1, e2⟩ := e1
  have hscc : (⟨exOneLoop, g, d, scc, num⟩ : Auto).computeScc = some ⟨exOneLoop, g, d1, s1.scc, s1.num⟩ := by
    unfold Auto.computeScc
    simp only [e1, e2, Option.bind_eq_bind, Option.bind_some, Option.pure_def]
  have hu : (⟨exOneLoop, g, d1, s1.scc, s1.num⟩ : Auto).unsatInter = 0 := rfl
  have hd : depsSatCheck exOneLoop = true := rfl
  have hpr : ∀ e, preciseIfLazy L e exOneLoop = some exOneLoop := by
    intro e
    cases e <;> rfl
  rw [if_neg (by omega)]
  unfold noneStep
  simp only [Option.bind_eq_bind, hscc, Option.bind_some, hu, hd]
  rw [if_neg (by omega)]
  cases eager with
  | true => exact ⟨⟨⟨exOneLoop, g, d1, s1.scc, s1.num⟩, false, depth + 1, 0, conc⟩, by simp [endStep, hpr], rfl, rfl⟩
  | false => exact ⟨⟨⟨exOneLoop, g, d1, s1.scc, s1.num⟩, false, depth + 1, 0, conc⟩, by simp [endStep, hpr], rfl, rfl⟩

theorem exOneLoop_loop (b1 b2 b3 b4 : Bool) (L : Libs) (hL : FeasibleOracle L.solve) (fuel : Nat) : ∀ (s : LoopState),
    s.a.p = exOneLoop → s.found = 0 → autoLoop (exNoCoeff b1 b2 b3 b4) L noDiamond 1 fuel s = some none := by
  induction fuel with
  | zero => intro s _ _; rfl
  | succ fuel ih =>
    intro s hp hf
    obtain ⟨s', h1, h2, h3⟩ := exOneLoop_step b1 b2 b3 b4 L hL s hp hf
    unfold autoLoop
    simp only [Option.bind_eq_bind, h1, Option.bind_some]
    rw [if_pos (.inl (by rw [h2]; decide +kernel))]
    exact ih s' h2 h3

/-- C87: violated. With `coeff_bound` zero (the command line refuses the value, the library takes it), no hyperplane
exists and the loop does not end, although the program consists of one loop without dependences. -/
theorem C87_violated (flic dfp rar nodepbound : Bool) (L : Libs) (hL : FeasibleOracle L.solve) (d0 : DfsState) (fuel : Nat) :
    autoTransform ⟨⟨flic, dfp, rar, nodepbound, 0⟩, .max⟩ L noDiamond fuel d0 exOneLoop = some .timeout := by
  obtain ⟨s1, e1, _⟩ := C14_scc (ddgCreate exOneLoop) d0
  unfold ddgComputeScc at e1
  rw [Option.bind_eq_bind, Option.bind_eq_some_iff] at e1
  obtain ⟨d1, e1, e2⟩ := e1
  have hscc : (⟨exOneLoop, ddgCreate exOneLoop, d0, fun _ => -1, 0⟩ : Auto).computeScc =
      some ⟨exOneLoop, ddgCreate exOneLoop, d1, s1.scc, s1.num⟩ := by
    unfold Auto.computeScc
    simp only [e1, e2, Option.bind_eq_bind, Option.bind_some, Option.pure_def]
  have hin : autoInit ⟨⟨flic, dfp, rar, nodepbound, 0⟩, .max⟩ L ⟨exOneLoop, ddgCreate exOneLoop, d1, s1.scc, s1.num⟩ =
      some ⟨⟨exOneLoop, ddgCreate exOneLoop, d1, s1.scc, s1.num⟩, true, 0, 0, false⟩ := rfl
  have hlp := exOneLoop_loop flic dfp rar nodepbound L hL fuel
    ⟨⟨exOneLoop, ddgCreate exOneLoop, d1, s1.scc, s1.num⟩, true, 0, 0, false⟩ rfl rfl
  unfold autoTransform
  have hp : ({ exOneLoop with deps := exOneLoop.deps.map (fun d => { d with satisfied := false }) } : Prog) = exOneLoop := rfl
  have hreq : (exOneLoop.stmts.map (·.dim)).foldl max 0 = 1 := rfl
  simp only [hp, Option.bind_eq_bind, hscc, Option.bind_some, hin, hreq]
  rw [if_neg (by simp [exOneLoop])]
  unfold exNoCoeff at hlp
  rw [hlp]
  rfl

/-! ### A run that ends -/

/-- The run ends within `n` iterations, in EAGER mode before each. -/
noncomputable def endsEager (o : AutoOpts) (L : Libs) (req : Nat) : Nat → LoopState → Bool
  | 0, _ => false
  | n + 1, s => s.eager && match autoStep o L noDiamond req s with
    | some (.go s') => (fullRanked s'.a.p && depsSatCheck s'.a.p) || endsEager o L req n s'
    | _ => true

theorem endsEager_ok {o : AutoOpts} {L : Libs} {req : Nat} : ∀ {n : Nat} {s : LoopState}, endsEager o L req n s = true →
    ∀ m s', Iterates o L req m s s' → s'.eager = true := by
  intro n
  induction n with
  | zero => intro s h; simp [endsEager] at h
  | succ n ih =>
    intro s h m s' hit
    simp only [endsEager, Bool.and_eq_true] at h
    cases m with
    | zero => rw [show s' = s from hit]; exact h.1
    | succ m =>
      obtain ⟨s1, h1, hc, hit⟩ := hit
      have h2 := h.2
      rw [h1] at h2
      simp only [Bool.or_eq_true, Bool.and_eq_true] at h2
      rcases h2 with ⟨h3, h4⟩ | h2
      · rw [h3, h4] at hc
        simp at hc
      · exact ih h2 m s' hit

noncomputable def endsEagerAuto (o : AutoOpts) (L : Libs) (fuel : Nat) (d0 : DfsState) (p0 : Prog) : Bool :=
  let p := { p0 with deps := p0.deps.map (fun d => { d with satisfied := false }) }
  match (⟨p, ddgCreate p, d0, fun _ => -1, 0⟩ : Auto).computeScc with
  | none => true
  | some a => match autoInit o L a with
    | none => true
    | some s => endsEager o L ((s.a.p.stmts.map (·.dim)).foldl max 0) fuel s

theorem endsEagerAuto_ok {o : AutoOpts} {L : Libs} {fuel : Nat} {d0 : DfsState} {p0 : Prog} (h : endsEagerAuto o L fuel d0 p0 = true)
    (s : LoopState) (hs : ComesTo o L d0 p0 s) : ¬ EmptyHanded o L s := by
  obtain ⟨a, s0, n, h1, h2, h3⟩ := hs
  unfold endsEagerAuto at h
  simp only [h1, h2] at h
  intro he
  have := endsEager_ok h n s h3
  rw [he.1] at this
  cases this

/-- The hypotheses of C87 are met: two statements in two loops each, and two dependences. -/
example : EmptyOracle exSchedLibs.isEmpty ∧ FeasibleOracle exSchedLibs.solve ∧ KernelOracle exSchedLibs.kernel ∧ exSched.InputOK ∧
    (∀ d ∈ exSched.deps, d.rar = false → ∃ s t q, exSched.Inst d s t q) ∧ exSched.loopsAndDeps = 6 ∧
    (∀ s, ComesTo exAutoOpts exSchedLibs exDfs exSched s → ¬ EmptyHanded exAutoOpts exSchedLibs s) ∧
    autoTransform exAutoOpts exSchedLibs noDiamond 8 exDfs exSched ≠ some .timeout := by
  obtain ⟨k1, k2, k3⟩ := exSchedLibs_ok
  have k4 : exSched.InputOK := ⟨by decide, by decide⟩
  have k5 : ∀ d ∈ exSched.deps, d.rar = false → ∃ s t q, exSched.Inst d s t q := by
    intro d hd _
    simp only [exSched, exTile, List.map_cons, List.map_nil, List.mem_cons, List.not_mem_nil, or_false] at hd
    rcases hd with rfl | rfl
    · exact ⟨[0, 1], [1, 0], [0], rfl, rfl, rfl, by decide⟩
    · exact ⟨[0, 1], [0, 1], [0], rfl, rfl, rfl, by decide⟩
  have k6 : ∀ s, ComesTo exAutoOpts exSchedLibs exDfs exSched s → ¬ EmptyHanded exAutoOpts exSchedLibs s :=
    endsEagerAuto_ok (fuel := 8) (by decide +kernel)
  exact ⟨k1, k2, k3, k4, k5, rfl, k6, C87_terminates_partial _ _ k1 k2 k3 8 _ _ k4 k5 (by decide) k6⟩

/-- The hypotheses of the violation are met by the solver that finds the first of a list of points. -/
example : FeasibleOracle exSchedLibs.solve ∧ exOneLoop.InputOK ∧ exOneLoop.loopsAndDeps = 1 :=
  ⟨exSchedLibs_ok.2.1, ⟨by decide, by decide⟩, rfl⟩

end Pluto
