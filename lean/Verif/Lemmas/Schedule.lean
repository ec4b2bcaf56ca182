import Verif.Lemmas.PlutoTile
import Verif.Lemmas.IntraStep
import Verif.Lemmas.AutoUnpad
import Verif.Props.Wavefront

/-! The steps after the automatic transformation. -/

namespace Pluto

/-- Satisfaction data stays right if it is computed again. -/
theorem recompute_sat {isEmpty : Cst → Bool} {p p' : Prog} (h : recompute isEmpty p = some p') : computeDepSatisfaction isEmpty p' = some p' := by
  have h' := recompute_idem h
  unfold recompute at h'
  simp only [Option.bind_eq_bind, Option.bind_eq_some_iff] at h'
  obtain ⟨p1, h1, h2⟩ := h'
  have h3 := h2
  unfold computeDepDirections at h1
  simp only [Option.bind_eq_bind, Option.bind_eq_some_iff, Option.pure_def, Option.some.injEq] at h1
  obtain ⟨ds, h1, rfl⟩ := h1
  suffices hd : ds = p'.deps by
    subst hd
    exact h2
  have f1 : List.Forall₂ (fun d d' : Dep => d' = { d with dirvec := d'.dirvec }) p'.deps ds := by
    have := mapM_forall₂ _ _ _ h1
    refine this.imp ?_
    intro d d' hd
    simp only [Option.bind_eq_bind, Option.bind_eq_some_iff, Option.pure_def, Option.some.injEq] at hd
    obtain ⟨v, _, rfl⟩ := hd
    rfl
  have f2 : List.Forall₂ (fun d d' : Dep => d'.dirvec = d.dirvec) ds p'.deps := by
    unfold computeDepSatisfaction at h3
    rw [satUpdates_eq] at h3
    simp only [Option.bind_eq_bind, Option.bind_eq_some_iff, Option.map_eq_some_iff, Option.pure_def, Option.some.injEq] at h3
    obtain ⟨p2, ⟨es, e1, e2⟩, fs, e3, e4⟩ := h3
    have g1 := mapM_forall₂ _ _ _ e1
    have g2 := mapM_forall₂ _ _ _ e3
    have g0 : List.Forall₂ (fun d d' : Dep => d'.dirvec = d.dirvec) ds (depSatReset { p' with deps := ds }).deps := by
      unfold depSatReset
      rw [List.forall₂_map_right_iff]
      exact List.forall₂_same.mpr (fun _ _ => rfl)
    have e5 : p'.deps = fs := by rw [← e4]
    have e6 : p2.deps = es := by rw [← e2]
    rw [e6] at g2
    rw [e5]
    have g1' : List.Forall₂ (fun d d' : Dep => d'.dirvec = d.dirvec) (depSatReset { p' with deps := ds }).deps es :=
      g1.imp (fun a b hab => by rw [satChain_same _ _ _ _ _ hab])
    have g2' : List.Forall₂ (fun d d' : Dep => d'.dirvec = d.dirvec) es fs := g2.imp (fun a b hab => by
      split_ifs at hab with c
      · cases hab; rfl
      · simp only [Option.bind_eq_bind, Option.bind_eq_some_iff, Option.pure_def, Option.some.injEq] at hab
        obtain ⟨_, _, rfl⟩ := hab
        rfl)
    have tr : ∀ {a b c : List Dep}, List.Forall₂ (fun d d' : Dep => d'.dirvec = d.dirvec) a b →
        List.Forall₂ (fun d d' : Dep => d'.dirvec = d.dirvec) b c → List.Forall₂ (fun d d' : Dep => d'.dirvec = d.dirvec) a c := by
      intro a b c hab
      induction hab generalizing c with
      | nil => intro h; cases h; exact .nil
      | cons x _ ih => intro h; cases h with | cons y ys => exact .cons (y.trans x) (ih ys)
    exact tr (tr g0 g1') g2'
  have key : ∀ a b : List Dep, List.Forall₂ (fun d d' : Dep => d' = { d with dirvec := d'.dirvec }) a b →
      List.Forall₂ (fun d d' : Dep => d'.dirvec = d.dirvec) b a → b = a := by
    intro a b hab
    induction hab with
    | nil => intro _; rfl
    | cons x _ ih =>
      intro h
      cases h with
      | cons y ys =>
        rw [ih ys, x, ← y]
  exact key _ _ f1 f2

/-- Reordering within bands of untiled programs. -/
theorem intraTileOptimize_good {isEmpty : Cst → Bool} (hE : EmptyOracle isEmpty) {best : Prog → List Loop → Option Loop}
    (hbest : ∀ p ls L, best p ls = some L → L ∈ ls) {p : Prog} (H : Good p) (hi : p.Info) :
    ∃ p2 p', intraTileOptimize isEmpty best 0 p = some p' ∧ recompute isEmpty p2 = some p' ∧ Good p' ∧ p'.Info ∧ Same p p' := by
  obtain ⟨bands, e1, hB, hb⟩ := outer_base H hi
  obtain ⟨p2, e2, H2⟩ := intraFold0 hbest bands p H (fun b hbm => (hb b hbm).2.1) hB.disjoint
  obtain ⟨p3, e3, i3, q3, f3⟩ := recompute_spec hE H2.ok
  refine ⟨p2, p3, ?_, e3, H2.resat q3 f3, i3, (foldlM_same (fun _ _ _ => intraTileBand_same) e2).trans (resat_same q3 f3)⟩
  unfold intraTileOptimize intraTileBands
  simp only [e1, e2, Option.bind_eq_bind, Option.bind_some, e3]

/-- The untiled branch up to the wavefronts. -/
theorem untiled_good {isEmpty : Cst → Bool} (hE : EmptyOracle isEmpty) {best : Prog → List Loop → Option Loop}
    (hbest : ∀ p ls L, best p ls = some L → L ∈ ls) (o : TileOpts) (sizes sizes2 : Nat → Nat → Int) {p : Prog} (H : Good p) :
    ∃ p2 p', beforeWave isEmpty best o false sizes sizes2 p = some p' ∧ recompute isEmpty p2 = some p' ∧ Good p' ∧ p'.Info ∧ Same p p' := by
  obtain ⟨p1, e1, i1, q1, f1⟩ := recompute_spec hE H.ok
  have H1 := H.resat q1 f1
  unfold beforeWave stepIf
  simp only [e1, Option.bind_eq_bind, Option.bind_some, Bool.false_eq_true, if_false]
  by_cases c : o.intraTile = true
  · rw [if_pos c]
    obtain ⟨p2, p', a1, a2, a3, a4, a5⟩ := intraTileOptimize_good hE hbest H1 i1
    exact ⟨p2, p', a1, a2, a3, a4, (resat_same q1 f1).trans a5⟩
  · rw [if_neg c]
    exact ⟨p, p1, rfl, e1, H1, i1, resat_same q1 f1⟩

/-- Wavefronts of untiled programs. -/
theorem waveUntiled_stage {isEmpty : Cst → Bool} (o : TileOpts) (hip : o.innerpar = false) {p2 p : Prog}
    (hp : recompute isEmpty p2 = some p) (H : Good p) (hi : p.Info)
    (hfw : ∀ bands, outermostBands p = some bands → ∀ b ∈ bands, ∀ m < b.width, ∃ i ∈ b.loop.stmts, ¬ p.Scalar (b.loop.depth + m) i) :
    ∃ bands p', outermostBands p = some bands ∧ waveUntiled isEmpty o p = some p' ∧ Stage p' bands true ∧ Bits p' bands ∧ Same p p' := by
  obtain ⟨bands, e1, hB, hb⟩ := outer_base H hi
  have S : Stage p bands true := ⟨H.ok, H.step.legal H.ok, hi.satLen, hB, fun b hbm => by have := (hb b hbm).1; omega,
    fun b hbm => (hb b hbm).2.2.1, fun _ b hbm => C20_forward p hi H.step b.loop b (hb b hbm).2.2.2 (hfw bands e1 b hbm)⟩
  have hbits : Bits p [] := ⟨fun d hd hr l _ hb s t q hin htied => bit_false hi hd hr hb hin htied⟩
  obtain ⟨p', r, e2, S', B'⟩ := waveFold o hip bands [] p false S hbits (fun _ h => h) (by simpa using hB.disjoint)
  have e3 : createTileSchedules o p bands = some (p', r) := e2
  refine ⟨bands, p', e1, ?_, S', by simpa using B', createTileSchedules_same e3⟩
  unfold waveUntiled
  simp [recompute_sat hp, e1, e3]

theorem auto_npar {o : AutoOpts} {L : Libs} (hE : EmptyOracle L.isEmpty) (hL : FeasibleOracle L.solve)
    {fuel : Nat} {d0 : DfsState} {p0 p : Prog} (hp : p0.InputOK) (h : autoTransform o L noDiamond fuel d0 p0 = some (.success p)) :
    p.npar = p0.npar := by
  by_cases hne : p0.stmts = []
  · unfold autoTransform at h
    simp only [Option.bind_eq_bind, Option.bind_eq_some_iff] at h
    obtain ⟨a, _, h⟩ := h
    rw [if_pos hne] at h
    simp only [Option.pure_def, Option.some.injEq, Outcome.success.injEq] at h
    rw [← h]
  · obtain ⟨k, q, _, hi, hpad, _, hden, _⟩ := auto_keeps (lz := True) (ke := False) o L hE hL (fun h => h.elim) fuel d0 p0 p
      (fun k hk _ => typed_moves hE hk) (fun m p h h0 _ => typed_fresh m p h) hp (.inl trivial) hne h
    exact (unpad_facts hp hi hpad hden).1.npar

theorem restored_sameRuns {p0 p : Prog} (hn : p.npar = p0.npar) (r1 : List.Forall₂ (StmtRestored p0.npar) p0.stmts p.stmts)
    (r2 : List.Forall₂ DepRestored p0.deps p.deps) : SameRuns p0 p (fun _ _ _ => []) := by
  have hl := r1.length_eq
  have hS : ∀ (i : Nat) (st st' : Stmt), p0.stmts[i]? = some st → p.stmts[i]? = some st' → StmtRestored p0.npar st st' := by
    intro i st st' g g'
    obtain ⟨a, b⟩ := List.getElem?_eq_some_iff.mp g
    obtain ⟨a', b'⟩ := List.getElem?_eq_some_iff.mp g'
    have := (List.forall₂_iff_get.mp r1).2 i a a'
    simp only [List.get_eq_getElem, b, b'] at this
    exact this
  have hdim : ∀ i, p.dim i = p0.dim i := by
    intro i
    unfold Prog.dim
    by_cases c : i < p0.stmts.length
    · have g := List.getElem?_eq_getElem c
      have g' := List.getElem?_eq_getElem (hl ▸ c : i < p.stmts.length)
      rw [g, g']
      exact (hS i _ _ g g').1
    · rw [List.getElem?_eq_none (by omega), List.getElem?_eq_none (by omega)]
  refine ⟨hn, hl.symm, fun i x q hx => by simpa [hdim] using hx, ?_, ?_⟩
  · intro i st st' g g' x' q hx' hq
    obtain ⟨e1, _, _, e2⟩ := hS i st st' g g'
    rw [e2 x' q (by omega) hq]
    constructor
    · intro hs; exact ⟨x', by omega, hs, rfl⟩
    · rintro ⟨x, _, hs, rfl⟩; exact hs
  · refine r2.imp ?_
    rintro d d' ⟨e1, e2, e3, e4⟩
    refine ⟨e1, e2, e3, fun s' t' q a b c => ?_⟩
    rw [e4]
    rw [hdim] at a b
    constructor
    · intro hs; exact ⟨s', t', a, b, hs, rfl, rfl⟩
    · rintro ⟨s, t, _, _, hs, rfl, rfl⟩; exact hs

end Pluto
