import Verif.Lemmas.Restore

/-! The automatic transformation as a whole, for any diamond tiling that keeps the invariant. -/

namespace Pluto

theorem noDiamond_ok {X : Prop} (k : Prog) (_ : SkelOK k) : DiaOK X k noDiamond := by
  intro n p p' c hi _ _ h
  simp only [noDiamond, Option.some.injEq, Prod.mk.injEq] at h
  rw [← h.1]; exact ⟨hi, rfl⟩

theorem auto_legal (dia : Nat → Prog → Option (Prog × Bool)) (o : AutoOpts) (L : Libs) (hE : EmptyOracle L.isEmpty) (hL : FeasibleOracle L.solve)
    (fuel : Nat) (d0 : DfsState) (p0 p : Prog) (hp : p0.InputOK)
    (hdia : ∀ k, SkelOK k → DiaOK True k dia)
    (h : autoTransform o L dia fuel d0 p0 = some (.success p)) :
    (∀ d ∈ p0.deps, d.rar = false → ∀ s t q, p0.Inst d s t q →
      LexBefore (p.timestamp d.src s q) (p.timestamp d.dest t q)) ∧
    (p0.stmts ≠ [] → ∀ st ∈ p.stmts, st.trans.length = p.hProps.length ∧
      ∀ r ∈ st.trans, r.length = st.dim + p0.npar + 1) ∧
    List.Forall₂ (StmtRestored p0.npar) p0.stmts p.stmts ∧ List.Forall₂ DepRestored p0.deps p.deps := by
  unfold autoTransform at h
  simp only [Option.bind_eq_bind, Option.bind_eq_some_iff] at h
  obtain ⟨a, h1, h⟩ := h
  split_ifs at h with hs
  · simp only [Option.pure_def, Option.some.injEq, Outcome.success.injEq] at h
    have hd : p0.deps = [] := by
      by_contra hc
      obtain ⟨d, hd⟩ := List.exists_mem_of_ne_nil _ hc
      have := (hp.deps d hd).1
      rw [hs] at this
      simp at this
    refine ⟨by rw [hd]; simp, fun hne => absurd hs hne, ?_, ?_⟩
    · rw [← h, hs]; exact .nil
    · rw [← h]
      simp only [hd, List.map_nil]
      exact .nil
  · rw [Option.bind_eq_some_iff] at h
    obtain ⟨s, h2, h⟩ := h
    rw [Option.bind_eq_some_iff] at h
    obtain ⟨r, h3, h⟩ := h
    obtain ⟨k, hk, ha, hpad⟩ := init_spec (X := True) hE hp h1 h2
    have hl := autoLoop_spec hE hL hk (hdia k hk) fuel s r ha h3
    match r with
    | none => simp at h
    | some (.inr q) =>
      simp only [Option.bind_eq_bind, Option.bind_eq_some_iff] at h
      obtain ⟨_, _, h⟩ := h
      simp at h
    | some (.inl q) =>
      simp only [Option.bind_eq_bind, Option.bind_eq_some_iff] at h
      obtain ⟨p', h4, h⟩ := h
      simp only [Option.pure_def, Option.some.injEq, Outcome.success.injEq] at h
      subst h
      obtain ⟨hi, hsat⟩ := hl.1 q rfl
      obtain ⟨f1, f2, f3, f4⟩ := final_legal trivial hp hi (hpad q hi) hsat h4
      obtain ⟨g1, g2⟩ := restored_all hp f1
      exact ⟨f4, fun _ => f3, g1, g2⟩

theorem auto_restores (dia : Nat → Prog → Option (Prog × Bool)) (o : AutoOpts) (L : Libs) (hE : EmptyOracle L.isEmpty) (hL : FeasibleOracle L.solve)
    (fuel : Nat) (d0 : DfsState) (p0 p : Prog) (hp : p0.InputOK)
    (hdia : ∀ k, SkelOK k → DiaOK False k dia)
    (h : autoTransform o L dia fuel d0 p0 = some (.failed p)) :
    p.hProps = p0.hProps ∧ p.stmts.map (fun st => (st.trans, st.hypTypes)) = p0.stmts.map (fun st => (st.trans, st.hypTypes)) ∧
    List.Forall₂ (StmtRestored p0.npar) p0.stmts p.stmts ∧ List.Forall₂ DepRestored p0.deps p.deps := by
  unfold autoTransform at h
  simp only [Option.bind_eq_bind, Option.bind_eq_some_iff] at h
  obtain ⟨a, h1, h⟩ := h
  split_ifs at h with hs
  · simp at h
  · rw [Option.bind_eq_some_iff] at h
    obtain ⟨s, h2, h⟩ := h
    rw [Option.bind_eq_some_iff] at h
    obtain ⟨r, h3, h⟩ := h
    obtain ⟨k, hk, ha, hpad⟩ := init_spec (X := False) hE hp h1 h2
    have hl := autoLoop_spec hE hL hk (hdia k hk) fuel s r ha h3
    match r with
    | none => simp at h
    | some (.inl q) =>
      simp only [Option.bind_eq_bind, Option.bind_eq_some_iff] at h
      obtain ⟨_, _, h⟩ := h
      simp at h
    | some (.inr q) =>
      simp only [Option.bind_eq_bind, Option.bind_eq_some_iff] at h
      obtain ⟨p', h4, h⟩ := h
      simp only [Option.pure_def, Option.some.injEq, Outcome.failed.injEq] at h
      subst h
      have hi := hl.2 q rfl
      have hq := hpad q hi
      obtain ⟨p'', g1, g2, g3, g4⟩ := denormalize_spec hp hq (by
        intro st hst r hr
        rw [← hq.nvar, ← hq.npar]
        exact ((hi.rows st hst).2 r hr).1)
      rw [h4, Option.some.injEq] at g1
      subst g1
      obtain ⟨r1, r2⟩ := restored_all hp g2
      have hlen := List.forall₂_iff_get.mp r1
      refine ⟨rfl, ?_, ?_, r2⟩
      · apply List.ext_getElem?
        intro i
        simp only [List.getElem?_map, List.getElem?_zipWith]
        by_cases hi' : i < p0.stmts.length
        · rw [List.getElem?_eq_getElem hi', List.getElem?_eq_getElem (show i < p'.stmts.length by rw [← hlen.1]; exact hi')]
          rfl
        · rw [List.getElem?_eq_none (by omega)]
      · rw [List.forall₂_iff_get]
        refine ⟨by simp [hlen.1], fun i i1 i2 => ?_⟩
        have := hlen.2 i i1 (by rw [← hlen.1]; exact i1)
        simpa [restoreStmt, StmtRestored] using this

/-! ### Runs with fewer results -/

section mono
variable {dia dia' : Nat → Prog → Option (Prog × Bool)} (hd : ∀ n p r, dia n p = some r → dia' n p = some r)
include hd

theorem diaStep_mono (s s' : LoopState) (n : Nat) (h : diaStep dia s n = some s') : diaStep dia' s n = some s' := by
  unfold diaStep at h ⊢
  by_cases hc : n ≥ 2 ∧ s.conc = false
  · rw [if_pos hc] at h ⊢
    simp only [Option.bind_eq_bind, Option.bind_eq_some_iff] at h ⊢
    obtain ⟨r, h1, h2⟩ := h
    exact ⟨r, hd _ _ _ h1, h2⟩
  · rw [if_neg hc] at h ⊢
    exact h

theorem foundStep_mono (L : Libs) (s s' : LoopState) (n : Nat) (h : foundStep L dia s n = some s') :
    foundStep L dia' s n = some s' := by
  unfold foundStep at h ⊢
  rw [Option.bind_eq_bind, Option.bind_eq_some_iff] at h ⊢
  obtain ⟨r, h1, h2⟩ := h
  exact ⟨r, diaStep_mono hd _ _ _ h1, h2⟩

theorem autoStep_mono (o : AutoOpts) (L : Libs) (req : Nat) (s : LoopState) (r : StepRes)
    (h : autoStep o L dia req s = some r) : autoStep o L dia' req s = some r := by
  unfold autoStep at h ⊢
  rw [Option.bind_eq_bind, Option.bind_eq_some_iff] at h ⊢
  obtain ⟨a, h1, h⟩ := h
  refine ⟨a, h1, ?_⟩
  simp only at h ⊢
  split_ifs at h ⊢ with hc
  rw [Option.bind_eq_bind, Option.bind_eq_some_iff] at h ⊢
  obtain ⟨⟨p, n⟩, h2, h⟩ := h
  refine ⟨(p, n), h2, ?_⟩
  simp only at h ⊢
  by_cases hn : n ≥ 1
  · rw [if_pos hn] at h ⊢
    rw [Option.bind_eq_bind, Option.bind_eq_some_iff] at h ⊢
    obtain ⟨r, h3, h⟩ := h
    exact ⟨r, foundStep_mono hd _ _ _ _ h3, h⟩
  · rw [if_neg hn] at h ⊢
    exact h

theorem autoLoop_mono (o : AutoOpts) (L : Libs) (req : Nat) : ∀ (fuel : Nat) (s : LoopState) (r),
    autoLoop o L dia req fuel s = some r → autoLoop o L dia' req fuel s = some r := by
  intro fuel
  induction fuel with
  | zero => exact fun s r h => h
  | succ n ih =>
    intro s r h
    unfold autoLoop at h ⊢
    rw [Option.bind_eq_bind, Option.bind_eq_some_iff] at h ⊢
    obtain ⟨x, h1, h⟩ := h
    refine ⟨x, autoStep_mono hd _ _ _ _ _ h1, ?_⟩
    match x with
    | .fail s => exact h
    | .go s =>
      simp only at h ⊢
      split_ifs at h ⊢ with hc
      · exact ih _ _ h
      · exact h

/-- A run that never leaves the part on which two versions of diamond tiling agree is a run of both. -/
theorem autoTransform_mono (o : AutoOpts) (L : Libs) (fuel : Nat) (d0 : DfsState) (p0 : Prog) (r : Outcome)
    (h : autoTransform o L dia fuel d0 p0 = some r) : autoTransform o L dia' fuel d0 p0 = some r := by
  unfold autoTransform at h ⊢
  simp only at h ⊢
  rw [Option.bind_eq_bind, Option.bind_eq_some_iff] at h ⊢
  obtain ⟨a, h1, h⟩ := h
  refine ⟨a, h1, ?_⟩
  split_ifs at h ⊢ with hc
  · exact h
  · rw [Option.bind_eq_bind, Option.bind_eq_some_iff] at h ⊢
    obtain ⟨s, h2, h⟩ := h
    refine ⟨s, h2, ?_⟩
    rw [Option.bind_eq_bind, Option.bind_eq_some_iff] at h ⊢
    obtain ⟨x, h3, h⟩ := h
    exact ⟨x, autoLoop_mono hd _ _ _ _ _ _ h3, h⟩

end mono

end Pluto
