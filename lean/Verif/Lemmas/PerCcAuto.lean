import Verif.Lemmas.PerCcFind
import Verif.Lemmas.AutoAll

/-! The main loop of the automatic transformation with any search. -/

namespace Pluto

section
variable {X : Prop} {k : Prog} {σ : Type} {find : σ → Bool → Nat → Auto → Option (σ × Prog × Nat)}

theorem autoStepWith_spec {o : AutoOpts} {L : Libs} {dia : Nat → Prog → Option (Prog × Bool)}
    (hE : EmptyOracle L.isEmpty) (hF : FindOK X k find) (hk : SkelOK k) (hd : DiaOK X k dia) {req : Nat}
    {s : LoopState} {m : σ} {r : StepRes × σ} (hi : AInv X k s.a) (h : autoStepWith find o L dia req s m = some r) :
    (∀ s', r.1 = .go s' → AInv X k s'.a) ∧ (∀ s', r.1 = .fail s' → AInv X k s'.a) := by
  unfold autoStepWith at h
  rw [Option.bind_eq_bind, Option.bind_eq_some_iff] at h
  obtain ⟨a, h1, h⟩ := h
  have ha := noFuseCut_spec hE hk hi h1
  simp only at h
  split_ifs at h
  rw [Option.bind_eq_bind, Option.bind_eq_some_iff] at h
  obtain ⟨⟨m1, p, n⟩, h2, h⟩ := h
  obtain ⟨i1, i2, i3, i4⟩ := hF _ _ _ _ _ _ _ ha h2
  have hp := ha.sameDeps hk i1 i2
  simp only at h
  split_ifs at h with hn
  · have hnl : n ≤ p.hProps.length := by rw [i3]; omega
    have he : X → Early p (p.hProps.length - n) := by
      rw [i3, Nat.add_sub_cancel]; exact i4
    rw [Option.bind_eq_bind, Option.bind_eq_some_iff] at h
    obtain ⟨s1, h3, h⟩ := h
    rw [Option.bind_eq_some_iff] at h
    obtain ⟨s2, h4, h⟩ := h
    simp only [Option.pure_def, Option.some.injEq] at h
    subst h
    have := endStep_spec hE hk (foundStep_spec hE hk hd i1 hp.gn hn hnl he h3) h4
    exact ⟨by intro s' h'; cases h'; exact this, by intro s' h'; cases h'⟩
  · rw [Option.bind_eq_bind, Option.bind_eq_some_iff] at h
    obtain ⟨r1, h3, h⟩ := h
    have hr := noneStep_spec hE hk hp h3
    cases r1 with
    | fail s1 =>
      simp only [Option.pure_def, Option.some.injEq] at h
      subst h
      exact ⟨(by intro s' h'; cases h'), (by intro s' h'; cases h'; exact hr.2 s1 rfl)⟩
    | go s1 =>
      simp only [Option.bind_eq_bind, Option.bind_eq_some_iff] at h
      obtain ⟨s2, h4, h⟩ := h
      simp only [Option.pure_def, Option.some.injEq] at h
      subst h
      have := endStep_spec hE hk (hr.1 s1 rfl) h4
      exact ⟨by intro s' h'; cases h'; exact this, by intro s' h'; cases h'⟩

theorem autoLoopWith_spec {o : AutoOpts} {L : Libs} {dia : Nat → Prog → Option (Prog × Bool)}
    (hE : EmptyOracle L.isEmpty) (hF : FindOK X k find) (hk : SkelOK k) (hd : DiaOK X k dia) {req : Nat}
    (fuel : Nat) : ∀ (s : LoopState) (m : σ) (r : Option (Prog ⊕ Prog)), AInv X k s.a → autoLoopWith find o L dia req fuel s m = some r →
      (∀ q, r = some (.inl q) → Inv X k q ∧ ∀ d ∈ q.deps, d.rar = false → d.satisfied = true) ∧
      (∀ q, r = some (.inr q) → Inv X k q) := by
  induction fuel with
  | zero =>
    intro s m r _ h
    simp only [autoLoopWith, Option.some.injEq] at h
    subst h
    exact ⟨(by intro q h; cases h), (by intro q h; cases h)⟩
  | succ fuel ih =>
    intro s m r hi h
    simp only [autoLoopWith, Option.bind_eq_bind, Option.bind_eq_some_iff] at h
    obtain ⟨⟨r1, m1⟩, h1, h⟩ := h
    have hs := autoStepWith_spec hE hF hk hd hi h1
    cases r1 with
    | fail s1 =>
      simp only [Option.pure_def, Option.some.injEq] at h
      subst h
      exact ⟨(by intro q h; cases h), (by intro q h; cases h; exact (hs.2 s1 rfl).inv)⟩
    | go s1 =>
      simp only at h
      split_ifs at h with hc
      · exact ih s1 m1 r (hs.1 s1 rfl) h
      · simp only [Option.pure_def, Option.some.injEq] at h
        subst h
        refine ⟨?_, by intro q h; cases h⟩
        intro q h
        cases h
        refine ⟨(hs.1 s1 rfl).inv, ?_⟩
        intro d hd hr
        push Not at hc
        have := hc.2
        rw [Ne, Bool.not_eq_false, depsSatCheck, List.all_eq_true] at this
        have := this d hd
        rw [hr, Bool.false_or] at this
        exact this

theorem autoWith_legal (dia : Nat → Prog → Option (Prog × Bool)) (o : AutoOpts) (L : Libs) (hE : EmptyOracle L.isEmpty) (m : σ)
    (fuel : Nat) (d0 : DfsState) (p0 p : Prog) (hp : p0.InputOK)
    (hF : ∀ k, SkelOK k → FindOK True k find) (hdia : ∀ k, SkelOK k → DiaOK True k dia)
    (h : autoTransformWith find m o L dia fuel d0 p0 = some (.success p)) :
    (∀ d ∈ p0.deps, d.rar = false → ∀ s t q, p0.Inst d s t q →
      LexBefore (p.timestamp d.src s q) (p.timestamp d.dest t q)) ∧
    (p0.stmts ≠ [] → ∀ st ∈ p.stmts, st.trans.length = p.hProps.length ∧
      ∀ r ∈ st.trans, r.length = st.dim + p0.npar + 1) ∧
    List.Forall₂ (StmtRestored p0.npar) p0.stmts p.stmts ∧ List.Forall₂ DepRestored p0.deps p.deps := by
  unfold autoTransformWith at h
  simp only [Option.bind_eq_bind, Option.bind_eq_some_iff] at h
  obtain ⟨a, h1, h⟩ := h
  split_ifs at h with hs
  · simp only [Option.pure_def, Option.some.injEq, Outcome.success.injEq] at h
    have hd : p0.deps = [] := by
      by_contra hc
      obtain ⟨d, hd⟩ := List.exists_mem_of_ne_nil _ hc
      have := (hp.deps d hd).1
      rw [hs] at this
      simp at this
    refine ⟨by rw [hd]; simp, fun hne => absurd hs hne, ?_, ?_⟩
    · rw [← h, hs]; exact .nil
    · rw [← h]
      simp only [hd, List.map_nil]
      exact .nil
  · rw [Option.bind_eq_some_iff] at h
    obtain ⟨s, h2, h⟩ := h
    rw [Option.bind_eq_some_iff] at h
    obtain ⟨r, h3, h⟩ := h
    obtain ⟨k, hk, ha, hpad⟩ := init_spec (X := True) hE hp h1 h2
    have hl := autoLoopWith_spec hE (hF k hk) hk (hdia k hk) fuel s m r ha h3
    match r with
    | none => simp at h
    | some (.inr q) =>
      simp only [Option.bind_eq_bind, Option.bind_eq_some_iff] at h
      obtain ⟨_, _, h⟩ := h
      simp at h
    | some (.inl q) =>
      simp only [Option.bind_eq_bind, Option.bind_eq_some_iff] at h
      obtain ⟨p', h4, h⟩ := h
      simp only [Option.pure_def, Option.some.injEq, Outcome.success.injEq] at h
      subst h
      obtain ⟨hi, hsat⟩ := hl.1 q rfl
      obtain ⟨f1, f2, f3, f4⟩ := final_legal trivial hp hi (hpad q hi) hsat h4
      obtain ⟨g1, g2⟩ := restored_all hp f1
      exact ⟨f4, fun _ => f3, g1, g2⟩

theorem autoWith_restores (dia : Nat → Prog → Option (Prog × Bool)) (o : AutoOpts) (L : Libs) (hE : EmptyOracle L.isEmpty) (m : σ)
    (fuel : Nat) (d0 : DfsState) (p0 p : Prog) (hp : p0.InputOK)
    (hF : ∀ k, SkelOK k → FindOK False k find) (hdia : ∀ k, SkelOK k → DiaOK False k dia)
    (h : autoTransformWith find m o L dia fuel d0 p0 = some (.failed p)) :
    p.hProps = p0.hProps ∧ p.stmts.map (fun st => (st.trans, st.hypTypes)) = p0.stmts.map (fun st => (st.trans, st.hypTypes)) ∧
    List.Forall₂ (StmtRestored p0.npar) p0.stmts p.stmts ∧ List.Forall₂ DepRestored p0.deps p.deps := by
  unfold autoTransformWith at h
  simp only [Option.bind_eq_bind, Option.bind_eq_some_iff] at h
  obtain ⟨a, h1, h⟩ := h
  split_ifs at h with hs
  · simp at h
  · rw [Option.bind_eq_some_iff] at h
    obtain ⟨s, h2, h⟩ := h
    rw [Option.bind_eq_some_iff] at h
    obtain ⟨r, h3, h⟩ := h
    obtain ⟨k, hk, ha, hpad⟩ := init_spec (X := False) hE hp h1 h2
    have hl := autoLoopWith_spec hE (hF k hk) hk (hdia k hk) fuel s m r ha h3
    match r with
    | none => simp at h
    | some (.inl q) =>
      simp only [Option.bind_eq_bind, Option.bind_eq_some_iff] at h
      obtain ⟨_, _, h⟩ := h
      simp at h
    | some (.inr q) =>
      simp only [Option.bind_eq_bind, Option.bind_eq_some_iff] at h
      obtain ⟨p', h4, h⟩ := h
      simp only [Option.pure_def, Option.some.injEq, Outcome.failed.injEq] at h
      subst h
      have hi := hl.2 q rfl
      have hq := hpad q hi
      obtain ⟨p'', g1, g2, g3, g4⟩ := denormalize_spec hp hq (by
        intro st hst r hr
        rw [← hq.nvar, ← hq.npar]
        exact ((hi.rows st hst).2 r hr).1)
      rw [h4, Option.some.injEq] at g1
      subst g1
      obtain ⟨r1, r2⟩ := restored_all hp g2
      have hlen := List.forall₂_iff_get.mp r1
      refine ⟨rfl, ?_, ?_, r2⟩
      · apply List.ext_getElem?
        intro i
        simp only [List.getElem?_map, List.getElem?_zipWith]
        by_cases hi' : i < p0.stmts.length
        · rw [List.getElem?_eq_getElem hi', List.getElem?_eq_getElem (show i < p'.stmts.length by rw [← hlen.1]; exact hi')]
          rfl
        · rw [List.getElem?_eq_none (by omega)]
      · rw [List.forall₂_iff_get]
        refine ⟨by simp [hlen.1], fun i i1 i2 => ?_⟩
        have := hlen.2 i i1 (by rw [← hlen.1]; exact i1)
        simpa [restoreStmt, StmtRestored] using this

/-- With the plain search it is the automatic transformation of `autoTransform`. -/
theorem autoStepWith_plain (o : AutoOpts) (L : Libs) (dia : Nat → Prog → Option (Prog × Bool)) (req : Nat) (s : LoopState) (m : σ) :
    autoStepWith (fun m eager n a => (findPermutable o.toSearchOpts L eager n a.p).map (fun r => (m, r.1, r.2))) o L dia req s m =
      (autoStep o L dia req s).map (fun r => (r, m)) := by
  unfold autoStepWith autoStep
  cases noFuseCut o L s.a with
  | none => rfl
  | some a =>
    simp only [Option.bind_eq_bind, Option.bind_some]
    split_ifs
    · rfl
    · cases findPermutable o.toSearchOpts L s.eager (List.foldl max 0 (List.map (fun st => st.dimOrig - numIndHyps a.p st) a.p.stmts)) a.p with
      | none => rfl
      | some r =>
        simp only [Option.map_some, Option.bind_some]
        split_ifs
        · cases foundStep L dia { s with a := { a with p := r.1 }, found := maxIndHyps r.1 } r.2 with
          | none => rfl
          | some s1 => cases h : endStep L s1 <;> simp [h]
        · cases noneStep o L { s with a := { a with p := r.1 }, found := maxIndHyps r.1 } with
          | none => rfl
          | some r1 =>
            cases r1 with
            | fail s1 => rfl
            | go s1 => cases h : endStep L s1 <;> simp [h]

theorem autoLoopWith_plain (o : AutoOpts) (L : Libs) (dia : Nat → Prog → Option (Prog × Bool)) (req : Nat) (m : σ) :
    ∀ (fuel : Nat) (s : LoopState),
      autoLoopWith (fun m eager n a => (findPermutable o.toSearchOpts L eager n a.p).map (fun r => (m, r.1, r.2))) o L dia req fuel s m =
        autoLoop o L dia req fuel s := by
  intro fuel
  induction fuel with
  | zero => intro s; rfl
  | succ fuel ih =>
    intro s
    simp only [autoLoopWith, autoLoop, autoStepWith_plain]
    cases autoStep o L dia req s with
    | none => rfl
    | some r =>
      cases r with
      | fail s1 => rfl
      | go s1 =>
        simp only [Option.map_some, Option.bind_eq_bind, Option.bind_some, ih]

theorem autoTransformWith_plain (o : AutoOpts) (L : Libs) (dia : Nat → Prog → Option (Prog × Bool)) (m : σ) (fuel : Nat)
    (d0 : DfsState) (p0 : Prog) :
    autoTransformWith (fun m eager n a => (findPermutable o.toSearchOpts L eager n a.p).map (fun r => (m, r.1, r.2))) m o L dia fuel d0 p0 =
      autoTransform o L dia fuel d0 p0 := by
  unfold autoTransformWith autoTransform
  simp only [autoLoopWith_plain]
  rfl

end

end Pluto
