import Verif.Lemmas.AutoFind
import Verif.Lemmas.PadProg
import Verif.Lemmas.Unpad

/-! The main loop keeps the invariant. -/

namespace Pluto

section
variable {X : Prop} {k : Prog}

/-- What the loop needs from diamond tiling. -/
def DiaOK (X : Prop) (k : Prog) (dia : Nat → Prog → Option (Prog × Bool)) : Prop :=
  ∀ n p p' c, Inv X k p → n ≤ p.hProps.length → (X → Early p (p.hProps.length - n)) →
    dia n p = some (p', c) → Inv X k p' ∧ p'.hProps.length = p.hProps.length

theorem Inv.len_eq {p p' : Prog} (h : Inv X k p) (h' : Inv X k p') : p'.stmts.length = p.stmts.length := by
  rw [← sk_len h.sk, ← sk_len h'.sk]

theorem AInv.relabel {a : Auto} {p : Prog} (h : AInv X k a) (hi : Inv X k p)
    (hl : X → ∀ d, Live p d → ∃ d0, Live a.p d0 ∧ d0.src = d.src ∧ d0.dest = d.dest) : AInv X k { a with p := p } := by
  refine ⟨hi, ?_, ?_, h.edges⟩
  · show a.g.n = p.stmts.length
    rw [h.gn, h.inv.len_eq hi]
  · intro hX d hd
    obtain ⟨d0, h0, h1, h2⟩ := hl hX d hd
    show a.g.Edge _ _
    rw [← h1, ← h2]
    exact h.cover hX d0 h0

theorem AInv.sameDeps {a : Auto} {p : Prog} (hk : SkelOK k) (h : AInv X k a) (hi : Inv X k p)
    (hd : p.deps = a.p.deps) : AInv X k { a with p := p } := by
  refine h.relabel hi ?_
  intro _ d ⟨h1, h2, h3, s, t, q, h4⟩
  have h1' : d ∈ a.p.deps := by rw [← hd]; exact h1
  refine ⟨d, ⟨h1', h2, h3, s, t, q, ?_⟩, rfl, rfl⟩
  rw [hk.inst hi.sk h1] at h4
  rw [hk.inst h.inv.sk h1']
  exact h4

theorem updateLevels_spec {isEmpty : Cst → Bool} (hE : EmptyOracle isEmpty) (hk : SkelOK k) (n : Nat) :
    ∀ (a a' : Auto) (level : Nat), Inv X k a.p → a.g.n = a.p.stmts.length → level + n ≤ a.p.hProps.length →
      (n = 0 → AInv X k a) → updateLevels isEmpty a level n = some a' → AInv X k a' := by
  induction n with
  | zero =>
    intro a a' level _ _ _ h0 h
    simp only [updateLevels, Option.some.injEq] at h
    rw [← h]; exact h0 rfl
  | succ n ih =>
    intro a a' level hi hg hl _ h
    simp only [updateLevels, Option.bind_eq_bind, Option.bind_eq_some_iff] at h
    obtain ⟨⟨p, m⟩, h1, h2⟩ := h
    obtain ⟨i1, i2, _, _⟩ := hi.update hE hk (by omega) h1
    have hlen := hi.len_eq i1
    have hai : AInv X k { a with p := p, g := ddgUpdate a.g p } := by
      refine ⟨i1, ?_, ?_, edges_update i1.sk⟩
      · show a.g.n = _
        rw [hg, hlen]
      · intro _
        apply update_edge
        · rw [hg, hlen]
        · intro d hd
          exact ⟨(hk.dep i1.sk hd).src, (hk.dep i1.sk hd).dest⟩
    refine ih _ a' (level + 1) i1 hai.gn ?_ (fun _ => hai) h2
    have : p.hProps = a.p.hProps := by rw [i2]
    show _ ≤ p.hProps.length
    rw [this]; omega

theorem endStep_spec {L : Libs} (hE : EmptyOracle L.isEmpty) (hk : SkelOK k) {s s' : LoopState}
    (hi : AInv X k s.a) (h : endStep L s = some s') : AInv X k s'.a := by
  unfold endStep at h
  rw [Option.bind_eq_bind, Option.bind_eq_some_iff] at h
  obtain ⟨p, h1, h2⟩ := h
  simp only [Option.pure_def, Option.some.injEq] at h2
  rw [← h2]
  unfold preciseIfLazy at h1
  split_ifs at h1
  · simp only [Option.some.injEq] at h1
    rw [← h1]; exact hi
  · obtain ⟨⟨p', m⟩, h3, h4⟩ := Option.map_eq_some_iff.mp h1
    simp only at h4
    subst h4
    obtain ⟨i1, i2, i3⟩ := hi.inv.precise hE hk h3
    refine hi.relabel i1 ?_
    intro hX d hd
    rw [i2] at hd
    obtain ⟨d0, h0, e⟩ := (i3 hX).live hd
    exact ⟨d0, h0, (skel_src e).symm, (skel_dest e).symm⟩

theorem noFuseCut_spec {o : AutoOpts} {L : Libs} (hE : EmptyOracle L.isEmpty) (hk : SkelOK k) {a a' : Auto}
    (hi : AInv X k a) (h : noFuseCut o L a = some a') : AInv X k a' := by
  unfold noFuseCut at h
  split_ifs at h
  · rw [Option.bind_eq_bind, Option.bind_eq_some_iff] at h
    obtain ⟨a1, h1, h2⟩ := h
    obtain ⟨⟨a2, n⟩, h3, h4⟩ := Option.map_eq_some_iff.mp h2
    subst h4
    exact (cutAll_spec hE hk (computeScc_spec hi h1) h3).1.toAInv
  · simp only [Option.some.injEq] at h
    rw [← h]; exact hi

theorem fuseCut_spec {o : AutoOpts} {L : Libs} (hE : EmptyOracle L.isEmpty) (hk : SkelOK k) {depth : Nat}
    {a a' : Auto} (hi : CInv X k a) (h : fuseCut o L depth a = some a') : CInv X k a' := by
  have key : (a.cutAll L.isEmpty).map (·.1) = some a' → CInv X k a' := by
    intro h
    obtain ⟨⟨a2, n⟩, h3, h4⟩ := Option.map_eq_some_iff.mp h
    subst h4
    exact (cutAll_spec hE hk hi h3).1
  unfold fuseCut at h
  cases hf : o.fuse with
  | no => rw [hf] at h; exact key h
  | smart => rw [hf] at h; exact cutSmart_spec hE hk hi h
  | max =>
    rw [hf] at h
    simp only at h
    split_ifs at h
    · exact key h
    · exact cutConservative_spec hE hk hi h

theorem noneStep_spec {o : AutoOpts} {L : Libs} (hE : EmptyOracle L.isEmpty) (hk : SkelOK k) {s : LoopState}
    {r : StepRes} (hi : AInv X k s.a) (h : noneStep o L s = some r) :
    (∀ s', r = .go s' → AInv X k s'.a) ∧ (∀ s', r = .fail s' → AInv X k s'.a) := by
  unfold noneStep at h
  rw [Option.bind_eq_bind, Option.bind_eq_some_iff] at h
  obtain ⟨a, h1, h⟩ := h
  have hc := computeScc_spec hi h1
  simp only at h
  split_ifs at h
  · rw [Option.bind_eq_some_iff] at h
    obtain ⟨a', h2, h3⟩ := h
    simp only [Option.pure_def, Option.some.injEq] at h3
    subst h3
    refine ⟨?_, by intro s' h'; cases h'⟩
    intro s' h'
    cases h'
    exact (fuseCut_spec hE hk hc h2).toAInv
  all_goals
    simp only [Option.pure_def, Option.some.injEq] at h
    subst h
    constructor
    · intro s' h'
      cases h'
      try exact hc.toAInv
    · intro s' h'
      cases h'
      try exact hc.toAInv

theorem foundStep_spec {L : Libs} {dia : Nat → Prog → Option (Prog × Bool)} (hE : EmptyOracle L.isEmpty)
    (hk : SkelOK k) (hd : DiaOK X k dia) {s s' : LoopState} {n : Nat} (hi : Inv X k s.a.p)
    (hg : s.a.g.n = s.a.p.stmts.length) (hn : 1 ≤ n)
    (hnl : n ≤ s.a.p.hProps.length) (he : X → Early s.a.p (s.a.p.hProps.length - n))
    (h : foundStep L dia s n = some s') : AInv X k s'.a := by
  unfold foundStep at h
  rw [Option.bind_eq_bind, Option.bind_eq_some_iff] at h
  obtain ⟨s1, h1, h⟩ := h
  have hs1 : Inv X k s1.a.p ∧ s1.a.g.n = s1.a.p.stmts.length := by
    unfold diaStep at h1
    split_ifs at h1
    · rw [Option.bind_eq_bind, Option.bind_eq_some_iff] at h1
      obtain ⟨⟨p', c⟩, h2, h3⟩ := h1
      simp only [Option.pure_def, Option.some.injEq] at h3
      subst h3
      obtain ⟨i1, _⟩ := hd _ _ _ _ hi hnl he h2
      exact ⟨i1, by show s.a.g.n = p'.stmts.length; rw [hg, hi.len_eq i1]⟩
    · simp only [Option.some.injEq] at h1
      subst h1
      exact ⟨hi, hg⟩
  rw [Option.bind_eq_bind, Option.bind_eq_some_iff] at h
  obtain ⟨m, h2, h⟩ := h
  have hm : m = s1.a.p.hProps.length := by
    unfold nrows0 at h2
    obtain ⟨st, h3, h4⟩ := Option.map_eq_some_iff.mp h2
    rw [← h4]
    exact (hs1.1.rows st (List.mem_of_getElem? h3)).1
  split_ifs at h with hlt
  rw [Option.bind_eq_bind, Option.bind_eq_some_iff] at h
  obtain ⟨a, h3, h⟩ := h
  simp only [Option.pure_def, Option.some.injEq] at h
  rw [← h]
  exact updateLevels_spec hE hk n _ a _ hs1.1 hs1.2 (by omega) (by omega) h3

theorem autoStep_spec {o : AutoOpts} {L : Libs} {dia : Nat → Prog → Option (Prog × Bool)}
    (hE : EmptyOracle L.isEmpty) (hL : FeasibleOracle L.solve) (hk : SkelOK k) (hd : DiaOK X k dia) {req : Nat}
    {s : LoopState} {r : StepRes} (hi : AInv X k s.a) (h : autoStep o L dia req s = some r) :
    (∀ s', r = .go s' → AInv X k s'.a) ∧ (∀ s', r = .fail s' → AInv X k s'.a) := by
  unfold autoStep at h
  rw [Option.bind_eq_bind, Option.bind_eq_some_iff] at h
  obtain ⟨a, h1, h⟩ := h
  have ha := noFuseCut_spec hE hk hi h1
  simp only at h
  split_ifs at h
  rw [Option.bind_eq_bind, Option.bind_eq_some_iff] at h
  obtain ⟨⟨p, n⟩, h2, h⟩ := h
  obtain ⟨i1, i2, i3, i4⟩ := findPermutable_spec o.toSearchOpts L hL hk s.eager _ p n ha.inv h2
  have hp := ha.sameDeps hk i1 i2
  simp only at h
  split_ifs at h with hn
  · have hnl : n ≤ p.hProps.length := by rw [i3]; omega
    have he : X → Early p (p.hProps.length - n) := by
      rw [i3, Nat.add_sub_cancel]; exact i4
    rw [Option.bind_eq_bind, Option.bind_eq_some_iff] at h
    obtain ⟨s1, h3, h⟩ := h
    rw [Option.bind_eq_some_iff] at h
    obtain ⟨s2, h4, h⟩ := h
    simp only [Option.pure_def, Option.some.injEq] at h
    subst h
    have := endStep_spec hE hk (foundStep_spec hE hk hd i1 hp.gn hn hnl he h3) h4
    exact ⟨by intro s' h'; cases h'; exact this, by intro s' h'; cases h'⟩
  · rw [Option.bind_eq_bind, Option.bind_eq_some_iff] at h
    obtain ⟨r1, h3, h⟩ := h
    have hr := noneStep_spec hE hk hp h3
    cases r1 with
    | fail s1 =>
      simp only [Option.pure_def, Option.some.injEq] at h
      subst h
      exact ⟨(by intro s' h'; cases h'), (by intro s' h'; cases h'; exact hr.2 s1 rfl)⟩
    | go s1 =>
      simp only [Option.bind_eq_bind, Option.bind_eq_some_iff] at h
      obtain ⟨s2, h4, h⟩ := h
      simp only [Option.pure_def, Option.some.injEq] at h
      subst h
      have := endStep_spec hE hk (hr.1 s1 rfl) h4
      exact ⟨by intro s' h'; cases h'; exact this, by intro s' h'; cases h'⟩

theorem autoLoop_spec {o : AutoOpts} {L : Libs} {dia : Nat → Prog → Option (Prog × Bool)}
    (hE : EmptyOracle L.isEmpty) (hL : FeasibleOracle L.solve) (hk : SkelOK k) (hd : DiaOK X k dia) {req : Nat}
    (fuel : Nat) : ∀ (s : LoopState) (r : Option (Prog ⊕ Prog)), AInv X k s.a → autoLoop o L dia req fuel s = some r →
      (∀ q, r = some (.inl q) → Inv X k q ∧ ∀ d ∈ q.deps, d.rar = false → d.satisfied = true) ∧
      (∀ q, r = some (.inr q) → Inv X k q) := by
  induction fuel with
  | zero =>
    intro s r _ h
    simp only [autoLoop, Option.some.injEq] at h
    subst h
    exact ⟨(by intro q h; cases h), (by intro q h; cases h)⟩
  | succ fuel ih =>
    intro s r hi h
    simp only [autoLoop, Option.bind_eq_bind, Option.bind_eq_some_iff] at h
    obtain ⟨r1, h1, h⟩ := h
    have hs := autoStep_spec hE hL hk hd hi h1
    cases r1 with
    | fail s1 =>
      simp only [Option.pure_def, Option.some.injEq] at h
      subst h
      exact ⟨(by intro q h; cases h), (by intro q h; cases h; exact (hs.2 s1 rfl).inv)⟩
    | go s1 =>
      simp only at h
      split_ifs at h with hc
      · exact ih s1 r (hs.1 s1 rfl) h
      · simp only [Option.pure_def, Option.some.injEq] at h
        subst h
        refine ⟨?_, by intro q h; cases h⟩
        intro q h
        cases h
        refine ⟨(hs.1 s1 rfl).inv, ?_⟩
        intro d hd hr
        push Not at hc
        have := hc.2
        rw [Ne, Bool.not_eq_false, depsSatCheck, List.all_eq_true] at this
        have := this d hd
        rw [hr, Bool.false_or] at this
        exact this

end

end Pluto
