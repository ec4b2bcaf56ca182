import Verif.Spec.Polyloop

/-! A way to check `Prog.Info` on concrete programs. -/

namespace Pluto

/-- The data of `d` matches a table of signs. -/
def InfoTable (n : Nat) (d : Dep) (neg pos full : Nat → Bool) : Prop :=
  (d.satisfied = true ↔ ∃ l < n, full l = true) ∧
  ((∃ l < n, full l = true ∧ (∀ l' < l, full l' = false) ∧ d.satLevel = (l : Int)) ∨
    (∀ l < n, full l = false) ∧ d.satLevel = -1) ∧
  (d.satvec.length = n ∧ ∀ l < n, d.satvec[l]? = some ((neg l || pos l) && decide (∀ l' < l, full l' = false))) ∧
  d.dirvec.length = n ∧
  ∀ l < n, d.dirvec[l]? = some (match pos l, neg l with | true, true => .star | true, false => .plus | false, true => .minus | false, false => .zero)

instance (n : Nat) (d : Dep) (neg pos full : Nat → Bool) : Decidable (InfoTable n d neg pos full) := by
  unfold InfoTable; infer_instance

/-- The table is right. -/
def SignTable (p : Prog) (d : Dep) (neg pos full : Nat → Bool) : Prop :=
  ∀ l < p.hProps.length, (neg l = true ↔ ∃ s t q, p.Inst d s t q ∧ p.comp d l s t q < 0) ∧
    (pos l = true ↔ ∃ s t q, p.Inst d s t q ∧ 0 < p.comp d l s t q) ∧
    (full l = true ↔ ∀ s t q, p.Inst d s t q → 1 ≤ p.comp d l s t q)

theorem info_check {p : Prog} (h : ∀ d ∈ p.deps, ∃ neg pos full, SignTable p d neg pos full ∧
    InfoTable p.hProps.length d neg pos full) : p.Info := by
  refine ⟨?_, ?_, ?_, ?_, ?_, ?_⟩
  · intro d hd
    obtain ⟨neg, pos, full, h1, h2, _⟩ := h d hd
    rw [h2]
    exact exists_congr (fun l => and_congr_right (fun hl => (h1 l hl).2.2))
  · intro d hd l
    obtain ⟨neg, pos, full, h1, _, h2, _⟩ := h d hd
    have tr : ∀ l < p.hProps.length, full l = false ↔ ¬ ∀ s t q, p.Inst d s t q → 1 ≤ p.comp d l s t q := by
      intro l hl
      rw [← (h1 l hl).2.2]; simp
    rcases h2 with ⟨l0, a1, a2, a3, a4⟩ | ⟨a1, a2⟩
    · rw [a4]
      constructor
      · intro e
        have e : l0 = l := by exact_mod_cast e
        subst e
        exact ⟨a1, (h1 _ a1).2.2.mp a2, fun l' hl' => (tr l' (by omega)).mp (a3 l' hl')⟩
      · rintro ⟨b1, b2, b3⟩
        have : l0 = l := by
          rcases Nat.lt_trichotomy l0 l with hlt | he | hlt
          · exact absurd ((h1 _ a1).2.2.mp a2) (b3 l0 hlt)
          · exact he
          · exact absurd b2 ((tr l b1).mp (a3 l hlt))
        rw [this]
    · rw [a2]
      constructor
      · intro e; omega
      · rintro ⟨b1, b2, _⟩
        exact absurd b2 ((tr l b1).mp (a1 l b1))
  · intro d hd hs
    obtain ⟨neg, pos, full, h1, h0, h2, _⟩ := h d hd
    rcases h2 with ⟨l0, a1, a2, a3, a4⟩ | ⟨a1, a2⟩
    · rw [h0.mpr ⟨l0, a1, a2⟩] at hs; cases hs
    · exact a2
  · intro d hd _
    obtain ⟨neg, pos, full, h1, _, _, ⟨h2, h3⟩, _⟩ := h d hd
    refine ⟨h2, fun l hl => ?_⟩
    rw [h3 l hl]
    simp only [Option.some.injEq, Bool.and_eq_true, Bool.or_eq_true, decide_eq_true_eq]
    refine and_congr ?_ ?_
    · rw [(h1 l hl).1, (h1 l hl).2.1]
      constructor
      · rintro (⟨s, t, q, a, b⟩ | ⟨s, t, q, a, b⟩)
        · exact ⟨s, t, q, a, by omega⟩
        · exact ⟨s, t, q, a, by omega⟩
      · rintro ⟨s, t, q, a, b⟩
        rcases lt_or_gt_of_ne b with hb | hb
        · exact .inl ⟨s, t, q, a, hb⟩
        · exact .inr ⟨s, t, q, a, hb⟩
    · refine forall_congr' (fun l' => imp_congr_right (fun hl' => ?_))
      rw [← (h1 l' (by omega)).2.2]; simp
  · intro d hd
    obtain ⟨neg, pos, full, h1, _, _, _, h2, _⟩ := h d hd
    exact h2
  · intro d hd l dir hdir
    obtain ⟨neg, pos, full, h1, _, _, _, h2, h3⟩ := h d hd
    have hl : l < p.hProps.length := by rw [← h2]; exact (List.getElem?_eq_some_iff.mp hdir).1
    rw [h3 l hl, Option.some.injEq] at hdir
    rw [← (h1 l hl).1, ← (h1 l hl).2.1, ← hdir]
    cases pos l <;> cases neg l <;> simp

/-- A dependence with constant components. -/
theorem signTable_const {p : Prog} {d : Dep} (c : Nat → Int)
    (hc : ∀ l < p.hProps.length, ∀ s t q, p.Inst d s t q → p.comp d l s t q = c l) (he : ∃ s t q, p.Inst d s t q) :
    SignTable p d (fun l => decide (c l < 0)) (fun l => decide (0 < c l)) (fun l => decide (1 ≤ c l)) := by
  obtain ⟨s, t, q, h0⟩ := he
  intro l hl
  simp only [decide_eq_true_eq]
  refine ⟨⟨fun h => ⟨s, t, q, h0, by rw [hc l hl _ _ _ h0]; exact h⟩, ?_⟩,
    ⟨fun h => ⟨s, t, q, h0, by rw [hc l hl _ _ _ h0]; exact h⟩, ?_⟩,
    ⟨fun h s t q h1 => by rw [hc l hl _ _ _ h1]; exact h, fun h => by rw [← hc l hl _ _ _ h0]; exact h _ _ _ h0⟩⟩
  · rintro ⟨s, t, q, h1, h2⟩; rwa [hc l hl _ _ _ h1] at h2
  · rintro ⟨s, t, q, h1, h2⟩; rwa [hc l hl _ _ _ h1] at h2

end Pluto
