import Verif.Props.ReuseExamples

/-! C69: the decision of `is_unroll_jam_profitable` in terms of the largest counts over the innermost loops. -/

namespace Pluto

theorem mapM_max_greatest {α : Type} (f : α → Option Nat) (gs : List α) (ns : List Nat) (h : gs.mapM f = some ns) (t : Nat)
    (ht : IsGreatest {n | ∃ g ∈ gs, f g = some n} t) : ns.foldl max 0 = t := by
  have hf := mapM_forall₂ _ _ _ h
  apply le_antisymm
  · by_contra hlt
    have hne : ns.foldl max 0 ≠ 0 := by omega
    have hmem : ∀ (l : List Nat) (z : Nat), l.foldl max z = z ∨ l.foldl max z ∈ l := by
      intro l
      induction l with
      | nil => intro z; left; rfl
      | cons x l ih =>
        intro z
        rw [List.foldl_cons]
        rcases ih (max z x) with h1 | h1
        · rw [h1]
          rcases Nat.le_total z x with h2 | h2
          · right; rw [Nat.max_eq_right h2]; simp
          · left; exact Nat.max_eq_left h2
        · right; exact List.mem_cons_of_mem _ h1
    rcases hmem ns 0 with h1 | h1
    · exact hne h1
    · obtain ⟨g, hg, hgn⟩ := forall₂_mem_of_left hf.flip h1
      exact hlt (ht.2 ⟨g, hg, hgn⟩)
  · obtain ⟨g, hg, hgt⟩ := ht.1
    obtain ⟨n, hn, hng⟩ := forall₂_mem_of_left hf hg
    have : n = t := by rw [hgt] at hng; exact (Option.some.inj hng).symm
    exact this ▸ (foldl_max_ge ns 0).2 n hn

/-- C69, the decision of `is_unroll_jam_profitable`: with `t` the largest number of different accesses of an innermost body
that are invariant in the loop, and `a` the largest number of different accesses of an innermost body, jamming the loop `u`
times is accepted exactly if some access is invariant and `a * u - t * (u - 1)` elements fit in 32 registers. -/
theorem C69_profitable_exact (p : Prog) (A : Accs) (L : Loop) (u : Nat) (b : Bool) (gs : List (List Nat))
    (hgs : innermostGroups p L = some gs) (h : unrollJamProfitable p A u L = some b) (t a : Nat)
    (ht : IsGreatest {n | ∃ g ∈ gs, numUniqueInvariant p A g L.depth = some n} t)
    (ha : IsGreatest {n | ∃ g ∈ gs, numUnique p A g = some n} a) :
    b = true ↔ 1 ≤ t ∧ (a : Int) * u - t * (u - 1) ≤ 32 := by
  unfold unrollJamProfitable at h
  simp only [Option.bind_eq_bind, Option.bind_eq_some_iff] at h
  obtain ⟨t', ht', h⟩ := h
  unfold maxInvariant at ht'
  rw [hgs] at ht'
  simp only [Option.bind_eq_bind, Option.bind_some, Option.bind_eq_some_iff, pure, Option.some.injEq] at ht'
  obtain ⟨ns, hns, rfl⟩ := ht'
  rw [mapM_max_greatest _ _ _ hns t ht] at h
  by_cases h0 : t = 0
  · rw [if_pos h0] at h
    cases h
    simp [h0]
  rw [if_neg h0] at h
  simp only [Option.bind_eq_some_iff, pure, Option.some.injEq] at h
  obtain ⟨a', ha', h⟩ := h
  unfold maxUnique at ha'
  rw [hgs] at ha'
  simp only [Option.bind_eq_bind, Option.bind_some, Option.bind_eq_some_iff, pure, Option.some.injEq] at ha'
  obtain ⟨ms, hms, rfl⟩ := ha'
  rw [mapM_max_greatest _ _ _ hms a ha] at h
  rw [← h, decide_eq_true_eq]
  unfold numRegisters
  constructor
  · intro h1; exact ⟨by omega, by linarith⟩
  · intro h1; linarith [h1.2]

/-- C69. If `is_unroll_jam_profitable` says yes, then some innermost body has an access that touches the same element in all
iterations that differ in the jammed loop only. -/
theorem C69_profitable_reuse (p : Prog) (hT : p.TransOK) (A : Accs) (L : Loop) (u : Nat) (gs : List (List Nat))
    (hgs : innermostGroups p L = some gs) (hA : ∀ g ∈ gs, ∀ i ∈ g, ∀ a ∈ A i, a.mat.WF)
    (h : unrollJamProfitable p A u L = some true) :
    ∃ g ∈ gs, ∃ i ∈ g, ∃ a ∈ A i, ∀ x x' q, p.Along i L.depth x x' q → a.elem x q = a.elem x' q := by
  unfold unrollJamProfitable at h
  simp only [Option.bind_eq_bind, Option.bind_eq_some_iff] at h
  obtain ⟨t, ht, h⟩ := h
  by_cases h0 : t = 0
  · rw [if_pos h0] at h; cases h
  clear h
  unfold maxInvariant at ht
  rw [hgs] at ht
  simp only [Option.bind_eq_bind, Option.bind_some, Option.bind_eq_some_iff, pure, Option.some.injEq] at ht
  obtain ⟨ns, hns, rfl⟩ := ht
  have hpos : ∃ n ∈ ns, n ≠ 0 := by
    by_contra hc
    push Not at hc
    apply h0
    have : ∀ l : List Nat, (∀ n ∈ l, n = 0) → l.foldl max 0 = 0 := by
      intro l
      induction l with
      | nil => intro _; rfl
      | cons x l ih =>
        intro hl
        rw [List.foldl_cons, hl x (by simp)]
        exact ih (fun n hn => hl n (List.mem_cons_of_mem _ hn))
    exact this ns hc
  obtain ⟨n, hn, hn0⟩ := hpos
  obtain ⟨g, hg, htg⟩ := forall₂_mem_of_left (mapM_forall₂ _ _ _ hns).flip hn
  refine ⟨g, hg, ?_⟩
  unfold numUniqueInvariant at htg
  simp only [Option.bind_eq_bind, Option.bind_eq_some_iff, pure, Option.some.injEq] at htg
  obtain ⟨us, hus, hf⟩ := htg
  have hne : us.filter (fun a => accInvariant a.mat L.depth) ≠ [] := by
    intro hc; rw [hc] at hf; simp at hf; omega
  obtain ⟨b, hb⟩ := List.exists_mem_of_ne_nil _ hne
  rw [List.mem_filter] at hb
  obtain ⟨i, hi, a, ha, hab⟩ := (uniqueAccesses_spec hus).2.2 b hb.1
  exact ⟨i, hi, a, ha, fun x x' q' hx => invariant_same hT (hA g hg i hi a ha) hab hx.len hx.len' hx.params hx.same hb.2⟩

/-- A loop over two nests meets the hypotheses of both. -/
example : innermostGroups exTwoInner ⟨0, [0, 1]⟩ = some [[0], [1]] ∧ unrollJamProfitable exTwoInner twoAccs 4 ⟨0, [0, 1]⟩ = some true ∧
    IsGreatest {n | ∃ g ∈ [[0], [1]], numUniqueInvariant exTwoInner twoAccs g 0 = some n} 3 ∧
    IsGreatest {n | ∃ g ∈ [[0], [1]], numUnique exTwoInner twoAccs g = some n} 10 := by
  refine ⟨by decide +kernel, by decide +kernel, ⟨⟨[1], by simp, by decide +kernel⟩, ?_⟩, ⟨⟨[0], by simp, by decide +kernel⟩, ?_⟩⟩
  · rintro n ⟨g, hg, h⟩
    simp only [List.mem_cons, List.not_mem_nil, or_false] at hg
    rcases hg with rfl | rfl
    · rw [show numUniqueInvariant exTwoInner twoAccs [0] 0 = some 0 by decide +kernel] at h; cases h; omega
    · rw [show numUniqueInvariant exTwoInner twoAccs [1] 0 = some 3 by decide +kernel] at h; cases h; omega
  · rintro n ⟨g, hg, h⟩
    simp only [List.mem_cons, List.not_mem_nil, or_false] at hg
    rcases hg with rfl | rfl
    · rw [show numUnique exTwoInner twoAccs [0] = some 10 by decide +kernel] at h; cases h; omega
    · rw [show numUnique exTwoInner twoAccs [1] = some 3 by decide +kernel] at h; cases h; omega

end Pluto
