import Verif.Lemmas.Ddg

namespace Pluto

/-! Connected components. -/

theorem edge_undirected (g : Graph) (i j : Nat) :
    g.undirected.Edge i j ↔ g.Edge i j ∨ g.Edge j i := by
  unfold Graph.Edge Graph.undirected
  simp only
  constructor
  · rintro ⟨hi, hj, h⟩
    split_ifs at h
    · exact Or.inr ⟨hj, hi, h⟩
    · exact Or.inl ⟨hi, hj, h⟩
    · exact Or.inl ⟨hi, hj, h⟩
    · exact Or.inr ⟨hj, hi, h⟩
  · rintro (⟨hi, hj, h⟩ | ⟨hj, hi, h⟩)
    · refine ⟨hi, hj, ?_⟩
      split_ifs <;> assumption
    · refine ⟨hi, hj, ?_⟩
      split_ifs <;> assumption

theorem reach_undirected (g : Graph) (i j : Nat) : g.undirected.Reach i j ↔ g.Connected i j := by
  unfold Graph.Reach Graph.Connected
  rw [show g.undirected.Edge = fun i j => g.Edge i j ∨ g.Edge j i from by
    funext a b; exact propext (edge_undirected g a b)]

theorem connected_symm {g : Graph} {i j : Nat} (h : g.Connected i j) : g.Connected j i := by
  unfold Graph.Connected at *
  induction h with
  | refl => exact Relation.ReflTransGen.refl
  | tail _ e ih => exact Relation.ReflTransGen.head (Or.symm e) ih

/-- `i` is the first vertex of its connected component. -/
def Graph.Leader (g : Graph) (i : Nat) : Prop := ∀ j < i, ¬ g.Connected j i

open Classical in
/-- Number of components with a vertex below `k`. -/
noncomputable def leaders (g : Graph) (k : Nat) : Nat := ((Finset.range k).filter g.Leader).card

open Classical in
theorem leaders_succ (g : Graph) (k : Nat) :
    leaders g (k + 1) = leaders g k + if g.Leader k then 1 else 0 := by
  unfold leaders
  rw [Finset.range_add_one, Finset.filter_insert]
  split_ifs
  · rw [Finset.card_insert_of_notMem]; simp
  · rfl

open Classical in
theorem leaders_mono (g : Graph) (a b : Nat) (hab : a ≤ b) : leaders g a ≤ leaders g b := by
  unfold leaders
  apply Finset.card_le_card
  apply Finset.filter_subset_filter
  intro x; simp only [Finset.mem_range]; omega

theorem cc_fold (g : Graph) (z : DfsState) (hz : ∀ x, z.vn x = 0) : ∀ k ≤ g.n,
    ∃ s, (List.range k).foldlM (ccStep g.undirected) (z, -1, fun _ => -1) = some s ∧
      Visit g.undirected z s.1 ∧
      (∀ x < g.n, s.1.vn x ≠ 0 ↔ ∃ j < k, g.Connected j x) ∧
      s.2.1 + 1 = leaders g k ∧ ∀ i < k, s.2.2 i + 1 = leaders g (i + 1) := by
  intro k
  induction k with
  | zero =>
    intro _
    refine ⟨_, rfl, Visit.refl' _ rfl rfl rfl, ?_, ?_, ?_⟩
    · intro x _; simp [hz x]
    · simp [leaders]
    · intro i hi; omega
  | succ k ih =>
    intro hk
    obtain ⟨s, e, hv, hvis, hnum, hres⟩ := ih (by omega)
    have hzok : z.Ok := fun x => by rw [hz x]; omega
    rw [List.range_succ, List.foldlM_append, e]
    simp only [List.foldlM_cons, List.foldlM_nil]
    show ∃ t, (ccStep g.undirected s k).bind some = some t ∧ _
    rw [Option.bind_fun_some]
    have hlead : s.1.vn k = 0 ↔ g.Leader k := by
      have := hvis k (by omega)
      unfold Graph.Leader
      constructor
      · intro h0 j hj hc
        exact this.mpr ⟨j, hj, hc⟩ h0
      · intro h
        by_contra h0
        obtain ⟨j, hj, hc⟩ := this.mp h0
        exact h j hj hc
    by_cases h0 : s.1.vn k = 0
    · obtain ⟨d, e', hvd, hdk, hreach⟩ := dfsVertex_n g.undirected k
        { s.1 with cc := upd s.1.cc k (s.2.1 + 1) } (show k < g.n by omega) h0 (hv.ok hzok)
      have hvd' : Visit g.undirected s.1 d :=
        Visit.trans (s' := { s.1 with cc := upd s.1.cc k (s.2.1 + 1) }) (hv.ok hzok)
          (Visit.refl' _ rfl rfl rfl) hvd
      have hvz := hv.trans hzok hvd'
      refine ⟨_, by unfold ccStep; simp only at e'; rw [if_pos h0]; simp only; rw [e']; rfl, ?_, ?_, ?_, ?_⟩
      · exact hvz.trans hzok (Visit.refl' _ rfl rfl rfl)
      · intro x hx
        show d.vn x ≠ 0 ↔ _
        constructor
        · intro h
          by_cases hx0 : s.1.vn x = 0
          · exact ⟨k, by omega, (reach_undirected g k x).mp (hreach x hx0 h)⟩
          · obtain ⟨j, hj, hc⟩ := (hvis x hx).mp hx0
            exact ⟨j, by omega, hc⟩
        · rintro ⟨j, hj, hc⟩
          by_cases hjk : j = k
          · subst hjk
            exact visited_closed hvz hz hdk ((reach_undirected g j x).mpr hc)
          · have : s.1.vn x ≠ 0 := (hvis x hx).mpr ⟨j, by omega, hc⟩
            rw [hvd'.vn_old x this]; exact this
      · show s.2.1 + 1 + 1 = _
        rw [leaders_succ, if_pos (hlead.mp h0)]
        push_cast; omega
      · intro i hi
        show upd s.2.2 k (s.2.1 + 1) i + 1 = _
        unfold upd
        by_cases hik : i = k
        · subst hik
          rw [if_pos rfl, leaders_succ, if_pos (hlead.mp h0)]
          push_cast; omega
        · rw [if_neg hik]; exact hres i (by omega)
    · refine ⟨_, by unfold ccStep; rw [if_neg h0], ?_, ?_, ?_, ?_⟩
      · exact hv.trans hzok (Visit.refl' _ rfl rfl rfl)
      · intro x hx
        show s.1.vn x ≠ 0 ↔ _
        rw [hvis x hx]
        constructor
        · rintro ⟨j, hj, hc⟩; exact ⟨j, by omega, hc⟩
        · rintro ⟨j, hj, hc⟩
          by_cases hjk : j = k
          · subst hjk
            obtain ⟨l, hl, hlc⟩ := (hvis j (by omega)).mp h0
            exact ⟨l, hl, hlc.trans hc⟩
          · exact ⟨j, by omega, hc⟩
      · show s.2.1 + 1 = _
        rw [leaders_succ, if_neg (fun h => h0 (hlead.mpr h))]
        push_cast; omega
      · intro i hi
        show upd s.2.2 k s.2.1 i + 1 = _
        unfold upd
        by_cases hik : i = k
        · subst hik
          rw [if_pos rfl, leaders_succ, if_neg (fun h => h0 (hlead.mpr h))]
          push_cast; omega
        · rw [if_neg hik]; exact hres i (by omega)

theorem cc_spec (g : Graph) (s0 : DfsState) : ∃ cc, ddgComputeCc g s0 = some (cc, leaders g g.n) ∧
    ∀ i < g.n, cc i + 1 = leaders g (i + 1) := by
  obtain ⟨s, e, _, _, hnum, hres⟩ := cc_fold g { s0 with vn := fun _ => 0, time := 0 } (fun _ => rfl) g.n
    (le_refl _)
  refine ⟨s.2.2, ?_, hres⟩
  unfold ddgComputeCc
  rw [e]
  show some (s.2.2, (s.2.1 + 1).toNat) = _
  rw [hnum]; rfl

/-! Transitive closure. -/

/-- One assignment of the closure. -/
def tcStep (a : Nat → Nat → Nat) (i j k : Nat) : Nat → Nat → Nat :=
  upd a i (upd (a i) j (if a i j ≠ 0 ∨ (a i k ≠ 0 ∧ a k j ≠ 0) then 1 else 0))

theorem tcStep_mono (a : Nat → Nat → Nat) (i j k x y : Nat) (h : a x y ≠ 0) : tcStep a i j k x y ≠ 0 := by
  unfold tcStep upd
  by_cases hx : x = i
  · subst hx
    by_cases hy : y = j
    · subst hy; simp [h]
    · simp [hy, h]
  · simp [hx, h]

/-- Folding monotone steps is monotone, and whatever one step establishes persists. -/
theorem fold_mono {β : Type} (P : β → Prop) {γ : Type} (f : β → γ → β) (hf : ∀ b c, P b → P (f b c)) :
    ∀ (l : List γ) (b : β), P b → P (l.foldl f b) := by
  intro l
  induction l with
  | nil => intro b h; exact h
  | cons c l ih => intro b h; exact ih _ (hf b c h)

theorem fold_est {β γ : Type} (P Q : β → Prop) (f : β → γ → β) (hQ : ∀ b c, Q b → Q (f b c))
    (hP : ∀ b c, P b → P (f b c)) {c : γ} (hc : ∀ b, Q b → P (f b c)) :
    ∀ (l : List γ) (b : β), c ∈ l → Q b → P (l.foldl f b) := by
  intro l
  induction l with
  | nil => intro b h; simp at h
  | cons x l ih =>
    intro b hm hq
    rcases List.mem_cons.mp hm with rfl | hm
    · exact fold_mono P f hP l _ (hc b hq)
    · exact ih _ hm (hQ b x hq)

theorem tc_two (g : Graph) {i k j : Nat} (h1 : g.Edge i k) (h2 : g.Edge k j) :
    (transitiveClosure g).adj i j ≠ 0 := by
  have hQ1 : ∀ (a : Nat → Nat → Nat) (i' j' k' : Nat), (a i k ≠ 0 ∧ a k j ≠ 0) →
      (tcStep a i' j' k' i k ≠ 0 ∧ tcStep a i' j' k' k j ≠ 0) := fun a i' j' k' h =>
    ⟨tcStep_mono _ _ _ _ _ _ h.1, tcStep_mono _ _ _ _ _ _ h.2⟩
  have hP1 : ∀ (a : Nat → Nat → Nat) (i' j' k' : Nat), a i j ≠ 0 → tcStep a i' j' k' i j ≠ 0 :=
    fun a i' j' k' h => tcStep_mono _ _ _ _ _ _ h
  refine fold_est (fun a : Nat → Nat → Nat => a i j ≠ 0) (fun a : Nat → Nat → Nat => a i k ≠ 0 ∧ a k j ≠ 0) _
    (fun a i' h => fold_mono (fun a : Nat → Nat → Nat => a i k ≠ 0 ∧ a k j ≠ 0) _ (fun a j' h => fold_mono (fun a : Nat → Nat → Nat => a i k ≠ 0 ∧ a k j ≠ 0) _ (fun a k' h => hQ1 a i' j' k' h) _ _ h) _ _ h)
    (fun a i' h => fold_mono (fun a : Nat → Nat → Nat => a i j ≠ 0) _
      (fun a j' h => fold_mono (fun a : Nat → Nat → Nat => a i j ≠ 0) _ (fun a k' h => hP1 a i' j' k' h)
        _ _ h) _ _ h)
    (c := i) ?_ (List.range g.n) g.adj (by simpa using h1.1) ⟨h1.2.2, h2.2.2⟩
  intro a ha
  refine fold_est (fun a : Nat → Nat → Nat => a i j ≠ 0) (fun a : Nat → Nat → Nat => a i k ≠ 0 ∧ a k j ≠ 0) _
    (fun a j' h => fold_mono (fun a : Nat → Nat → Nat => a i k ≠ 0 ∧ a k j ≠ 0) _ (fun a k' h => hQ1 a i j' k' h) _ _ h)
    (fun a j' h => fold_mono (fun a : Nat → Nat → Nat => a i j ≠ 0) _ (fun a k' h => hP1 a i j' k' h) _ _ h)
    (c := j) ?_ (List.range g.n) a (by simpa using h2.2.1) ha
  intro a ha
  refine fold_est (fun a : Nat → Nat → Nat => a i j ≠ 0) (fun a : Nat → Nat → Nat => a i k ≠ 0 ∧ a k j ≠ 0) _
    (fun a k' h => hQ1 a i j k' h) (fun a k' h => hP1 a i j k' h) (c := k) ?_ (List.range g.n) a (by simpa using h1.2.1) ha
  intro a ha
  show tcStep a i j k i j ≠ 0
  unfold tcStep upd
  simp [ha.1, ha.2]

theorem tc_edge (g : Graph) {i j : Nat} (h : g.adj i j ≠ 0) : (transitiveClosure g).adj i j ≠ 0 :=
  fold_mono (fun a : Nat → Nat → Nat => a i j ≠ 0) _
    (fun _ i' h => fold_mono (fun a : Nat → Nat → Nat => a i j ≠ 0) _
      (fun _ j' h => fold_mono (fun a : Nat → Nat → Nat => a i j ≠ 0) _
        (fun a k' h => tcStep_mono a i' j' k' i j h) _ _ h) _ _ h) _ _ h

theorem foldl_mem_inv {β γ : Type} (P : β → Prop) (f : β → γ → β) : ∀ (l : List γ) (b : β),
    (∀ b, ∀ c ∈ l, P b → P (f b c)) → P b → P (l.foldl f b) := by
  intro l
  induction l with
  | nil => intro b _ h; exact h
  | cons c l ih =>
    intro b hf h
    exact ih _ (fun b c' hc' => hf b c' (by simp [hc'])) (hf b c (by simp) h)

theorem tc_sound (g : Graph) : ∀ i j, i < g.n → j < g.n → (transitiveClosure g).adj i j ≠ 0 → g.Path i j := by
  have key : ∀ (a : Nat → Nat → Nat) (i' j' k' : Nat), i' < g.n → j' < g.n → k' < g.n →
      (∀ i j, i < g.n → j < g.n → a i j ≠ 0 → g.Path i j) →
      ∀ i j, i < g.n → j < g.n → tcStep a i' j' k' i j ≠ 0 → g.Path i j := by
    intro a i' j' k' hi' hj' hk' h i j hi hj hne
    unfold tcStep upd at hne
    by_cases hx : i = i'
    · subst hx
      by_cases hy : j = j'
      · subst hy
        simp only [if_true] at hne
        split_ifs at hne with hc
        · rcases hc with hc | ⟨hc1, hc2⟩
          · exact h i j hi hj hc
          · exact Relation.TransGen.trans (h i k' hi hk' hc1) (h k' j hk' hj hc2)
        · omega
      · simp only [if_true, hy, if_false] at hne
        exact h i j hi hj hne
    · simp only [hx, if_false] at hne
      exact h i j hi hj hne
  refine foldl_mem_inv (fun a : Nat → Nat → Nat => ∀ i j, i < g.n → j < g.n → a i j ≠ 0 → g.Path i j) _ _ _
    ?_ ?_
  · intro a i' hi' h
    refine foldl_mem_inv (fun a : Nat → Nat → Nat => ∀ i j, i < g.n → j < g.n → a i j ≠ 0 → g.Path i j)
      _ _ _ ?_ h
    intro a j' hj' h
    refine foldl_mem_inv (fun a : Nat → Nat → Nat => ∀ i j, i < g.n → j < g.n → a i j ≠ 0 → g.Path i j)
      _ _ _ ?_ h
    intro a k' hk' h
    exact key a i' j' k' (by simpa using hi') (by simpa using hj') (by simpa using hk') h
  · intro i j hi hj h
    exact Relation.TransGen.single ⟨hi, hj, h⟩

/-! Edge weights. -/

theorem countDeps_spec (i j : Nat) : ∀ (deps : List Dep) (a : Nat → Nat → Nat), countDeps deps a i j = a i j +
    deps.countP (fun d => d.src == i && d.dest == j && !d.rar && !d.satisfied) := by
  intro deps
  induction deps with
  | nil => intro a; simp [countDeps]
  | cons d deps ih =>
    intro a
    unfold countDeps at ih ⊢
    rw [List.foldl_cons, ih, List.countP_cons]
    cases hr : d.rar
    · simp only [Bool.false_eq_true, if_false, Bool.not_false, Bool.and_true]
      unfold upd
      by_cases h1 : i = d.src
      · by_cases h2 : j = d.dest
        · subst h1; subst h2
          cases d.satisfied <;> simp <;> omega
        · have : ¬ d.dest = j := fun h => h2 h.symm
          simp [h1, h2, this]
      · have : ¬ d.src = i := fun h => h1 h.symm
        simp [h1, this]
    · simp

end Pluto
