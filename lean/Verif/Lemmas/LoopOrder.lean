import Verif.Lemmas.Polyloop

/-! The statements of a loop come in the order of their numbers. -/

namespace Pluto

/-- Increasing. -/
def Inc (l : List Nat) : Prop := l.Pairwise (· < ·)

theorem addToGroup_inc {p : Prog} {level i : Nat} : ∀ (gs gs' : List (List Nat)),
    addToGroup p level i gs = some gs' → (∀ g ∈ gs, Inc g ∧ ∀ j ∈ g, j < i) →
    ∀ g ∈ gs', Inc g ∧ ∀ j ∈ g, j ≤ i := by
  intro gs
  induction gs with
  | nil =>
    intro gs' h _ g hg
    simp only [addToGroup, Option.some.injEq] at h
    subst h
    rw [List.mem_singleton] at hg
    subst hg
    exact ⟨List.pairwise_singleton _ _, by simp⟩
  | cons g0 gs ih =>
    intro gs' h hall g hg
    simp only [addToGroup, Option.bind_eq_bind, Option.bind_eq_some_iff] at h
    obtain ⟨j, _, a, _, b, _, h⟩ := h
    have h0 := hall g0 (by simp)
    split_ifs at h
    · simp only [Option.pure_def, Option.some.injEq] at h
      subst h
      rcases List.mem_cons.mp hg with rfl | hg
      · refine ⟨List.pairwise_append.mpr ⟨h0.1, List.pairwise_singleton _ _, ?_⟩, ?_⟩
        · intro x hx y hy
          rw [List.mem_singleton] at hy
          subst hy
          exact h0.2 x hx
        · intro x hx
          rcases List.mem_append.mp hx with hx | hx
          · exact le_of_lt (h0.2 x hx)
          · rw [List.mem_singleton] at hx; omega
      · have := hall g (List.mem_cons_of_mem _ hg)
        exact ⟨this.1, fun x hx => le_of_lt (this.2 x hx)⟩
    · rw [Option.bind_eq_some_iff] at h
      obtain ⟨gs1, h1, h⟩ := h
      simp only [Option.pure_def, Option.some.injEq] at h
      subst h
      rcases List.mem_cons.mp hg with rfl | hg
      · exact ⟨h0.1, fun x hx => le_of_lt (h0.2 x hx)⟩
      · exact ih gs1 h1 (fun g hg => hall g (List.mem_cons_of_mem _ hg)) g hg

theorem regroup_inc {p : Prog} {level : Nat} : ∀ (stmts : List Nat) (gs gs' : List (List Nat)),
    stmts.foldlM (fun gs i => addToGroup p level i gs) gs = some gs' → Inc stmts →
    (∀ g ∈ gs, Inc g ∧ ∀ j ∈ g, ∀ i ∈ stmts, j < i) → ∀ g ∈ gs', Inc g := by
  intro stmts
  induction stmts with
  | nil =>
    intro gs gs' h _ hall g hg
    simp only [List.foldlM_nil, Option.pure_def, Option.some.injEq] at h
    subst h
    exact (hall g hg).1
  | cons i l ih =>
    intro gs gs' h hs hall
    rw [List.foldlM_cons, Option.bind_eq_bind, Option.bind_eq_some_iff] at h
    obtain ⟨gs1, h1, h⟩ := h
    obtain ⟨hs1, hs2⟩ := List.pairwise_cons.mp hs
    refine ih gs1 gs' h hs2 ?_
    intro g hg
    obtain ⟨a1, a2⟩ := addToGroup_inc gs gs1 h1 (fun g hg => ⟨(hall g hg).1, fun j hj => (hall g hg).2 j hj i (by simp)⟩) g hg
    exact ⟨a1, fun j hj i' hi' => lt_of_le_of_lt (a2 j hj) (hs1 i' hi')⟩

theorem zip_filter_inc {stmts : List Nat} (sc : List Bool) (h : Inc stmts) :
    Inc (((stmts.zip sc).filter (fun x => !x.2)).map (·.1)) := by
  have h1 : ((stmts.zip sc).map (·.1)).Sublist stmts := by
    clear h
    induction stmts generalizing sc with
    | nil => simp
    | cons a l ih =>
      cases sc with
      | nil => simp
      | cons b sc => simpa using ih sc
  exact List.Pairwise.sublist ((List.filter_sublist.map _).trans h1) h

theorem loopsUnder_inc {p : Prog} : ∀ (n depth : Nat) (stmts : List Nat) (ls : List Loop), Inc stmts →
    loopsUnder p n depth stmts = some ls → ∀ L ∈ ls, Inc L.stmts := by
  intro n
  induction n with
  | zero =>
    intro depth stmts ls _ h
    simp [loopsUnder] at h
    subst h
    simp
  | succ n ih =>
    intro depth stmts ls hs h
    simp only [loopsUnder, Option.bind_eq_bind, Option.bind_eq_some_iff] at h
    obtain ⟨sc, h1, h⟩ := h
    split_ifs at h
    · rw [Option.bind_eq_some_iff] at h
      obtain ⟨inner, h2, h⟩ := h
      simp only [Option.pure_def, Option.some.injEq] at h
      subst h
      intro L hL
      rcases List.mem_append.mp hL with hL | hL
      · exact ih _ _ _ hs h2 L hL
      · rw [List.mem_singleton] at hL
        subst hL
        exact zip_filter_inc sc hs
    · rw [Option.bind_eq_some_iff] at h
      obtain ⟨groups, h2, h⟩ := h
      rw [Option.bind_eq_some_iff] at h
      obtain ⟨lss, h3, h⟩ := h
      simp only [Option.pure_def, Option.some.injEq] at h
      subst h
      have hg := regroup_inc stmts [] groups h2 hs (by simp)
      intro L hL
      obtain ⟨l, hl, hL⟩ := List.mem_flatten.mp hL
      obtain ⟨i, hi, rfl⟩ := List.getElem_of_mem hl
      have hf := List.forall₂_iff_get.mp (mapM_forall₂ _ _ _ h3)
      have hi' : i < groups.length := by rw [hf.1]; exact hi
      exact ih _ _ _ (hg _ (List.getElem_mem hi')) (hf.2 i hi' hi) L hL

theorem range_inc (n : Nat) : Inc (List.range n) := List.pairwise_lt_range

theorem filter_range_inc (n : Nat) (l : List Nat) (hl : Inc l) (hn : ∀ i ∈ l, i < n) :
    (List.range n).filter (fun s => l.contains s) = l := by
  refine List.Perm.eq_of_pairwise (le := (· < ·)) ?_ ((range_inc n).filter _) hl ?_
  · intro a b _ _ h1 h2; omega
  · refine (List.perm_ext_iff_of_nodup (List.nodup_range.filter _) (hl.imp (fun h => Nat.ne_of_lt h))).mpr ?_
    intro a
    simp only [List.mem_filter, List.mem_range, List.contains_iff_mem]
    exact ⟨fun h => h.2, fun h => ⟨hn a h, h⟩⟩

end Pluto
