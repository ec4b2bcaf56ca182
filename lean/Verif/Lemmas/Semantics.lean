import Verif.Spec.Semantics
import Mathlib.Data.List.Perm.Basic
import Mathlib.Data.List.Nodup

/-! Runs that keep conflicting instances in order have the same effect. -/

namespace Pluto

variable {I L V : Type*}

theorem action_comm (a b : Action L V) (h : ¬ a.Conflicts b) (m : L → V) : b.run (a.run m) = a.run (b.run m) := by
  have hab : ∀ l, a.writes l → ¬ b.reads l ∧ ¬ b.writes l := fun l hl =>
    ⟨fun hr => h ⟨l, .inl ⟨hl, .inl hr⟩⟩, fun hr => h ⟨l, .inl ⟨hl, .inr hr⟩⟩⟩
  have hba : ∀ l, b.writes l → ¬ a.reads l ∧ ¬ a.writes l := fun l hl =>
    ⟨fun hr => h ⟨l, .inr ⟨hl, .inl hr⟩⟩, fun hr => h ⟨l, .inr ⟨hl, .inr hr⟩⟩⟩
  funext l
  by_cases h1 : a.writes l
  · rw [b.keeps _ _ (hab l h1).2]
    refine a.depends _ _ (fun k hk => (b.keeps _ _ fun hb => ?_).symm) l h1
    rcases hk with hk | hk
    · exact (hba k hb).1 hk
    · exact (hba k hb).2 hk
  · rw [a.keeps _ _ h1]
    by_cases h2 : b.writes l
    · refine b.depends _ _ (fun k hk => a.keeps _ _ fun ha => ?_) l h2
      rcases hk with hk | hk
      · exact (hab k ha).1 hk
      · exact (hab k ha).2 hk
    · rw [b.keeps _ _ h2, b.keeps _ _ h2, a.keeps _ _ h1]

/-- An instance that conflicts with nothing in the list can be run first. -/
theorem execute_move (act : I → Action L V) (a : I) (l : List I) (h : ∀ b ∈ l, ¬ (act b).Conflicts (act a)) (m : L → V) :
    execute act (l ++ [a]) m = execute act (a :: l) m := by
  induction l generalizing m with
  | nil => rfl
  | cons b l ih =>
    have := ih (fun c hc => h c (List.mem_cons_of_mem _ hc)) ((act b).run m)
    simp only [execute, List.cons_append, List.foldl_cons] at this ⊢
    rw [this, action_comm (act b) (act a) (h b List.mem_cons_self)]

theorem execute_append (act : I → Action L V) (l r : List I) (m : L → V) : execute act (l ++ r) m = execute act r (execute act l m) := by
  simp [execute, List.foldl_append]

/-- Two lists of the same instances with conflicting ones in the same order. The order of the first is given by
`Pairwise`: for an instance before another one that it conflicts with, the second list has the same order. -/
theorem execute_perm (act : I → Action L V) (l : List I) : ∀ r : List I, l.Nodup → l.Perm r →
    l.Pairwise (fun a b => (act b).Conflicts (act a) → ∃ u v w, r = u ++ a :: v ++ b :: w) → ∀ m, execute act l m = execute act r m := by
  induction l with
  | nil => intro r _ hp _ m; rw [List.nil_perm.mp hp]
  | cons a l ih =>
    intro r hn hp ho m
    have har : a ∈ r := hp.subset List.mem_cons_self
    obtain ⟨u, w, rfl⟩ := List.append_of_mem har
    have hnr : (u ++ a :: w).Nodup := hp.nodup_iff.mp hn
    have hp' : l.Perm (u ++ w) := List.Perm.cons_inv (hp.trans List.perm_middle)
    obtain ⟨ho1, ho2⟩ := List.pairwise_cons.mp ho
    have hau : a ∉ u := fun h => (List.nodup_append.mp hnr).2.2 a h a List.mem_cons_self rfl
    have haw : a ∉ w := by
      have := (List.nodup_append.mp hnr).2.1
      exact (List.nodup_cons.mp this).1
    -- nothing before `a` in the second list conflicts with it
    have hu : ∀ b ∈ u, ¬ (act b).Conflicts (act a) := by
      intro b hb hc
      have hbl : b ∈ l := hp'.symm.subset (List.mem_append_left _ hb)
      obtain ⟨x, y, z, e⟩ := ho1 b hbl hc
      rw [List.append_assoc, List.cons_append] at e
      obtain ⟨e1, e2⟩ : u = x ∧ a :: w = a :: (y ++ b :: z) := by
        have hax : a ∉ x := by
          rw [e] at hnr
          exact fun h => (List.nodup_append.mp hnr).2.2 a h a List.mem_cons_self rfl
        rcases List.append_eq_append_iff.mp e with ⟨s, e1, e2⟩ | ⟨s, e1, e2⟩
        · cases s with
          | nil => exact ⟨by simpa using e1.symm, by simpa using e2⟩
          | cons c s =>
            simp only [List.cons_append, List.cons.injEq] at e2
            exact absurd (by rw [e1, e2.1]; simp) hax
        · cases s with
          | nil => exact ⟨by simpa using e1, by simpa using e2.symm⟩
          | cons c s =>
            simp only [List.cons_append, List.cons.injEq] at e2
            exact absurd (by rw [e1, e2.1]; simp) hau
      simp only [List.cons.injEq, true_and] at e2
      have hbw : b ∈ w := by rw [e2]; simp
      exact (List.nodup_append.mp hnr).2.2 b hb b (List.mem_cons_of_mem _ hbw) rfl
    have hmove : execute act (u ++ a :: w) m = execute act (a :: (u ++ w)) m := by
      have := execute_move act a u hu m
      rw [show u ++ a :: w = (u ++ [a]) ++ w by simp, execute_append, this, ← execute_append, List.cons_append]
    rw [hmove]
    refine ih (u ++ w) (List.nodup_cons.mp hn).2 hp' ?_ ((act a).run m)
    refine (List.Pairwise.and_mem.mp ho2).imp fun {b c} h hc => ?_
    obtain ⟨hb, hcl, h⟩ := h
    obtain ⟨x, y, z, e⟩ := h hc
    have hba : b ≠ a := fun h => (List.nodup_cons.mp hn).1 (h ▸ hb)
    have hca : c ≠ a := fun h => (List.nodup_cons.mp hn).1 (h ▸ hcl)
    -- take `a` out of the list
    rw [List.append_assoc, List.cons_append] at e
    rcases List.append_eq_append_iff.mp e with ⟨s, e1, e2⟩ | ⟨s, e1, e2⟩
    · cases s with
      | nil =>
        simp only [List.nil_append, List.cons.injEq] at e2
        exact absurd e2.1.symm hba
      | cons c' s =>
        simp only [List.cons_append, List.cons.injEq] at e2
        refine ⟨u ++ s, y, z, ?_⟩
        rw [e2.2]; simp
    · cases s with
      | nil =>
        simp only [List.nil_append, List.cons.injEq] at e2
        exact absurd e2.1 hba
      | cons b' s =>
        simp only [List.cons_append, List.cons.injEq] at e2
        obtain ⟨e2, e3⟩ := e2
        subst e2
        rcases List.append_eq_append_iff.mp e3 with ⟨s', e4, e5⟩ | ⟨s', e4, e5⟩
        · -- s = y ++ s'
          cases s' with
          | nil =>
            simp only [List.nil_append, List.cons.injEq] at e5
            exact absurd e5.1 hca
          | cons c' s' =>
            simp only [List.cons_append, List.cons.injEq] at e5
            obtain ⟨e5, e6⟩ := e5
            subst e5
            refine ⟨x, y, s' ++ w, ?_⟩
            rw [e1, e4]; simp
        · cases s' with
          | nil =>
            simp only [List.nil_append, List.cons.injEq] at e5
            exact absurd e5.1.symm hca
          | cons c' s' =>
            simp only [List.cons_append, List.cons.injEq] at e5
            refine ⟨x, s ++ s', z, ?_⟩
            rw [e1, e5.2]; simp

end Pluto
