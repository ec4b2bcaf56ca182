import Verif.Lemmas.DfpColour
namespace Pluto

theorem updateFcgCut_adj (a : Auto) (k : Nat) (l : List (Nat × Nat)) : ∀ (adj : Nat → Nat → Nat) (u v : Nat),
    updateFcgCut a k adj l u v = 0 ∧ (∃ x ∈ l, ((a.scc x.1 ≥ (k : Int) ∧ a.scc x.2 < (k : Int)) ∨ (a.scc x.2 ≥ (k : Int) ∧ a.scc x.1 < (k : Int))) ∧
      (((stmtBlock a.p x.1).Has u ∧ (stmtBlock a.p x.2).Has v) ∨ ((stmtBlock a.p x.2).Has u ∧ (stmtBlock a.p x.1).Has v))) ∨
    updateFcgCut a k adj l u v = adj u v ∧ ¬ (∃ x ∈ l, ((a.scc x.1 ≥ (k : Int) ∧ a.scc x.2 < (k : Int)) ∨ (a.scc x.2 ≥ (k : Int) ∧ a.scc x.1 < (k : Int))) ∧
      (((stmtBlock a.p x.1).Has u ∧ (stmtBlock a.p x.2).Has v) ∨ ((stmtBlock a.p x.2).Has u ∧ (stmtBlock a.p x.1).Has v))) := by
  induction l with
  | nil => intro adj u v; right; simp [updateFcgCut]
  | cons y l ih =>
    intro adj u v
    obtain ⟨i, j⟩ := y
    rw [updateFcgCut]
    simp only [List.mem_cons, exists_eq_or_imp]
    split_ifs with hs
    · rcases ih (clearEdges adj (stmtBlock a.p i) (stmtBlock a.p j)) u v with ⟨e, h⟩ | ⟨e, h⟩
      · exact .inl ⟨e, .inr h⟩
      · rw [e]
        unfold clearEdges
        split_ifs with hb
        · exact .inl ⟨rfl, .inl ⟨hs, by simpa [Block.Has, and_assoc] using hb⟩⟩
        · refine .inr ⟨rfl, ?_⟩
          rintro (⟨_, h2⟩ | h2)
          · exact hb (by simpa [Block.Has, and_assoc] using h2)
          · exact h h2
    · rcases ih adj u v with ⟨e, h⟩ | ⟨e, h⟩
      · exact .inl ⟨e, .inr h⟩
      · refine .inr ⟨e, ?_⟩
        rintro (⟨h1, _⟩ | h2)
        · exact hs h1
        · exact h h2

end Pluto
