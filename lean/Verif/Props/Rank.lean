import Verif.Lemmas.Rank

/-! C25: rank. -/

namespace Pluto

/-- C25, part: `pluto_matrix_get_rank` returns the rank of every integer matrix with at most as many
columns as rows. Missing: wider matrices, for which it is false (`C25_violated`). -/
theorem C25_rank_partial (m : Mat) (hm : m.WF) (h : m.ncols ≤ m.rows.length) :
    m.getRank = rowRank m.ncols m.rows := by
  have inv := echelon_inv m hm (min m.ncols m.rows.length) (Nat.min_le_right _ _)
  obtain ⟨hl, hw, hs, hle, done, rest, ps, e1, e2, he, hps, hz⟩ := inv
  have hmin : min m.ncols m.rows.length = m.ncols := Nat.min_eq_left h
  have hzero : ∀ v ∈ rest, ∀ a ∈ v, a = 0 := by
    intro v hv a ha
    obtain ⟨j, hj, rfl⟩ := List.mem_iff_getElem.mp ha
    have hvl := hw v (by rw [e1]; exact List.mem_append_right _ hv)
    have := hz v hv j (by omega)
    simpa [coef, List.getD_eq_getElem?_getD, hj] using this
  have hrank : rowRank m.ncols m.rows = done.length := by
    unfold rowRank
    rw [← hs, e1]
    exact rowRank_ech m.ncols rest he (fun p hp => by have := hps p hp; omega) hzero
  unfold Mat.getRank
  simp only [Mat.toRowEchelon]
  rw [nonzero_count, e1, hrank, List.countP_append]
  have h1 : done.countP (fun r => decide (∃ a ∈ r, a ≠ 0)) = done.length := by
    rw [List.countP_eq_length]
    intro r hr
    obtain ⟨k, hk, rfl⟩ := List.mem_iff_getElem.mp hr
    have hg := he.1.get hk (by rw [← he.1.length_eq]; exact hk)
    simp only [decide_eq_true_eq]
    have hlt : ps[k]'(by rw [← he.1.length_eq]; exact hk) < (done[k]).length := by
      by_contra hc
      exact hg.1 (coef_ge _ _ (by simp only [List.get_eq_getElem]; omega))
    refine ⟨_, List.getElem_mem hlt, ?_⟩
    have := hg.1
    simpa [coef, List.getD_eq_getElem?_getD, hlt] using this
  have h2 : rest.countP (fun r => decide (∃ a ∈ r, a ≠ 0)) = 0 := by
    rw [List.countP_eq_zero]
    intro r hr hc
    simp only [decide_eq_true_eq] at hc
    obtain ⟨a, ha, hne⟩ := hc
    exact hne (hzero r hr a ha)
  omega

/-- C25, part: the value returned is never smaller than the rank. -/
theorem C25_lower_partial (m : Mat) (hm : m.WF) : rowRank m.ncols m.rows ≤ m.getRank := by
  have inv := echelon_inv m hm (min m.ncols m.rows.length) (Nat.min_le_right _ _)
  unfold Mat.getRank
  simp only [Mat.toRowEchelon]
  rw [nonzero_count]
  generalize hrows : ((List.range (min m.ncols m.rows.length)).foldl echelonStep (m.rows, 0)).1 = rows at inv ⊢
  have hs : rowSpace m.ncols rows = rowSpace m.ncols m.rows := by rw [← hrows]; exact inv.space
  unfold rowRank
  rw [← hs]
  clear inv hs hrows
  -- the non-zero rows span the row space
  have hspan : rowSpace m.ncols rows =
      Submodule.span ℚ (↑((rows.filter (fun r => decide (∃ a ∈ r, a ≠ 0))).map (qvec m.ncols)).toFinset :
        Set (Fin m.ncols → ℚ)) := by
    apply le_antisymm
    · apply Submodule.span_le.mpr
      rintro _ ⟨r, hr, rfl⟩
      by_cases hc : ∃ a ∈ r, a ≠ 0
      · apply Submodule.subset_span
        simp only [List.coe_toFinset, Set.mem_setOf_eq, List.mem_map, List.mem_filter, decide_eq_true_eq]
        exact ⟨r, ⟨hr, hc⟩, rfl⟩
      · push Not at hc
        have : qvec m.ncols r = 0 := by
          funext j
          rw [qvec_coef]
          by_cases hj : (j : Nat) < r.length
          · have := hc _ (List.getElem_mem hj)
            simp [coef, List.getD_eq_getElem?_getD, hj, this]
          · simp [coef_ge r j (by omega)]
        rw [this]; exact Submodule.zero_mem _
    · apply Submodule.span_le.mpr
      intro v hv
      simp only [List.coe_toFinset, Set.mem_setOf_eq, List.mem_map, List.mem_filter] at hv
      obtain ⟨r, ⟨hr, _⟩, rfl⟩ := hv
      exact Submodule.subset_span ⟨r, hr, rfl⟩
  rw [hspan]
  refine (finrank_span_finset_le_card _).trans ((List.toFinset_card_le _).trans ?_)
  rw [List.length_map, List.countP_eq_length_filter]

/-- C25 is false in general: two equal rows whose non-zero entry is in the third column. -/
theorem C25_violated : (⟨3, [[0, 0, 1], [0, 0, 1]]⟩ : Mat).getRank = 2 ∧
    rowRank 3 [[0, 0, 1], [0, 0, 1]] = 1 := by
  constructor
  · decide +kernel
  · have e : rowSpace 3 [[0, 0, 1], [0, 0, 1]] = rowSpace 3 ([[0, 0, 1]] ++ []) :=
      rowSpace_congr _ _ _ (by intro w; simp)
    have := rowRank_ech 3 (rows := [[0, 0, 1]]) (ps := [2]) []
      ⟨List.Forall₂.cons ⟨by decide, by decide⟩ List.Forall₂.nil, by simp⟩ (by simp) (by simp)
    unfold rowRank at this ⊢
    rw [e, this]; rfl

-- non-vacuity
example : (⟨2, [[1, 2], [2, 4], [0, 3]]⟩ : Mat).WF ∧ (⟨2, [[1, 2], [2, 4], [0, 3]]⟩ : Mat).getRank = 2 := by
  decide +kernel

end Pluto
