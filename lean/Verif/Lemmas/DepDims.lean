import Verif.Lemmas.Dims

/-! Dependence polyhedra when a dimension is added to a statement or a row to its domain. -/

namespace Pluto

/-- An end point of a dependence without the coordinate `pos` if it belongs to statement `i`. -/
def dropAt (j i pos : Nat) (x : List Int) : List Int := if j = i then x.eraseIdx pos else x

theorem split_at (x : List Int) (pos : Nat) (h : pos < x.length) :
    ∃ A v B, x = A ++ v :: B ∧ A.length = pos ∧ x.eraseIdx pos = A ++ B := by
  refine ⟨x.take pos, x[pos], x.drop (pos + 1), ?_, by simp; omega, List.eraseIdx_eq_take_drop_succ x pos⟩
  simp

theorem depAddDim_ends (p : Prog) (i pos : Nat) (d : Dep) :
    (depAddDim p i pos d).src = d.src ∧ (depAddDim p i pos d).dest = d.dest ∧ (depAddDim p i pos d).rar = d.rar := by
  unfold depAddDim
  simp only
  split_ifs <;> simp

theorem updateDep_ends (p : Prog) (i : Nat) (c : Cst) (d : Dep) :
    (updateDep p i c d).src = d.src ∧ (updateDep p i c d).dest = d.dest ∧ (updateDep p i c d).rar = d.rar := by
  unfold updateDep
  simp only
  split_ifs <;> simp

/-- `pluto_stmt_add_dim` on a dependence: the new coordinate is unconstrained. -/
theorem depAddDim_sat {p : Prog} {i pos ns nt : Nat} {d : Dep} {s t q : List Int}
    (hw : d.dpoly.WF) (hc : d.dpoly.ncols = ns + nt + q.length + 1)
    (hps : d.src = i → pos ≤ ns) (hpt : d.dest = i → pos ≤ nt)
    (hd : dimOf p d.src = s.length)
    (hs : s.length = if d.src = i then ns + 1 else ns)
    (ht : t.length = if d.dest = i then nt + 1 else nt) :
    (depAddDim p i pos d).dpoly.WF ∧ (depAddDim p i pos d).dpoly.ncols = s.length + t.length + q.length + 1 ∧
    ((depAddDim p i pos d).dpoly.Sat (s ++ t ++ q) ↔
      d.dpoly.Sat (dropAt d.src i pos s ++ dropAt d.dest i pos t ++ q)) := by
  unfold depAddDim dropAt
  by_cases c1 : d.src = i
  · have h1 : pos ≤ ns := hps c1
    rw [if_pos c1] at hs
    simp only [c1, if_true]
    obtain ⟨A, v, B, rfl, hA, hE⟩ := split_at s pos (by omega)
    rw [hE]
    simp only [List.length_append, List.length_cons] at hs
    have w1 := addDim_wf hw (by omega : pos ≤ d.dpoly.ncols)
    have n1 : (addDim d.dpoly pos).ncols = d.dpoly.ncols + 1 := rfl
    have S1 : ∀ X : List Int, X.length = B.length + (nt + q.length) →
        ((addDim d.dpoly pos).Sat (A ++ v :: X) ↔ d.dpoly.Sat (A ++ X)) := fun X hX => by
      rw [← hA]; exact sat_addDim A X v hw (by omega)
    by_cases c2 : d.dest = i
    · have h2 : pos ≤ nt := hpt c2
      rw [if_pos c2] at ht
      simp only [c2, if_true]
      obtain ⟨A', v', B', rfl, hA', hE'⟩ := split_at t pos (by omega)
      rw [hE']
      simp only [List.length_append, List.length_cons] at ht
      rw [c1] at hd
      rw [hd]
      simp only [List.length_append, List.length_cons] at *
      refine ⟨addDim_wf w1 (by omega), by show _ + 1 + 1 = _; omega, ?_⟩
      have S2 := sat_addDim (c := addDim d.dpoly pos) (A ++ v :: B ++ A') (B' ++ q) v' w1
        (by simp only [List.length_append, List.length_cons, n1]; omega)
      have el : (A ++ v :: B ++ A').length = A.length + (B.length + 1) + pos := by simp [hA']; omega
      rw [el] at S2
      have e1 : A ++ v :: B ++ (A' ++ v' :: B') ++ q = A ++ v :: B ++ A' ++ v' :: (B' ++ q) := by simp
      rw [e1, S2]
      have e2 : A ++ v :: B ++ A' ++ (B' ++ q) = A ++ v :: (B ++ A' ++ (B' ++ q)) := by simp
      rw [e2, S1 _ (by simp; omega)]
      simp
    · rw [if_neg c2] at ht
      simp only [c2, if_false]
      simp only [List.length_append, List.length_cons] at *
      refine ⟨w1, by omega, ?_⟩
      have e1 : A ++ v :: B ++ t ++ q = A ++ v :: (B ++ t ++ q) := by simp
      rw [e1, S1 _ (by simp; omega)]
      simp
  · rw [if_neg c1] at hs
    simp only [c1, if_false]
    by_cases c2 : d.dest = i
    · have h2 : pos ≤ nt := hpt c2
      rw [if_pos c2] at ht
      simp only [c2, if_true]
      obtain ⟨A', v', B', rfl, hA', hE'⟩ := split_at t pos (by omega)
      rw [hE', hd]
      simp only [List.length_append, List.length_cons] at *
      have n1 : (addDim d.dpoly (s.length + pos)).ncols = d.dpoly.ncols + 1 := rfl
      refine ⟨addDim_wf hw (by omega), by show _ + 1 = _; omega, ?_⟩
      have S2 := sat_addDim (c := d.dpoly) (s ++ A') (B' ++ q) v' hw
        (by simp only [List.length_append]; omega)
      rw [List.length_append, hA'] at S2
      have e1 : s ++ (A' ++ v' :: B') ++ q = s ++ A' ++ v' :: (B' ++ q) := by simp
      rw [e1, S2]
      simp
    · rw [if_neg c2] at ht
      simp only [c2, if_false]
      exact ⟨hw, by omega, trivial⟩

/-- `pluto_update_deps`: the rows added to the domain hold at the end points. -/
theorem updateDep_sat {p : Prog} {i : Nat} {c : Cst} {d : Dep} {s t q : List Int}
    (hcw : c.WF) (hcn : c.ncols = dimOf p i + q.length + 1)
    (hw : d.dpoly.WF) (hc : d.dpoly.ncols = s.length + t.length + q.length + 1)
    (hs : dimOf p d.src = s.length) (ht : dimOf p d.dest = t.length) :
    (updateDep p i c d).dpoly.WF ∧ (updateDep p i c d).dpoly.ncols = d.dpoly.ncols ∧
    ((updateDep p i c d).dpoly.Sat (s ++ t ++ q) ↔
      d.dpoly.Sat (s ++ t ++ q) ∧ (d.src = i → c.Sat (s ++ q)) ∧ (d.dest = i → c.Sat (t ++ q))) := by
  unfold updateDep
  have ks : d.src = i → (addDims c (dimOf p i) (dimOf p d.dest)).WF ∧
      (addDims c (dimOf p i) (dimOf p d.dest)).ncols = d.dpoly.ncols ∧
      ((addDims c (dimOf p i) (dimOf p d.dest)).Sat (s ++ t ++ q) ↔ c.Sat (s ++ q)) := by
    intro e
    rw [e] at hs
    obtain ⟨a, b⟩ := addDims_wf hcw (by omega : dimOf p i ≤ c.ncols) (dimOf p d.dest)
    refine ⟨a, by omega, ?_⟩
    have := sat_addDims s t q hcw (by omega)
    rw [hs, ht]
    exact this
  have kt : d.dest = i → (addDims c 0 (dimOf p d.src)).WF ∧
      (addDims c 0 (dimOf p d.src)).ncols = d.dpoly.ncols ∧
      ((addDims c 0 (dimOf p d.src)).Sat (s ++ t ++ q) ↔ c.Sat (t ++ q)) := by
    intro e
    rw [e] at ht
    obtain ⟨a, b⟩ := addDims_wf hcw (by omega : 0 ≤ c.ncols) (dimOf p d.src)
    refine ⟨a, by omega, ?_⟩
    have := sat_addDims [] s (t ++ q) hcw (by simp; omega)
    rw [hs]
    simpa using this
  by_cases c1 : d.src = i <;> by_cases c2 : d.dest = i
  · obtain ⟨a1, b1, s1⟩ := ks c1
    obtain ⟨a2, b2, s2⟩ := kt c2
    rw [c2] at a1 b1 s1
    rw [c1] at a2 b2 s2
    simp only [c1, c2, if_true, forall_const]
    refine ⟨addCst_wf (addCst_wf hw a1 b1) a2 b2, rfl, ?_⟩
    rw [sat_addCst, sat_addCst, s1, s2, and_assoc]
  · obtain ⟨a1, b1, s1⟩ := ks c1
    simp only [c1, c2, if_true, if_false, forall_const, false_imp_iff, and_true]
    refine ⟨addCst_wf hw a1 b1, rfl, ?_⟩
    rw [sat_addCst, s1]
  · obtain ⟨a2, b2, s2⟩ := kt c2
    simp only [c1, c2, if_true, if_false, forall_const, false_imp_iff, true_and]
    refine ⟨addCst_wf hw a2 b2, rfl, ?_⟩
    rw [sat_addCst, s2]
  · simp only [c1, c2, if_false, false_imp_iff, and_true]
    exact hw

end Pluto
