import Verif.Lemmas.LinInd

namespace Pluto

theorem aff_unitRow (n v : Nat) (k c : Int) (x : List Int) (hv : v + 1 < n) (hx : x.length + 1 = n) :
    aff (unitRow n v k c) x = k * x.getD v 0 + c := by
  unfold unitRow
  obtain ⟨m, rfl⟩ : ∃ m, n = m + 1 := ⟨n - 1, by omega⟩
  have hz : (List.replicate (m + 1) (0 : Int)) = zrow (m + 1) := rfl
  rw [hz, Nat.add_sub_cancel, aff_set_last _ _ _ m (by simp [zrow]) (by omega)]
  · congr 1
    unfold aff
    rw [dot_set_zrow _ _ _ _ (by omega)]
    have : (x ++ [1]).getD v 0 = x.getD v 0 := by
      simp [List.getD_eq_getElem?_getD, List.getElem?_append_left, show v < x.length by omega]
    rw [this]; rfl
  · rw [coef_set _ _ _ _ (by simp [zrow]; omega), if_neg (by omega)]
    simp [coef, zrow, List.getD_eq_getElem?_getD]

theorem addLb_fold (l : List Nat) (b : Int) (c : Cst) (x : List Int) (hx : x.length + 1 = c.ncols)
    (hl : ∀ i ∈ l, i + 1 < c.ncols) :
    (l.foldl (fun c i => addLb c i b) c).ncols = c.ncols ∧
    ((l.foldl (fun c i => addLb c i b) c).Sat x ↔ c.Sat x ∧ ∀ i ∈ l, b ≤ x.getD i 0) := by
  induction l generalizing c with
  | nil => simp
  | cons i l ih =>
    rw [List.foldl_cons]
    obtain ⟨h1, h2⟩ := ih (addLb c i b) hx (fun j hj => hl j (List.mem_cons_of_mem _ hj))
    refine ⟨h1, ?_⟩
    rw [h2]
    have : (addLb c i b).Sat x ↔ c.Sat x ∧ b ≤ x.getD i 0 := by
      unfold addLb Cst.Sat
      simp only [List.mem_append, List.mem_singleton, or_imp, forall_and, forall_eq]
      rw [Row.Sat]
      simp only [Bool.false_eq_true, if_false]
      rw [aff_unitRow _ _ _ _ _ (hl i (by simp)) hx]
      constructor
      · rintro ⟨a, b⟩; exact ⟨a, by omega⟩
      · rintro ⟨a, b⟩; exact ⟨a, by omega⟩
    rw [this]
    simp [and_assoc]

theorem addUb_fold (l : List Nat) (b : Int) (c : Cst) (x : List Int) (hx : x.length + 1 = c.ncols)
    (hl : ∀ i ∈ l, i + 1 < c.ncols) :
    (l.foldl (fun c i => addUb c i b) c).ncols = c.ncols ∧
    ((l.foldl (fun c i => addUb c i b) c).Sat x ↔ c.Sat x ∧ ∀ i ∈ l, x.getD i 0 ≤ b) := by
  induction l generalizing c with
  | nil => simp
  | cons i l ih =>
    rw [List.foldl_cons]
    obtain ⟨h1, h2⟩ := ih (addUb c i b) hx (fun j hj => hl j (List.mem_cons_of_mem _ hj))
    refine ⟨h1, ?_⟩
    rw [h2]
    have : (addUb c i b).Sat x ↔ c.Sat x ∧ x.getD i 0 ≤ b := by
      unfold addUb Cst.Sat
      simp only [List.mem_append, List.mem_singleton, or_imp, forall_and, forall_eq]
      rw [Row.Sat]
      simp only [Bool.false_eq_true, if_false]
      rw [aff_unitRow _ _ _ _ _ (hl i (by simp)) hx]
      constructor
      · rintro ⟨a, b⟩; exact ⟨a, by omega⟩
      · rintro ⟨a, b⟩; exact ⟨a, by omega⟩
    rw [this]
    simp [and_assoc]

theorem nonNeg_getD (x : List Int) (n : Nat) (hn : x.length = n) :
    (∀ i ∈ List.range n, 0 ≤ x.getD i 0) ↔ NonNeg x := by
  constructor
  · intro h a ha
    obtain ⟨i, hi, rfl⟩ := List.mem_iff_getElem.mp ha
    have := h i (by simp; omega)
    simpa [List.getD_eq_getElem?_getD, hi] using this
  · intro h i _
    by_cases hi : i < x.length
    · simpa [List.getD_eq_getElem?_getD, hi] using h _ (List.getElem_mem hi)
    · simp [List.getD_eq_getElem?_getD, Nat.le_of_not_lt hi]

/-! ### Largest constant -/

theorem foldl_max_spec (l : List Int) (m : Int) :
    m ≤ l.foldl (fun m a => if m > a then m else a) m ∧
    (∀ a ∈ l, a ≤ l.foldl (fun m a => if m > a then m else a) m) ∧
    (l.foldl (fun m a => if m > a then m else a) m = m ∨ l.foldl (fun m a => if m > a then m else a) m ∈ l) := by
  induction l generalizing m with
  | nil => simp
  | cons b l ih =>
    rw [List.foldl_cons]
    obtain ⟨h1, h2, h3⟩ := ih (if m > b then m else b)
    refine ⟨?_, ?_, ?_⟩
    · refine le_trans ?_ h1; split <;> omega
    · intro a ha
      rcases List.mem_cons.mp ha with rfl | ha
      · refine le_trans ?_ h1; split <;> omega
      · exact h2 a ha
    · rcases h3 with h3 | h3
      · rw [h3]
        split
        · left; rfl
        · right; simp
      · right; exact List.mem_cons_of_mem _ h3

/-! ### Non-trivial solutions -/

/-- Sum of the coefficients of the original loops. -/
theorem setOnes_spec {p : Prog} (hp : p.Padded) (i : Nat) (st : Stmt) (hi : p.stmts[i]? = some st)
    (row : List Int) (hrow : row.length = cstWidth p.nvar p.npar p.stmts.length)
    (h0 : ∀ k < p.nvar, coef row (stmtOffset p.nvar p.npar i + k) = 0)
    (sol : List Int) (hs : SolLen p sol) :
    (setOnes p i st row).length = row.length ∧
    (∀ j, (j < stmtOffset p.nvar p.npar i ∨ stmtOffset p.nvar p.npar i + p.nvar ≤ j) →
      coef (setOnes p i st row) j = coef row j) ∧
    aff (setOnes p i st row) sol = aff row sol + (stmtCoeffs p i st sol).sum := by
  have hlt : i < p.stmts.length := (List.getElem?_eq_some_iff.mp hi).1
  have hst := List.mem_of_getElem? hi
  obtain ⟨h1, h2, h3, _⟩ := hp st hst
  have hb := stmtOffset_bound p.nvar p.npar p.stmts.length i hlt
  have hsol : sol.length + 1 = cstWidth p.nvar p.npar p.stmts.length := by rw [hs]; rfl
  have hor : ∀ k, st.isOrig.getD k false = decide (k < st.dimOrig) := by
    intro k
    rw [h3, List.getD_eq_getElem?_getD]
    by_cases hk : k < st.dimOrig
    · simp [List.getElem?_append_left, hk]
    · rw [List.getElem?_append_right (by simp; omega), List.getElem?_replicate]
      simp only [hk, decide_false]
      split <;> rfl
  have key : ∀ n ≤ p.nvar,
      let r := (List.range n).foldl (fun row j =>
        if st.isOrig.getD j false then row.set (stmtOffset p.nvar p.npar i + j) 1 else row) row
      r.length = row.length ∧
      (∀ j, (j < stmtOffset p.nvar p.npar i ∨ stmtOffset p.nvar p.npar i + n ≤ j) → coef r j = coef row j) ∧
      aff r sol = aff row sol +
        ((sol.drop (stmtOffset p.nvar p.npar i)).take (min n st.dimOrig)).sum := by
    intro n
    induction n with
    | zero => intro _; simp
    | succ n ih =>
      intro hn
      obtain ⟨a, b, c⟩ := ih (by omega)
      rw [List.range_succ, List.foldl_append]
      simp only [List.foldl_cons, List.foldl_nil, hor n]
      by_cases hd : n < st.dimOrig
      · simp only [hd, decide_true, if_true]
        refine ⟨by rw [List.length_set]; exact a, ?_, ?_⟩
        · intro j hj
          rw [coef_set _ _ _ _ (by rw [a]; omega), if_neg (by omega)]
          exact b j (by omega)
        · unfold aff at c ⊢
          rw [dot_set_eq _ _ _ _ (by rw [a]; omega), c, b _ (by omega), h0 n (by omega),
            show min (n + 1) st.dimOrig = min n st.dimOrig + 1 by omega,
            show min n st.dimOrig = n by omega, List.take_add_one, List.sum_append]
          have e1 : (sol ++ [1]).getD (stmtOffset p.nvar p.npar i + n) 0 =
              sol.getD (stmtOffset p.nvar p.npar i + n) 0 := by
            simp [List.getD_eq_getElem?_getD, List.getElem?_append_left,
              show stmtOffset p.nvar p.npar i + n < sol.length by omega]
          have e2 : ((sol.drop (stmtOffset p.nvar p.npar i))[n]?.toList).sum =
              sol.getD (stmtOffset p.nvar p.npar i + n) 0 := by
            simp [List.getD_eq_getElem?_getD, List.getElem?_drop,
              show stmtOffset p.nvar p.npar i + n < sol.length by omega]
          rw [e1, e2]; simp; ring
      · simp only [hd, decide_false, Bool.false_eq_true, if_false]
        refine ⟨a, fun j hj => b j (by omega), ?_⟩
        rw [c, show min (n + 1) st.dimOrig = min n st.dimOrig by omega]
  obtain ⟨a, b, c⟩ := key p.nvar le_rfl
  refine ⟨a, b, ?_⟩
  unfold setOnes
  rw [c, Nat.min_eq_right h1]
  rfl

end Pluto
