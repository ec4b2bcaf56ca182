import Verif.Lemmas.Affine
import Verif.Model.Constraints
import Verif.Props.Arith
import Mathlib.Algebra.Order.BigOperators.Group.List

/-! Helper lemmas for `simplify` and `toPureIneq`. -/

namespace Pluto

theorem rowGcd_eq (v : List Int) : ∀ g : Int,
    v.foldl (fun g a => cgcd (llabs a) g) g = if v = [] then g else
      ((v.foldl (fun n a => Nat.gcd a.natAbs n) g.natAbs : Nat) : Int) := by
  induction v with
  | nil => intro g; simp
  | cons a as ih =>
    intro g
    simp only [List.foldl_cons, ih]
    rw [C01_gcd_correct]
    have e : Int.gcd (llabs a) g = Nat.gcd a.natAbs g.natAbs := by
      rw [llabs_natAbs]; rfl
    rw [e]
    by_cases h : as = []
    · subst h; simp
    · simp [h]

theorem foldl_gcd_dvd (v : List Int) (n : Nat) :
    (v.foldl (fun n a => Nat.gcd a.natAbs n) n) ∣ n ∧
    ∀ a ∈ v, ((v.foldl (fun n a => Nat.gcd a.natAbs n) n : Nat) : Int) ∣ a := by
  induction v generalizing n with
  | nil => simp
  | cons b bs ih =>
    simp only [List.foldl_cons]
    obtain ⟨h1, h2⟩ := ih (Nat.gcd b.natAbs n)
    refine ⟨h1.trans (Nat.gcd_dvd_right _ _), ?_⟩
    intro a ha
    rcases List.mem_cons.mp ha with rfl | ha
    · have := h1.trans (Nat.gcd_dvd_left a.natAbs n)
      exact Int.natCast_dvd.mpr this
    · exact h2 a ha

theorem rowGcd_nonneg (v : List Int) : 0 ≤ rowGcd v := by
  unfold rowGcd; rw [rowGcd_eq]; split
  · simp
  · omega

theorem rowGcd_dvd (v : List Int) : ∀ a ∈ v, rowGcd v ∣ a := by
  intro a ha
  have hne : v ≠ [] := List.ne_nil_of_mem ha
  unfold rowGcd; rw [rowGcd_eq, if_neg hne]
  exact (foldl_gcd_dvd v _).2 a ha

theorem rowGcd_pos (v : List Int) (h : ∃ a ∈ v, a ≠ 0) : 0 < rowGcd v := by
  obtain ⟨a, ha, hne⟩ := h
  rcases (rowGcd_nonneg v).lt_or_eq with h | h
  · exact h
  · exfalso
    have := rowGcd_dvd v a ha
    rw [← h] at this
    exact hne (Int.zero_dvd.mp this)

theorem not_all_zero {v : List Int} (h : ¬ v.all (fun a => decide (a = 0)) = true) :
    ∃ a ∈ v, a ≠ 0 := by
  simpa using h

/-- A normalised row times its gcd is the original row. -/
theorem normalizeRow_scale (r : Row) :
    ∃ g : Int, 0 < g ∧ (normalizeRow r).eq = r.eq ∧
      r.val = (normalizeRow r).val.map (fun a => g * a) := by
  unfold normalizeRow
  split
  · exact ⟨1, by omega, rfl, by simp⟩
  · rename_i h
    refine ⟨rowGcd r.val, rowGcd_pos _ (not_all_zero h), rfl, ?_⟩
    simp only [List.map_map]
    conv_lhs => rw [← List.map_id r.val]
    apply List.map_congr_left
    intro a ha
    simp only [id, Function.comp]
    exact (Int.mul_tdiv_cancel' (rowGcd_dvd _ a ha)).symm

theorem normalizeRow_length (r : Row) : (normalizeRow r).val.length = r.val.length := by
  obtain ⟨g, -, -, h⟩ := normalizeRow_scale r
  rw [h]; simp

variable {R : Type*} [CommRing R] [LinearOrder R] [IsStrictOrderedRing R]

theorem normalizeRow_sat (r : Row) (x : List R) : (normalizeRow r).Sat x ↔ r.Sat x := by
  obtain ⟨g, hg, he, hv⟩ := normalizeRow_scale r
  have hgR : (0 : R) < (g : R) := by exact_mod_cast hg
  unfold Row.Sat
  rw [he, hv]
  simp only [aff, dot_map_mul]
  split
  · constructor
    · intro h; rw [h, mul_zero]
    · intro h; exact (mul_eq_zero.mp h).resolve_left hgR.ne'
  · constructor
    · intro h; exact mul_nonneg hgR.le h
    · intro h; exact nonneg_of_mul_nonneg_right h hgR

theorem all_zero_sat (r : Row) (h : r.val.all (fun a => decide (a = 0)) = true) (x : List R) :
    r.Sat x := by
  have : aff r.val x = 0 := dot_all_zero _ _ (by simpa using h)
  unfold Row.Sat; rw [this]; simp

theorem dropRedundant_sat (prev : Row) (rs : List Row) (x : List R) (hp : prev.Sat x) :
    (∀ r ∈ dropRedundant prev rs, r.Sat x) ↔ ∀ r ∈ rs, r.Sat x := by
  induction rs generalizing prev with
  | nil => simp [dropRedundant]
  | cons r rs ih =>
    unfold dropRedundant
    split
    · rename_i h
      have hr := all_zero_sat r h x
      rw [ih r hr]; simp [hr]
    · split
      · rename_i h
        simp only [Bool.and_eq_true, decide_eq_true_eq] at h
        have hr : r.Sat x := by
          unfold Row.Sat at hp ⊢; rw [← h.1, ← h.2]; exact hp
        rw [ih r hr]; simp [hr]
      · constructor
        · intro h
          have hr := h r (by simp)
          have := (ih r hr).mp (fun q hq => h q (by simp [hq]))
          intro q hq; rcases List.mem_cons.mp hq with rfl | hq
          · exact hr
          · exact this q hq
        · intro h
          have hr := h r (by simp)
          have := (ih r hr).mpr (fun q hq => h q (by simp [hq]))
          intro q hq; rcases List.mem_cons.mp hq with rfl | hq
          · exact hr
          · exact this q hq

theorem dropRedundant_length (prev : Row) (rs : List Row) :
    (dropRedundant prev rs).length ≤ rs.length := by
  induction rs generalizing prev with
  | nil => simp [dropRedundant]
  | cons r rs ih =>
    unfold dropRedundant
    have := ih r
    split
    · simp; omega
    · split
      · simp; omega
      · simp; omega

theorem dropRedundant_mem (prev : Row) (rs : List Row) :
    ∀ r ∈ dropRedundant prev rs, r ∈ rs := by
  induction rs generalizing prev with
  | nil => simp [dropRedundant]
  | cons r rs ih =>
    unfold dropRedundant
    intro q hq
    split at hq
    · exact List.mem_cons_of_mem _ (ih r q hq)
    · split at hq
      · exact List.mem_cons_of_mem _ (ih r q hq)
      · rcases List.mem_cons.mp hq with rfl | hq
        · simp
        · exact List.mem_cons_of_mem _ (ih r q hq)

theorem simplify_ncols (c : Cst) : (simplify c).ncols = c.ncols := by
  unfold simplify; split <;> rfl

theorem simplify_mem (c : Cst) (q : Row) (hq : q ∈ (simplify c).rows) :
    q ∈ c.rows.map normalizeRow := by
  unfold simplify at hq
  split at hq
  · rename_i h
    have hp := List.perm_insertionSort (fun a b => rowLe a b = true) (c.rows.map normalizeRow)
    rw [h] at hp
    have := hp.length_eq
    simp at this
    have : c.rows = [] := List.length_eq_zero_iff.mp this.symm
    rw [this] at hq; simp at hq
  · rename_i r rs h
    have hp := List.perm_insertionSort (fun a b => rowLe a b = true) (c.rows.map normalizeRow)
    rw [← hp.mem_iff, h]
    rcases List.mem_cons.mp hq with rfl | hq
    · simp
    · exact List.mem_cons_of_mem _ (dropRedundant_mem _ _ _ hq)

theorem simplify_wf (c : Cst) (h : c.WF) : (simplify c).WF := by
  refine ⟨by rw [simplify_ncols]; exact h.1, ?_⟩
  intro q hq
  obtain ⟨r, hr, rfl⟩ := List.mem_map.mp (simplify_mem c q hq)
  rw [simplify_ncols, normalizeRow_length]; exact h.2 r hr

theorem simplify_sat (c : Cst) (x : List R) : (simplify c).Sat x ↔ c.Sat x := by
  unfold simplify Cst.Sat
  split
  · rfl
  · rename_i r rs h
    have hp := List.perm_insertionSort (fun a b => rowLe a b = true) (c.rows.map normalizeRow)
    have e : (∀ q ∈ r :: rs, q.Sat x) ↔ ∀ q ∈ c.rows, q.Sat x := by
      rw [← h]
      constructor
      · intro hh q hq
        rw [← normalizeRow_sat]
        exact hh _ (hp.mem_iff.mpr (List.mem_map_of_mem hq))
      · intro hh q hq
        obtain ⟨q', hq', rfl⟩ := List.mem_map.mp (hp.mem_iff.mp hq)
        exact (normalizeRow_sat _ _).mpr (hh q' hq')
    rw [← e]
    simp only [List.mem_cons, forall_eq_or_imp]
    constructor
    · rintro ⟨h1, h2⟩; exact ⟨h1, (dropRedundant_sat r rs x h1).mp h2⟩
    · rintro ⟨h1, h2⟩; exact ⟨h1, (dropRedundant_sat r rs x h1).mpr h2⟩

theorem simplify_length (c : Cst) : (simplify c).rows.length ≤ c.rows.length := by
  have hp := List.perm_insertionSort (fun a b => rowLe a b = true) (c.rows.map normalizeRow)
  have hl := hp.length_eq
  unfold simplify
  split
  · rfl
  · rename_i r rs h
    rw [h] at hl; simp at hl
    have := dropRedundant_length r rs
    simp; omega

/-! ### toPureIneq -/

theorem negEqSum_aux (rows : List Row) (n : Nat) (acc : List Int) (x : List R)
    (ha : acc.length = n) (hr : ∀ r ∈ rows, r.val.length = n) :
    (rows.foldl (fun acc r => if r.eq then List.zipWith (fun p q => p - q) acc r.val else acc)
      acc).length = n ∧
    dot (rows.foldl (fun acc r => if r.eq then List.zipWith (fun p q => p - q) acc r.val else acc)
      acc) x = dot acc x - ((rows.filter (·.eq)).map (fun r => dot r.val x)).sum := by
  induction rows generalizing acc with
  | nil => simp [ha]
  | cons r rs ih =>
    simp only [List.foldl_cons]
    have hl : r.val.length = n := hr r (by simp)
    have hrs : ∀ q ∈ rs, q.val.length = n := fun q hq => hr q (by simp [hq])
    by_cases he : r.eq = true
    · have h1 : (List.zipWith (fun p q => p - q) acc r.val).length = n := by simp [ha, hl]
      obtain ⟨h2, h3⟩ := ih _ h1 hrs
      simp only [he, if_true]
      refine ⟨h2, ?_⟩
      rw [h3, dot_zipWith_sub _ _ _ (by rw [ha, hl])]
      simp [List.filter_cons, he]; ring
    · obtain ⟨h2, h3⟩ := ih acc ha hrs
      simp only [he, Bool.false_eq_true, if_false]
      refine ⟨h2, ?_⟩
      rw [h3]; simp [List.filter_cons, he]

theorem negEqSum_length (c : Cst) (h : c.WF) : (negEqSum c.ncols c.rows).length = c.ncols :=
  (negEqSum_aux (R := Int) c.rows c.ncols (List.replicate c.ncols 0) [] (by simp) h.2).1

theorem aff_negEqSum (c : Cst) (h : c.WF) (x : List R) :
    aff (negEqSum c.ncols c.rows) x = -((c.rows.filter (·.eq)).map (fun r => aff r.val x)).sum := by
  have := (negEqSum_aux c.rows c.ncols (List.replicate c.ncols 0) (x ++ [(1 : R)]) (by simp) h.2).2
  unfold aff negEqSum
  rw [this, dot_zero]; simp

theorem toPureIneq_wf (c : Cst) (h : c.WF) : (toPureIneq c).WF := by
  refine ⟨h.1, ?_⟩
  intro q hq
  unfold toPureIneq at hq ⊢
  simp only at hq ⊢
  rcases List.mem_append.mp hq with hq | hq
  · obtain ⟨r, hr, rfl⟩ := List.mem_map.mp hq
    exact h.2 r hr
  · split at hq
    · simp at hq; subst hq; exact negEqSum_length c h
    · simp at hq

theorem toPureIneq_pure (c : Cst) : ∀ r ∈ (toPureIneq c).rows, r.eq = false := by
  intro q hq
  unfold toPureIneq at hq
  rcases List.mem_append.mp hq with hq | hq
  · obtain ⟨r, hr, rfl⟩ := List.mem_map.mp hq; rfl
  · split at hq
    · simp at hq; subst hq; rfl
    · simp at hq

theorem sum_nonneg_le_zero (l : List R) (h : ∀ a ∈ l, 0 ≤ a) (hs : l.sum ≤ 0) :
    ∀ a ∈ l, a = 0 := by
  induction l with
  | nil => simp
  | cons b bs ih =>
    have hb := h b (by simp)
    have hbs : 0 ≤ bs.sum := List.sum_nonneg (fun a ha => h a (by simp [ha]))
    simp only [List.sum_cons] at hs
    have h0 : b = 0 := le_antisymm (by linarith) hb
    intro a ha
    rcases List.mem_cons.mp ha with rfl | ha
    · exact h0
    · exact ih (fun a ha => h a (by simp [ha])) (by linarith) a ha

theorem toPureIneq_sat (c : Cst) (h : c.WF) (x : List R) : (toPureIneq c).Sat x ↔ c.Sat x := by
  have hneg := aff_negEqSum c h x
  constructor
  · intro hs r hr
    have h1 : ∀ r ∈ c.rows, 0 ≤ aff r.val x := by
      intro r hr
      have := hs ⟨false, r.val⟩ (by
        unfold toPureIneq; apply List.mem_append_left
        exact List.mem_map.mpr ⟨r, hr, rfl⟩)
      simpa [Row.Sat] using this
    by_cases he : r.eq = true
    · have hany : c.rows.any (fun r => r.eq) = true := List.any_eq_true.mpr ⟨r, hr, he⟩
      have h2 := hs ⟨false, negEqSum c.ncols c.rows⟩ (by
        unfold toPureIneq; apply List.mem_append_right; simp [hany])
      simp only [Row.Sat, Bool.false_eq_true, if_false, hneg] at h2
      have h3 := sum_nonneg_le_zero ((c.rows.filter (·.eq)).map (fun r => aff r.val x))
        (by intro a ha
            obtain ⟨q, hq, rfl⟩ := List.mem_map.mp ha
            exact h1 q (List.mem_of_mem_filter hq)) (by linarith)
      have := h3 (aff r.val x) (List.mem_map.mpr ⟨r, List.mem_filter.mpr ⟨hr, he⟩, rfl⟩)
      simp [Row.Sat, he, this]
    · simp [Row.Sat, he]; exact h1 r hr
  · intro hs q hq
    unfold toPureIneq at hq
    rcases List.mem_append.mp hq with hq | hq
    · obtain ⟨r, hr, rfl⟩ := List.mem_map.mp hq
      have := hs r hr
      simp only [Row.Sat, Bool.false_eq_true, if_false] at this ⊢
      split at this
      · rw [this]
      · exact this
    · split at hq
      · simp at hq; subst hq
        simp only [Row.Sat, Bool.false_eq_true, if_false, hneg]
        have : ((c.rows.filter (·.eq)).map (fun r => aff r.val x)).sum = 0 := by
          apply List.sum_eq_zero
          intro a ha
          obtain ⟨q, hq, rfl⟩ := List.mem_map.mp ha
          obtain ⟨h1, h2⟩ := List.mem_filter.mp hq
          have := hs q h1
          simpa [Row.Sat, h2] using this
        rw [this]; simp
      · simp at hq

end Pluto
