import Verif.Spec.Extent
import Verif.Lemmas.MatSum
import Verif.Lemmas.Affine

/-! The printed bounds of a variable. -/

namespace Pluto

/-- The part of the row that does not depend on the first variable. -/
def rowRest (row q : List Int) : Int := dot (row.tail) (q ++ [1])

theorem aff_rest {row q : List Int} (h : row.length = q.length + 2) (v : Int) : aff row (v :: q) = coef row 0 * v + rowRest row q := by
  match row, h with
  | a :: row, _ => simp [aff, rowRest, dot, coef]

theorem termsValue_append (q : List Int) (l m : List CTerm) : termsValue q (l ++ m) = termsValue q l + termsValue q m := by
  simp [termsValue]

theorem exprTerms_value {row q : List Int} (h : row.length = q.length + 2) (sign : Int) :
    termsValue q (exprTerms sign row) = sign * rowRest row q := by
  obtain ⟨a, mid, k, rfl, hm⟩ : ∃ a mid k, row = a :: (mid ++ [k]) ∧ mid.length = q.length := by
    match row, h with
    | a :: row, h =>
      have hne : row ≠ [] := by rintro rfl; simp at h
      refine ⟨a, row.dropLast, row.getLast hne, by rw [List.dropLast_append_getLast hne], ?_⟩
      simp at h ⊢
      omega
  have h1 : ∀ n, termsValue q ((List.range n).filterMap (fun c => if coef (a :: (mid ++ [k])) (c + 1) ≠ 0 then
      some (CTerm.par (sign * coef (a :: (mid ++ [k])) (c + 1)) c) else none)) =
        ∑ j ∈ Finset.range n, sign * (coef (a :: (mid ++ [k])) (j + 1) * q.getD j 0) := by
    intro n
    induction n with
    | zero => rfl
    | succ n ih =>
      rw [List.range_succ, List.filterMap_append, termsValue_append, ih, Finset.sum_range_succ]
      congr 1
      by_cases h0 : coef (a :: (mid ++ [k])) (n + 1) = 0
      · simp [h0, termsValue]
      · simp [h0, termsValue, CTerm.value]
        ring
  unfold exprTerms
  rw [termsValue_append, h1]
  have hl : (a :: (mid ++ [k])).length - 2 = mid.length := by simp
  have hlast : (a :: (mid ++ [k])).getLastD 0 = k := by simp [List.getLastD]
  have e2 : termsValue q (if (a :: (mid ++ [k])).getLastD 0 ≠ 0 then [CTerm.num (sign * (a :: (mid ++ [k])).getLastD 0)] else []) = sign * k := by
    rw [hlast]
    split_ifs with h0
    · simp [termsValue, CTerm.value]
    · simp at h0; simp [termsValue, h0]
  rw [e2, hl, ← Finset.mul_sum]
  have e3 : rowRest (a :: (mid ++ [k])) q = dot mid q + k := by
    unfold rowRest
    rw [List.tail_cons, dot_append _ _ _ _ hm]
    simp [dot]
  rw [e3, dot_eq_sum mid q mid.length rfl, mul_add]
  congr 2
  refine Finset.sum_congr rfl (fun j hj => ?_)
  rw [Finset.mem_range] at hj
  have : coef (a :: (mid ++ [k])) (j + 1) = coef mid j := by
    simp [coef, List.getElem?_append_left hj]
  rw [this]
  simp

theorem rowRest_const {row q : List Int} (h : row.length = q.length + 2)
    (h0 : (List.range (row.length - 2)).all (fun c => decide (coef row (c + 1) = 0)) = true) : rowRest row q = row.getLastD 0 := by
  have h1 := exprTerms_value h 1
  rw [one_mul] at h1
  rw [← h1]
  unfold exprTerms
  have e : (List.range (row.length - 2)).filterMap (fun c => if coef row (c + 1) ≠ 0 then
      some (CTerm.par (1 * coef row (c + 1)) c) else none) = [] := by
    rw [List.filterMap_eq_nil_iff]
    intro c hc
    have := of_decide_eq_true (List.all_eq_true.mp h0 c hc)
    simp [this]
  rw [e, List.nil_append]
  split_ifs with hk
  · simp [termsValue, CTerm.value]
  · simp only [ne_eq, not_not] at hk; rw [hk]; rfl

theorem lin_value (q : List Int) (l : List CTerm) : (CExpr.lin l).value q = termsValue q l := by
  cases l with
  | nil => simp [CExpr.value, CExpr.first, CExpr.others, termsValue]
  | cons t l => simp [CExpr.value, CExpr.first, CExpr.others, termsValue]

theorem getExpr_lower {row q : List Int} (h : row.length = q.length + 2) {e : CExpr} (he : getExpr true row = some e) (v : Int) :
    0 ≤ aff row (v :: q) ↔ e.value q ≤ v := by
  unfold getExpr at he
  simp only [if_true] at he
  split_ifs at he with ha hc h1
  · obtain rfl := Option.some.inj he
    rw [aff_rest h, rowRest_const h hc, lin_value]
    simp only [termsValue, List.map_cons, List.map_nil, List.sum_cons, List.sum_nil, CTerm.value, add_zero]
    have := Int.le_ediv_iff_mul_le (a := -v) (b := row.getLastD 0) (c := coef row 0) (by omega)
    constructor
    · intro h; have := this.mpr (by linarith [mul_comm v (coef row 0)]); omega
    · intro h; have := this.mp (by omega); linarith [mul_comm v (coef row 0)]
  · obtain rfl := Option.some.inj he
    rw [aff_rest h, lin_value, exprTerms_value h, h1]
    omega
  · obtain rfl := Option.some.inj he
    rw [aff_rest h]
    show _ ↔ -(-(termsValue q (exprTerms (-1) row)) / coef row 0) + 0 ≤ v
    rw [exprTerms_value h]
    have := Int.le_ediv_iff_mul_le (a := -v) (b := rowRest row q) (c := coef row 0) (by omega)
    rw [show -(-1 * rowRest row q) = rowRest row q by ring]
    constructor
    · intro h; have := this.mpr (by linarith [mul_comm v (coef row 0)]); omega
    · intro h; have := this.mp (by omega); linarith [mul_comm v (coef row 0)]

theorem getExpr_upper {row q : List Int} (h : row.length = q.length + 2) {e : CExpr} (he : getExpr false row = some e) (v : Int) :
    0 ≤ aff row (v :: q) ↔ v ≤ e.value q := by
  unfold getExpr at he
  simp only [Bool.false_eq_true, if_false] at he
  have key : ∀ R : Int, coef row 0 ≤ -1 → (0 ≤ coef row 0 * v + R ↔ v ≤ R / -coef row 0) := by
    intro R ha
    rw [Int.le_ediv_iff_mul_le (by omega)]
    constructor <;> intro h <;> linarith [mul_comm v (coef row 0), neg_mul_comm v (coef row 0), mul_neg v (coef row 0)]
  split_ifs at he with ha hc h1
  · obtain rfl := Option.some.inj he
    rw [aff_rest h, rowRest_const h hc, lin_value, key _ ha]
    simp [termsValue, CTerm.value]
  · obtain rfl := Option.some.inj he
    rw [aff_rest h, lin_value, exprTerms_value h, h1]
    omega
  · obtain rfl := Option.some.inj he
    rw [aff_rest h, key _ ha]
    show _ ↔ v ≤ termsValue q (exprTerms 1 row) / -coef row 0 + 0
    rw [exprTerms_value h]
    simp

theorem getFunc_lower {q : List Int} : ∀ {rows : List (List Int)} {b : CBound}, (∀ r ∈ rows, r.length = q.length + 2) →
    getFuncOfExpr true rows = some b → ∀ v, (∀ r ∈ rows, 0 ≤ aff r (v :: q)) ↔ b.value q ≤ v
  | [], _, _, h, _ => by simp [getFuncOfExpr] at h
  | [r], b, hl, h, v => by
    obtain ⟨e, he, rfl⟩ := Option.map_eq_some_iff.mp h
    simp only [List.mem_singleton, forall_eq]
    exact getExpr_lower (hl r (by simp)) he v
  | r :: r' :: rs, b, hl, h, v => by
    simp only [getFuncOfExpr, Option.bind_eq_bind, Option.bind_eq_some_iff, Option.pure_def, Option.some.injEq] at h
    obtain ⟨e, he, b', hb, rfl⟩ := h
    rw [List.forall_mem_cons, getExpr_lower (hl r (by simp)) he v,
      getFunc_lower (rows := r' :: rs) (fun x hx => hl x (List.mem_cons_of_mem _ hx)) hb v]
    simp [CBound.value]

theorem getFunc_upper {q : List Int} : ∀ {rows : List (List Int)} {b : CBound}, (∀ r ∈ rows, r.length = q.length + 2) →
    getFuncOfExpr false rows = some b → ∀ v, (∀ r ∈ rows, 0 ≤ aff r (v :: q)) ↔ v ≤ b.value q
  | [], _, _, h, _ => by simp [getFuncOfExpr] at h
  | [r], b, hl, h, v => by
    obtain ⟨e, he, rfl⟩ := Option.map_eq_some_iff.mp h
    simp only [List.mem_singleton, forall_eq]
    exact getExpr_upper (hl r (by simp)) he v
  | r :: r' :: rs, b, hl, h, v => by
    simp only [getFuncOfExpr, Option.bind_eq_bind, Option.bind_eq_some_iff, Option.pure_def, Option.some.injEq] at h
    obtain ⟨e, he, b', hb, rfl⟩ := h
    rw [List.forall_mem_cons, getExpr_upper (hl r (by simp)) he v,
      getFunc_upper (rows := r' :: rs) (fun x hx => hl x (List.mem_cons_of_mem _ hx)) hb v]
    simp [CBound.value]

theorem aff_neg_row (r : List Int) (x : List Int) : aff (r.map (- ·)) x = -aff r x := by
  unfold aff
  generalize x ++ [1] = y
  induction r generalizing y with
  | nil => simp [dot]
  | cons a r ih =>
    cases y with
    | nil => simp [dot]
    | cons b y => simp only [List.map_cons, dot, ih y]; push_cast; ring

/-- Lower and upper bounds together say what the rows with the variable say. -/
theorem bounds_rows (rows : List Row) (x : List Int) :
    ((∀ r ∈ lowerBounds rows, 0 ≤ aff r x) ∧ ∀ r ∈ upperBounds rows, 0 ≤ aff r x) ↔ ∀ r ∈ rows, coef r.val 0 ≠ 0 → r.Sat x := by
  simp only [lowerBounds, upperBounds, List.mem_flatMap, forall_exists_index, and_imp, ← forall_and]
  constructor
  · intro h r hr h0
    have hl := fun t ht => (h t r hr).1 ht
    have hu := fun t ht => (h t r hr).2 ht
    unfold Row.Sat
    by_cases he : r.eq = true
    · rw [if_pos he]
      have h1 := hl r.val (by simp [he, h0])
      have h2 := hu (r.val.map (- ·)) (by simp [he, h0])
      rw [aff_neg_row] at h2
      omega
    · rw [if_neg he]
      rcases lt_or_ge 0 (coef r.val 0) with hp | hp
      · exact hl r.val (by simp [show coef r.val 0 ≥ 1 by omega])
      · exact hu r.val (by simp [show ¬ coef r.val 0 ≥ 1 by omega, show coef r.val 0 ≤ -1 by omega])
  · intro h t r hr
    constructor
    · intro ht
      rcases List.mem_append.mp ht with ht | ht
      · split_ifs at ht with hc
        · simp only [Bool.and_eq_true, decide_eq_true_eq] at hc
          have := h r hr hc.2
          unfold Row.Sat at this
          rw [if_pos hc.1] at this
          rw [List.mem_singleton.mp ht]; omega
        · simp at ht
      · split_ifs at ht with hc
        · have := h r hr (by omega)
          unfold Row.Sat at this
          rw [List.mem_singleton.mp ht]
          split_ifs at this <;> omega
        · simp at ht
    · intro ht
      rcases List.mem_append.mp ht with ht | ht
      · split_ifs at ht with hc
        · simp only [Bool.and_eq_true, decide_eq_true_eq] at hc
          have := h r hr hc.2
          unfold Row.Sat at this
          rw [if_pos hc.1] at this
          rw [List.mem_singleton.mp ht, aff_neg_row]; omega
        · simp at ht
      · split_ifs at ht with h1 hc
        · simp at ht
        · have := h r hr (by omega)
          unfold Row.Sat at this
          rw [List.mem_singleton.mp ht]
          split_ifs at this <;> omega
        · simp at ht

theorem bounds_len {rows : List Row} {n : Nat} (h : ∀ r ∈ rows, r.val.length = n) :
    (∀ r ∈ lowerBounds rows, r.length = n) ∧ ∀ r ∈ upperBounds rows, r.length = n := by
  constructor
  · intro t ht
    obtain ⟨r, hr, ht⟩ := List.mem_flatMap.mp ht
    have := h r hr
    rcases List.mem_append.mp ht with ht | ht <;> split_ifs at ht <;> simp at ht <;> rw [ht] <;> simpa
  · intro t ht
    obtain ⟨r, hr, ht⟩ := List.mem_flatMap.mp ht
    have := h r hr
    rcases List.mem_append.mp ht with ht | ht <;> split_ifs at ht <;> simp at ht <;> rw [ht] <;> simpa

end Pluto
