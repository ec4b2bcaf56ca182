import Verif.Lemmas.CstEdit

/-!
C27 (dimension and row editing of constraint systems) and C29 (negation and half spaces).
Specification: `Cst.Sat` of `Verif/Spec/Affine.lean`. Points are over any ordered ring (integers,
rationals, reals).
-/

namespace Pluto

set_option linter.unusedSectionVars false

variable {R : Type*} [CommRing R] [LinearOrder R] [IsStrictOrderedRing R]

/-! ### C27 -/

/-- C27. After `pluto_constraints_add_dim` the new variable is unconstrained: a point with any value
at the new position is a solution exactly when the old point is. -/
theorem C27_add_dim (c : Cst) (pos : Nat) (x : List R) (v : R) (hc : c.WF) (hx : x.length + 1 = c.ncols)
    (hp : pos ≤ x.length) : (addDim c pos).Sat (x.insertIdx pos v) ↔ c.Sat x := by
  simp only [Cst.Sat, addDim, List.mem_map, forall_exists_index, and_imp, forall_apply_eq_imp_iff₂]
  refine forall₂_congr fun r hr => ?_
  have hl : r.val.length = x.length + 1 := by rw [hc.2 r hr]; omega
  have e : aff (r.val.insertIdx pos 0) (x.insertIdx pos v) = aff r.val x := by
    rw [aff_insertIdx _ _ _ _ (by rw [List.length_insertIdx_of_le_length (by omega)]; omega) hp]
    simp [List.getD_eq_getElem?_getD, List.getElem?_insertIdx_self, show pos ≤ r.val.length by omega]
  unfold Row.Sat
  rw [e]

/-- C27. The result is well formed with one more column and the same equality flags. -/
theorem C27_add_dim_shape (c : Cst) (pos : Nat) (hc : c.WF) (hp : pos + 1 ≤ c.ncols) :
    (addDim c pos).WF ∧ (addDim c pos).ncols = c.ncols + 1 ∧
      (addDim c pos).rows.map (·.eq) = c.rows.map (·.eq) := by
  refine ⟨⟨by simp [addDim], fun r hr => ?_⟩, rfl, by simp [addDim, Function.comp_def]⟩
  simp only [addDim, List.mem_map] at hr ⊢
  obtain ⟨r', hr', rfl⟩ := hr
  rw [List.length_insertIdx_of_le_length (by rw [hc.2 r' hr']; omega), hc.2 r' hr']

/-- C27. Adding leading dimensions: any values in front. -/
theorem C27_add_leading_dims (c : Cst) (y x : List R) (hc : c.WF) (hx : x.length + 1 = c.ncols) :
    (addLeadingDims c y.length).Sat (y ++ x) ↔ c.Sat x := by
  induction y using List.reverseRecOn generalizing c x with
  | nil => simp [addLeadingDims]
  | append_singleton ys v ih =>
    have hs := C27_add_dim_shape c 0 hc (by omega)
    rw [List.length_append, List.length_singleton]
    show (addLeadingDims (addDim c 0) ys.length).Sat _ ↔ _
    rw [List.append_assoc, ih (addDim c 0) ([v] ++ x) hs.1 (by rw [hs.2.1]; simp; omega)]
    exact C27_add_dim c 0 x v hc hx (Nat.zero_le _)

/-- C27. Removing the dimension just added is the identity. -/
theorem C27_remove_add_dim (c : Cst) (pos : Nat) : removeDim (addDim c pos) pos = c := by
  have : (fun r : Row => ({ r with val := r.val.eraseIdx pos } : Row)) ∘
      (fun r : Row => ({ r with val := r.val.insertIdx pos 0 } : Row)) = id := by
    funext r; simp
  simp only [removeDim, addDim, List.map_map, this, List.map_id, Nat.add_sub_cancel]

/-- C27. Removing a dimension fixes it at zero: the remaining solutions are those whose removed
coordinate is 0 (all of the shadow when the column is zero). -/
theorem C27_remove_dim (c : Cst) (pos : Nat) (x : List R) (hc : c.WF) (hx : x.length + 2 = c.ncols)
    (hp : pos ≤ x.length) : (removeDim c pos).Sat x ↔ c.Sat (x.insertIdx pos 0) := by
  simp only [Cst.Sat, removeDim, List.mem_map, forall_exists_index, and_imp,
    forall_apply_eq_imp_iff₂]
  refine forall₂_congr fun r hr => ?_
  unfold Row.Sat
  rw [aff_insertIdx _ _ _ _ (by rw [hc.2 r hr]; omega) hp]
  simp

/-- C27. Interchanging two columns exchanges the two variables. -/
theorem C27_interchange_cols (c : Cst) (i j : Nat) (x y : List R) (hc : c.WF)
    (hx : x.length + 1 = c.ncols) (hi : i < x.length) (hj : j < x.length)
    (hy : ∀ k, y[k]? = if k = i then x[j]? else if k = j then x[i]? else x[k]?) :
    (interchangeCols c i j).Sat y ↔ c.Sat x := by
  unfold interchangeCols
  split_ifs with h
  · subst h
    have : y = x := List.ext_getElem? fun k => by
      rw [hy k]; by_cases hk : k = i <;> simp [hk]
    rw [this]
  · simp only [Cst.Sat, List.mem_map, forall_exists_index, and_imp, forall_apply_eq_imp_iff₂]
    refine forall₂_congr fun r hr => ?_
    have hl : y.length = x.length := by
      have h1 := hy x.length
      rw [if_neg (by omega), if_neg (by omega), List.getElem?_eq_none (Nat.le_refl _)] at h1
      have h2 := List.getElem?_eq_none_iff.mp h1
      have h3 : x.length ≤ y.length := by
        by_contra hlt
        have h4 := hy y.length
        rw [List.getElem?_eq_none (Nat.le_refl _)] at h4
        split_ifs at h4
        · have := List.getElem?_eq_none_iff.mp h4.symm; omega
        · have := List.getElem?_eq_none_iff.mp h4.symm; omega
        · have := List.getElem?_eq_none_iff.mp h4.symm; omega
      omega
    have e : aff (swapIdx r.val i j) y = aff r.val x := by
      unfold aff
      refine dot_swapIdx _ _ _ _ _ (by rw [hc.2 r hr]; omega) (by rw [hc.2 r hr]; omega) fun k => ?_
      simp only [List.getD_eq_getElem?_getD, List.getElem?_append, hl]
      by_cases hk : k < x.length
      · rw [if_pos hk, hy]
        split_ifs <;> rfl
      · rw [if_neg hk, if_neg (by omega : ¬ k = i), if_neg (by omega : ¬ k = j), if_neg hk]
    show (⟨r.eq, swapIdx r.val i j⟩ : Row).Sat y ↔ r.Sat x
    unfold Row.Sat
    rw [e]

/-- C27. `pluto_constraints_add` intersects. -/
theorem C27_add (c1 c2 : Cst) (x : List R) : (addCst c1 c2).Sat x ↔ c1.Sat x ∧ c2.Sat x :=
  by simp [Cst.Sat, addCst, or_imp, forall_and]

theorem C27_add_shape (c1 c2 : Cst) (h1 : c1.WF) (h2 : c2.WF) (he : c1.ncols = c2.ncols) :
    (addCst c1 c2).WF ∧ (addCst c1 c2).ncols = c1.ncols := ⟨addCst_wf h1 h2 he.symm, rfl⟩

/-- C27. `pluto_constraints_shift_dim` is substitution: the new system holds at `x` exactly when the
old one holds at `x` with coordinate `pos` replaced by `x_pos - func(x)`. -/
theorem C27_shift_dim (c : Cst) (pos : Nat) (func : List Int) (x : List R) (hc : c.WF)
    (hx : x.length + 1 = c.ncols) (hp : pos < x.length) (hf : func.length = c.ncols)
    (h0 : func[pos]? = some 0) :
    (shiftDim c pos func).Sat x ↔ c.Sat (x.set pos (x.getD pos 0 - aff func x)) := by
  simp only [Cst.Sat, shiftDim, List.mem_map, forall_exists_index, and_imp, forall_apply_eq_imp_iff₂]
  refine forall₂_congr fun r hr => ?_
  have e : aff ((List.zipWith (fun a f => a - coef r.val pos * f) r.val func).set pos (coef r.val pos)) x =
      aff r.val (x.set pos (x.getD pos 0 - aff func x)) := by
    have hz : (List.zipWith (fun a f => a - coef r.val pos * f) r.val func).length = x.length + 1 := by
      rw [List.length_zipWith, hc.2 r hr, hf]; omega
    have hsame : (List.zipWith (fun a f => a - coef r.val pos * f) r.val func).set pos (coef r.val pos) =
        List.zipWith (fun a f => a - coef r.val pos * f) r.val func := by
      apply List.ext_getElem?; intro k
      rw [List.getElem?_set]
      split_ifs with h1 h2
      · subst h1
        have hq : pos < r.val.length := by rw [hc.2 r hr]; omega
        simp [List.getElem?_zipWith, h0, coef, List.getElem?_eq_getElem hq]
      · omega
      · rfl
    rw [hsame, aff_point_set _ _ _ _ hp]
    unfold aff
    rw [zipWith_sub_mul _ _ _ _ (by rw [hc.2 r hr, hf])]
    ring
  unfold Row.Sat
  show (if r.eq = true then aff ((List.zipWith _ r.val func).set _ _) x = 0 else _) ↔ _
  rw [e]

/-- C27. `pluto_constraints_add_lb` intersects with `x_v >= lb`. -/
theorem C27_add_lb (c : Cst) (v : Nat) (lb : Int) (x : List R) (hx : x.length + 1 = c.ncols)
    (hv : v < x.length) : (addLb c v lb).Sat x ↔ c.Sat x ∧ (lb : R) ≤ x.getD v 0 := by
  have e := aff_unit (R := R) c.ncols v 1 (-lb) x hv hx
  have : (addLb c v lb).Sat x ↔ c.Sat x ∧ (⟨false, unitRow c.ncols v 1 (-lb)⟩ : Row).Sat x := by
    simp [Cst.Sat, addLb, or_imp, forall_and]
  rw [this]
  unfold Row.Sat
  rw [e]
  push_cast
  simp

/-- C27. `pluto_constraints_add_ub` intersects with `x_v <= ub`. -/
theorem C27_add_ub (c : Cst) (v : Nat) (ub : Int) (x : List R) (hx : x.length + 1 = c.ncols)
    (hv : v < x.length) : (addUb c v ub).Sat x ↔ c.Sat x ∧ x.getD v 0 ≤ (ub : R) := by
  have e := aff_unit (R := R) c.ncols v (-1) ub x hv hx
  have : (addUb c v ub).Sat x ↔ c.Sat x ∧ (⟨false, unitRow c.ncols v (-1) ub⟩ : Row).Sat x := by
    simp [Cst.Sat, addUb, or_imp, forall_and]
  rw [this]
  unfold Row.Sat
  rw [e]
  push_cast
  simp

/-- C27. `pluto_constraints_set_var` intersects with `x_v = val`. -/
theorem C27_set_var (c : Cst) (v : Nat) (val : Int) (x : List R) (hx : x.length + 1 = c.ncols)
    (hv : v < x.length) : (setVar c v val).Sat x ↔ c.Sat x ∧ x.getD v 0 = (val : R) := by
  have e := aff_unit (R := R) c.ncols v 1 (-val) x hv hx
  have : (setVar c v val).Sat x ↔ c.Sat x ∧ (⟨true, unitRow c.ncols v 1 (-val)⟩ : Row).Sat x := by
    simp [Cst.Sat, setVar, or_imp, forall_and]
  rw [this]
  unfold Row.Sat
  rw [e]
  push_cast
  simp only [if_true, one_mul]
  rw [← sub_eq_add_neg, sub_eq_zero]

/-- C27. The universe contains every point, the empty system none. -/
theorem C27_universe (n : Nat) (x : List R) : (universeCst n).Sat x := by simp [Cst.Sat, universeCst]

theorem C27_empty (n : Nat) (x : List R) (hx : x.length + 1 = n) : ¬ (emptyCst n).Sat x := by
  subst hx
  intro h
  have h1 := h _ (List.mem_singleton.mpr rfl)
  simp only [Row.Sat, if_true, Nat.add_sub_cancel] at h1
  rw [aff_set_const _ _ _ (by simp)] at h1
  have h0 : aff (List.replicate (x.length + 1) (0 : Int)) x = 0 := by unfold aff; exact dot_zero _ _
  rw [h0] at h1
  simp [coef, List.getD_eq_getElem?_getD] at h1

/-- C27. Removing a row removes exactly that constraint; selecting it gives it back. -/
theorem C27_select_remove_row (c : Cst) (pos : Nat) (h : pos < c.rows.length) :
    ∃ r, selectRow c pos = some r ∧ r.ncols = c.ncols ∧
      ∀ x : List R, c.Sat x ↔ (removeRow c pos).Sat x ∧ r.Sat x := by
  refine ⟨⟨c.ncols, [c.rows[pos]]⟩, by simp [selectRow, h], rfl, fun x => ?_⟩
  have e : c.rows = c.rows.take pos ++ c.rows[pos] :: c.rows.drop (pos + 1) := by simp
  simp only [Cst.Sat, removeRow, List.eraseIdx_eq_take_drop_succ, List.mem_singleton, forall_eq]
  constructor
  · intro h1
    refine ⟨fun r hr => h1 r ?_, h1 _ (List.getElem_mem h)⟩
    rcases List.mem_append.mp hr with hr | hr
    · exact List.mem_of_mem_take hr
    · exact List.mem_of_mem_drop hr
  · rintro ⟨h1, h2⟩ r hr
    rw [e] at hr
    rcases List.mem_append.mp hr with hr | hr
    · exact h1 r (List.mem_append.mpr (.inl hr))
    · rcases List.mem_cons.mp hr with rfl | hr
      · exact h2
      · exact h1 r (List.mem_append.mpr (.inr hr))

/-- A triangle `0 <= i <= j <= N`, columns i, j, N, 1. -/
def exTri : Cst := ⟨4, [⟨false, [1, 0, 0, 0]⟩, ⟨false, [-1, 1, 0, 0]⟩, ⟨false, [0, -1, 1, 0]⟩]⟩

example : exTri.WF ∧ exTri.Sat ([1, 2, 5] : List Int) ∧ ¬ exTri.Sat ([2, 1, 5] : List Int) := by
  refine ⟨by decide, ?_, ?_⟩ <;> simp [exTri, Cst.Sat, Row.Sat, aff, dot]

/-- Shifting `i` by `j + 1`: `0 <= i - j - 1 <= j <= N`. -/
example : shiftDim exTri 0 [0, 1, 0, 1] =
    ⟨4, [⟨false, [1, -1, 0, -1]⟩, ⟨false, [-1, 2, 0, 1]⟩, ⟨false, [0, -1, 1, 0]⟩]⟩ := by decide

example : interchangeCols exTri 0 2 =
    ⟨4, [⟨false, [0, 0, 1, 0]⟩, ⟨false, [0, 1, -1, 0]⟩, ⟨false, [1, -1, 0, 0]⟩]⟩ := by decide

/-! ### C29 -/

/-- C29. The two half spaces of a hyperplane partition the integer points: `h(x) >= 0` and
`h(x) < 0`. -/
theorem C29_half_spaces (n : Nat) (v x : List Int) (hv : v.length = n) (hx : x.length + 1 = n) :
    ∃ p q, nonNegHalfSpace ⟨n, [⟨true, v⟩]⟩ = some p ∧ negHalfSpace ⟨n, [⟨true, v⟩]⟩ = some q ∧
      p.ncols = n ∧ q.ncols = n ∧ (p.Sat x ↔ 0 ≤ aff v x) ∧ (q.Sat x ↔ aff v x < 0) := by
  refine ⟨_, _, rfl, rfl, rfl, rfl, by simp [Cst.Sat, Row.Sat], ?_⟩
  simp only [Cst.Sat, List.mem_singleton, forall_eq, Row.Sat, Bool.false_eq_true, if_false]
  rw [aff_addLast _ _ _ (by simp; omega)]
  have : aff (v.map fun a => -a) x = - aff v x := by unfold aff; rw [dot_map_neg]
  rw [this]
  omega

/-- C29. Both are undefined (assertion failure) unless the argument is one equality. -/
theorem C29_half_spaces_defined (h : Cst) :
    ((nonNegHalfSpace h).isSome ↔ ∃ v, h.rows = [⟨true, v⟩]) ∧
    ((negHalfSpace h).isSome ↔ ∃ v, h.rows = [⟨true, v⟩]) := by
  obtain ⟨n, rows⟩ := h
  rcases rows with _ | ⟨⟨e, v⟩, _ | ⟨r2, rest⟩⟩
  · simp [nonNegHalfSpace, negHalfSpace]
  · cases e <;> simp [nonNegHalfSpace, negHalfSpace]
  · simp [nonNegHalfSpace, negHalfSpace]

/-- C29 fails for `pluto_constraints_negate_constraint`: the negation of `x + 2 >= 0` contains
`x = 0`, which satisfies `x + 2 >= 0`. -/
theorem C29_violated : ∃ (c : Cst) (x : List Int), c.WF ∧ x.length + 1 = c.ncols ∧
    c.rows.length = 1 ∧ (∀ r ∈ c.rows, r.eq = false) ∧ c.Sat x ∧ (negateConstraint c 0).Sat x := by
  refine ⟨⟨2, [⟨false, [1, 2]⟩]⟩, [0], by decide, rfl, rfl, by decide, ?_, ?_⟩
  · simp [Cst.Sat, Row.Sat, aff, dot]
  · simp [negateConstraint, Cst.Sat, Row.Sat, aff, dot]

theorem negate_val (v x : List Int) (h : v.length = x.length + 1) :
    aff (v.mapIdx (fun j a => if j + 1 = v.length then a - 1 else -a)) x =
      2 * coef v x.length - aff v x - 1 := by
  obtain ⟨a, b, rfl⟩ : ∃ a b, v = a ++ [b] :=
    ⟨v.dropLast, v.getLast (by rintro rfl; simp at h), (List.dropLast_append_getLast _).symm⟩
  have ha : a.length = x.length := by simpa using h
  have e : (a ++ [b]).mapIdx (fun j c => if j + 1 = (a ++ [b]).length then c - 1 else -c) =
      a.map (fun c => -c) ++ [b - 1] := by
    rw [List.mapIdx_append]
    congr 1
    · apply List.ext_getElem?; intro i
      simp only [List.getElem?_mapIdx, List.getElem?_map, List.length_append, List.length_singleton]
      rcases Nat.lt_or_ge i a.length with hi | hi
      · rw [List.getElem?_eq_getElem hi]; simp; omega
      · rw [List.getElem?_eq_none hi]; rfl
    · simp
  rw [e]
  unfold aff
  rw [dot_append _ _ _ _ (by simpa using ha), dot_append _ _ _ _ ha, dot_map_neg]
  simp [coef, ← ha]
  ring

/-- C29. Exactly when it is right: `pluto_constraints_negate_constraint` yields the integer
complement of an inequality at every point iff the constant term of the row is 0. Missing for the full
claim: rows with a non-zero constant, for which it is wrong at some point. -/
theorem C29_negate_partial (n : Nat) (v : List Int) (hv : v.length = n + 1) :
    (∀ x : List Int, x.length = n →
      ((negateConstraint ⟨n + 1, [⟨false, v⟩]⟩ 0).Sat x ↔ ¬ (⟨n + 1, [⟨false, v⟩]⟩ : Cst).Sat x)) ↔
    v[n]? = some 0 := by
  have key : ∀ x : List Int, x.length = n → ((negateConstraint ⟨n + 1, [⟨false, v⟩]⟩ 0).Sat x ↔
      aff v x ≤ 2 * coef v n - 1) := by
    intro x hx
    subst hx
    have h := negate_val v x hv
    simp only [Cst.Sat, negateConstraint, List.mapIdx_cons, List.mapIdx_nil, if_true, List.mem_singleton, forall_eq,
      Row.Sat, Bool.false_eq_true, if_false]
    omega
  have hs : ∀ x : List Int, (⟨n + 1, [⟨false, v⟩]⟩ : Cst).Sat x ↔ 0 ≤ aff v x := by
    intro x; simp [Cst.Sat, Row.Sat]
  have hcv : v[n]? = some 0 ↔ coef v n = 0 := by
    simp [coef, List.getD_eq_getElem?_getD, List.getElem?_eq_getElem (show n < v.length by omega)]
  rw [hcv]
  constructor
  · intro h
    have h1 := h (List.replicate n 0) (by simp)
    rw [key _ (by simp), hs] at h1
    obtain ⟨a, b, rfl⟩ : ∃ a b, v = a ++ [b] :=
      ⟨v.dropLast, v.getLast (by rintro rfl; simp at hv), (List.dropLast_append_getLast _).symm⟩
    have ha : a.length = n := by simpa using hv
    have e : aff (a ++ [b]) (List.replicate n (0 : Int)) = coef (a ++ [b]) n := by
      unfold aff
      rw [dot_append _ _ _ _ (by simpa using ha)]
      have : ∀ (a : List Int) (n : Nat), dot a (List.replicate n (0 : Int)) = 0 := by
        intro a
        induction a with
        | nil => intro n; simp
        | cons p ps ih => intro n; cases n with
          | zero => simp
          | succ n => rw [List.replicate_succ, dot_cons, ih]; simp
      rw [this]
      simp [coef, ← ha]
    rw [e] at h1
    omega
  · intro h x hx
    rw [key x hx, hs, h]
    omega

/-- C29. Negating one row leaves the others in force. -/
theorem C29_negate_others (c : Cst) (pos : Nat) (r : Row) (hr : c.rows[pos]? = some r) (x : List Int) :
    (negateConstraint c pos).Sat x ↔
      (negateConstraint ⟨c.ncols, [r]⟩ 0).Sat x ∧ ∀ i r', i ≠ pos → c.rows[i]? = some r' → r'.Sat x := by
  have := mapIdx_sat c (fun r => ⟨r.eq, r.val.mapIdx
    (fun j a => if j + 1 = r.val.length then a - 1 else -a)⟩) pos r hr x
  rw [show (negateConstraint c pos).Sat x ↔ _ from this]
  simp [negateConstraint, Cst.Sat]

/-- A row with constant 0 is negated correctly: `3x - 2y >= 0` becomes `-3x + 2y - 1 >= 0`. -/
example : negateConstraint ⟨3, [⟨false, [3, -2, 0]⟩]⟩ 0 = ⟨3, [⟨false, [-3, 2, -1]⟩]⟩ := by decide

/-- `pluto_constraints_negate_row` negates the affine form (all entries including the constant). -/
theorem C29_negate_row (c : Cst) (pos : Nat) (r : Row) (hr : c.rows[pos]? = some r) (x : List R) :
    (negateRow c pos).Sat x ↔
      (if r.eq then aff r.val x = 0 else aff r.val x ≤ 0) ∧
        ∀ i r', i ≠ pos → c.rows[i]? = some r' → r'.Sat x := by
  have := mapIdx_sat c (fun r => ⟨r.eq, r.val.map (fun a => -a)⟩) pos r hr x
  rw [show (negateRow c pos).Sat x ↔ _ from this]
  have e : aff (r.val.map fun a => -a) x = - aff r.val x := by unfold aff; rw [dot_map_neg]
  simp only [Row.Sat, e, neg_eq_zero, Left.nonneg_neg_iff]

end Pluto
