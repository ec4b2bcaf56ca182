import Verif.Lemmas.MatSum

/-! C45: matrix editing, reordering and product (lib/math_support.c). -/

namespace Pluto

/-- C45. `pluto_matrix_remove_col` deletes exactly column `pos`. -/
theorem C45_remove_col (m : Mat) (pos : Nat) (hm : m.WF) :
    m.removeCol pos =
      if pos < m.ncols then some ⟨m.ncols - 1, m.rows.map (fun r => r.eraseIdx pos)⟩ else none := by
  unfold Mat.removeCol
  by_cases h : pos < m.ncols
  · rw [if_pos (by omega), if_pos h]
    congr 2
    exact List.map_congr_left fun r hr => shiftLeft_eq r pos (by rw [hm r hr]; exact h)
  · rw [if_neg (by omega), if_neg h]

/-- C45. `pluto_matrix_remove_row` deletes exactly row `pos`. -/
theorem C45_remove_row (m : Mat) (pos : Nat) :
    m.removeRow pos =
      if pos < m.rows.length then some ⟨m.ncols, m.rows.eraseIdx pos⟩ else none := by
  unfold Mat.removeRow
  by_cases h : pos < m.rows.length
  · rw [if_pos (by omega), if_pos h, shiftLeft_eq _ _ h]
  · rw [if_neg (by omega), if_neg h]

/-- C45. `pluto_matrix_add_col` inserts a zero column at `pos`, whatever the uninitialised memory
contains. -/
theorem C45_add_col (junk : Int) (m : Mat) (pos : Nat) (hm : m.WF) :
    m.addCol junk pos =
      if pos ≤ m.ncols then some ⟨m.ncols + 1, m.rows.map (fun r => r.insertIdx pos 0)⟩ else none := by
  unfold Mat.addCol
  by_cases h : pos ≤ m.ncols
  · rw [if_pos h, if_pos h]
    congr 2
    exact List.map_congr_left fun r hr => shiftRight_eq junk r pos 0 (by rw [hm r hr]; exact h)
  · rw [if_neg h, if_neg h]

/-- C45. `pluto_matrix_add_row` inserts a zero row at `pos`. -/
theorem C45_add_row (junk : List Int) (m : Mat) (pos : Nat) :
    m.addRow junk pos =
      if pos ≤ m.rows.length then
        some ⟨m.ncols, m.rows.insertIdx pos (List.replicate m.ncols 0)⟩ else none := by
  unfold Mat.addRow
  by_cases h : pos ≤ m.rows.length
  · rw [if_pos h, if_pos h, shiftRight_eq _ _ _ _ h]
  · rw [if_neg h, if_neg h]

/-- C45. Adding a column and removing it again is the identity. -/
theorem C45_add_remove_col (junk : Int) (m : Mat) (pos : Nat) (hm : m.WF) (hp : pos ≤ m.ncols) :
    (m.addCol junk pos).bind (fun m' => m'.removeCol pos) = some m := by
  rw [C45_add_col junk m pos hm, if_pos hp]
  have hw : (⟨m.ncols + 1, m.rows.map (fun r => r.insertIdx pos 0)⟩ : Mat).WF := by
    intro r hr
    obtain ⟨r', hr', rfl⟩ := List.mem_map.mp hr
    rw [List.length_insertIdx_of_le_length (by rw [hm r' hr']; exact hp), hm r' hr']
  rw [Option.bind_some, C45_remove_col _ _ hw, if_pos (by show pos < m.ncols + 1; omega)]
  have : ((fun r : List Int => r.eraseIdx pos) ∘ fun r : List Int => r.insertIdx pos 0) = id := by
    funext r; simp
  simp [this]

/-- C45. Adding a row and removing it again is the identity. -/
theorem C45_add_remove_row (junk : List Int) (m : Mat) (pos : Nat) (hp : pos ≤ m.rows.length) :
    (m.addRow junk pos).bind (fun m' => m'.removeRow pos) = some m := by
  rw [C45_add_row, if_pos hp, Option.bind_some, C45_remove_row,
    if_pos (by rw [List.length_insertIdx_of_le_length hp]; omega)]
  simp

/-- C45. Interchanging two rows (columns) exchanges exactly them and is an involution. -/
theorem C45_interchange_rows (m : Mat) (i j : Nat) (hi : i < m.rows.length) (hj : j < m.rows.length) :
    (∀ n, (m.interchangeRows i j).rows[n]? =
      if n = j then m.rows[i]? else if n = i then m.rows[j]? else m.rows[n]?) ∧
    (m.interchangeRows i j).interchangeRows i j = m := by
  refine ⟨fun n => swapAt_getElem? _ _ _ hi hj n, ?_⟩
  simp [Mat.interchangeRows, swapAt_swapAt _ _ _ hi hj]

theorem C45_interchange_cols (m : Mat) (i j : Nat) (hm : m.WF) (hi : i < m.ncols) (hj : j < m.ncols) :
    (∀ (k : Nat) (r : List Int), m.rows[k]? = some r → ∃ r' : List Int, (m.interchangeCols i j).rows[k]? = some r' ∧
      ∀ n : Nat, r'[n]? = if n = j then r[i]? else if n = i then r[j]? else r[n]?) ∧
    (m.interchangeCols i j).interchangeCols i j = m := by
  refine ⟨fun k r hr => ⟨swapAt r i j, ?_, fun n => ?_⟩, ?_⟩
  · simp [Mat.interchangeCols, hr]
  · have hl := hm r (List.mem_of_getElem? hr)
    exact swapAt_getElem? _ _ _ (by omega) (by omega) n
  · unfold Mat.interchangeCols
    cases m with
    | mk n rows =>
      simp only [List.map_map, Mat.mk.injEq, true_and]
      conv_rhs => rw [← List.map_id rows]
      apply List.map_congr_left
      intro r hr
      have hl : r.length = n := hm r hr
      exact swapAt_swapAt _ _ _ (by simp only [] at hi; omega) (by simp only [] at hj; omega)

theorem toInt32_id (a : Int) (h1 : -(2 ^ 31) ≤ a) (h2 : a < 2 ^ 31) : toInt32 a = a := by
  unfold toInt32
  rw [BitVec.toInt_ofInt, Int.bmod_eq_of_le (by omega) (by omega)]

/-- C45. With its `int` temporary the C function interchanges columns whose entries fit an `int`. -/
theorem C45_interchange_cols_int_partial (m : Mat) (i j : Nat)
    (h : ∀ r ∈ m.rows, ∀ a ∈ r, -(2 ^ 31) ≤ a ∧ a < 2 ^ 31) :
    m.interchangeColsInt i j = m.interchangeCols i j := by
  unfold Mat.interchangeColsInt Mat.interchangeCols swapAt
  congr 1
  apply List.map_congr_left
  intro r hr
  by_cases hi : i < r.length
  · have := h r hr r[i] (List.getElem_mem hi)
    simp [hi, toInt32_id _ this.1 this.2]
  · have : r[i]? = none := List.getElem?_eq_none (by omega)
    rw [this]; congr 1

/-- C45 fails for larger entries: the value 2^40 is replaced by 0. -/
theorem C45_interchange_cols_int_violated :
    (⟨2, [[2 ^ 40, 7]]⟩ : Mat).interchangeColsInt 0 1 = ⟨2, [[7, 0]]⟩ := by decide

theorem foldl_interchange (js : List Nat) (g : Nat → Nat) (m : Mat) :
    js.foldl (fun m j => m.interchangeCols j (g j)) m =
      ⟨m.ncols, m.rows.map (fun r => js.foldl (fun r j => swapAt r j (g j)) r)⟩ := by
  induction js generalizing m with
  | nil => simp
  | cons j js ih => rw [List.foldl_cons, ih]; simp [Mat.interchangeCols]

/-- C45. `pluto_matrix_move_col` takes column `c1` out and puts it back at position `c2`: the columns
in between rotate by one, the others stay. -/
theorem C45_move_col (m : Mat) (c1 c2 : Nat) (hm : m.WF) (h1 : c1 < m.ncols) (h2 : c2 < m.ncols) :
    m.moveCol c1 c2 =
      ⟨m.ncols, m.rows.map (fun r => (r.eraseIdx c1).insertIdx c2 (r[c1]?.getD 0))⟩ := by
  unfold Mat.moveCol
  split
  · rename_i h
    rw [foldl_interchange _ (fun j => j + 1)]
    congr 1
    apply List.map_congr_left
    intro r hr
    have := moveUp r c1 (c2 - c1) (by rw [hm r hr]; omega)
    rw [this, Nat.add_sub_of_le (by omega)]; rfl
  · rename_i h
    rw [foldl_interchange _ (fun j => j - 1)]
    congr 1
    apply List.map_congr_left
    intro r hr
    have := moveDown r c2 (c1 - c2) (by rw [hm r hr]; omega)
    rw [this, Nat.add_sub_of_le (by omega)]; rfl

theorem foldl_reverse_rows (js : List Nat) (m : Mat) :
    js.foldl (fun m i => { m with rows := swapAt m.rows i (m.rows.length - 1 - i) }) m =
      ⟨m.ncols, js.foldl (fun a i => swapAt a i (a.length - 1 - i)) m.rows⟩ := by
  induction js generalizing m with
  | nil => simp
  | cons j js ih => simp [ih]

/-- C45. `pluto_matrix_reverse_rows` reverses the rows; twice is the identity. -/
theorem C45_reverse_rows (m : Mat) :
    m.reverseRows = ⟨m.ncols, m.rows.reverse⟩ ∧ m.reverseRows.reverseRows = m := by
  have h : ∀ m : Mat, m.reverseRows = ⟨m.ncols, m.rows.reverse⟩ := by
    intro m
    unfold Mat.reverseRows
    rw [foldl_reverse_rows, reverse_loop_eq]
  refine ⟨h m, ?_⟩
  rw [h (m.reverseRows), h m]; simp

/-- The linear map a matrix stands for. -/
def Mat.apply {R : Type*} [CommRing R] (m : Mat) (x : List R) : List R := m.rows.map (fun r => dot r x)

/-- C45. `pluto_matrix_product` is composition: applying the product is applying the second factor,
then the first. Its shape is `nrows1 x ncols2`. -/
theorem C45_product (m1 m2 : Mat) (h1 : m1.WF) (h2 : m2.WF) (h : m1.ncols = m2.rows.length) :
    ∃ m3, m1.product m2 = some m3 ∧ m3.WF ∧ m3.ncols = m2.ncols ∧ m3.rows.length = m1.rows.length ∧
      ∀ x : List Int, m3.apply x = m1.apply (m2.apply x) := by
  unfold Mat.product
  rw [if_pos h]
  refine ⟨_, rfl, ?_, rfl, by simp, fun x => ?_⟩
  · intro r hr
    obtain ⟨r', _, rfl⟩ := List.mem_map.mp hr
    simp
  · simp only [Mat.apply, List.map_map]
    apply List.map_congr_left
    intro r hr
    have := dot_comm_sum (R := Int) m2 r x m1.ncols (h1 r hr) h h2
    simp only [Function.comp_apply]
    rw [this, dot_eq_ldot]

/-- C45. The product is undefined (assertion) exactly when the shapes do not match. -/
theorem C45_product_none (m1 m2 : Mat) : m1.product m2 = none ↔ m1.ncols ≠ m2.rows.length := by
  unfold Mat.product; split <;> simp_all

/-- C45. `pluto_matrix_identity` is the identity map. -/
theorem C45_identity (n : Nat) (x : List Int) (hx : x.length = n) : (Mat.identity n).apply x = x := by
  unfold Mat.identity Mat.apply
  rw [List.map_map]
  apply List.ext_getElem
  · simp [hx]
  · intro i h1 h2
    simp only [List.getElem_map, List.getElem_range, Function.comp_apply]
    have hi : i < n := by omega
    rw [dot_eq_sum _ _ n (by simp), Finset.sum_eq_single i]
    · simp [coef, List.getD_eq_getElem?_getD, hi, h2]
    · intro j _ hj
      have : coef ((List.replicate n (0 : Int)).set i 1) j = 0 := by
        simp only [coef, List.getD_eq_getElem?_getD, List.getElem?_set, List.getElem?_replicate]
        rw [if_neg (fun h => hj h.symm)]; split <;> simp
      rw [this]; simp
    · intro h; simp at h; omega

/-- C45. Negation negates every entry of every row. -/
theorem C45_negate (m : Mat) : m.negate = ⟨m.ncols, m.rows.map (fun r => r.map (fun a => -a))⟩ := by
  have key : ∀ k ≤ m.rows.length, ∃ m', (List.range k).foldl Mat.negateRow m = m' ∧
      m'.ncols = m.ncols ∧ m'.rows.length = m.rows.length ∧
      ∀ i, m'.rows[i]? = if i < k then m.rows[i]?.map (fun r => r.map (fun a => -a)) else m.rows[i]? := by
    intro k hk
    induction k with
    | zero => exact ⟨m, by simp, rfl, rfl, fun i => by simp⟩
    | succ k ih =>
      obtain ⟨m', hm', hc, hl, hi⟩ := ih (by omega)
      refine ⟨_, rfl, ?_⟩
      rw [List.range_succ, List.foldl_append, hm']
      simp only [List.foldl_cons, List.foldl_nil, Mat.negateRow, List.length_set]
      refine ⟨hc, hl, fun i => ?_⟩
      have hk' : k < m.rows.length := by omega
      rw [List.getElem?_set, hi k, hi i]
      by_cases e : k = i
      · subst e; simp [hl, hk']
      · rw [if_neg e]; ifs_idx
  obtain ⟨m', hm', hc, hl, hi⟩ := key _ le_rfl
  unfold Mat.negate
  rw [hm']
  cases m' with
  | mk n rows =>
    simp only at hc hl hi
    subst hc
    congr 1
    apply List.ext_getElem?
    intro i
    rw [hi, List.getElem?_map]
    split
    · rfl
    · rw [List.getElem?_eq_none (by omega)]; rfl

/-- C45. `are_pluto_matrices_equal` decides equality. -/
theorem C45_equal (m1 m2 : Mat) (h1 : m1.WF) (h2 : m2.WF) : m1.equal m2 = true ↔ m1 = m2 := by
  unfold Mat.equal
  constructor
  · intro h
    split at h
    · cases h
    · rename_i hs
      push Not at hs
      simp only [List.all_eq_true, List.mem_range, decide_eq_true_eq] at h
      cases m1 with | mk n1 r1 => cases m2 with | mk n2 r2 =>
      simp only at hs h
      obtain ⟨hl, rfl⟩ := hs
      congr 1
      apply List.ext_getElem hl
      intro i a b
      apply List.ext_getElem
      · rw [h1 _ (List.getElem_mem a), h2 _ (List.getElem_mem b)]
      · intro j c d
        have e1 : r1[i].length = n1 := h1 _ (List.getElem_mem a)
        have := h i a j (by omega)
        simpa [coef, List.getD_eq_getElem?_getD, a, b, c, d] using this
  · rintro rfl
    simp

-- non-vacuity
example : (⟨2, [[1, 2], [3, 4]]⟩ : Mat).WF ∧
    (⟨2, [[1, 2], [3, 4]]⟩ : Mat).product ⟨1, [[5], [6]]⟩ = some ⟨1, [[17], [39]]⟩ := by decide
example : (⟨4, [[1, 2, 3, 4]]⟩ : Mat).moveCol 0 2 = ⟨4, [[2, 3, 1, 4]]⟩ := by decide
example : (⟨4, [[1, 2, 3, 4]]⟩ : Mat).moveCol 3 1 = ⟨4, [[1, 4, 2, 3]]⟩ := by decide
example : ((⟨2, [[1, 2], [3, 4]]⟩ : Mat).addCol 99 1) = some ⟨3, [[1, 0, 2], [3, 0, 4]]⟩ := by decide
example : ((⟨2, [[1, 2], [3, 4]]⟩ : Mat).addRow [98, 99] 1) = some ⟨2, [[1, 2], [0, 0], [3, 4]]⟩ := by
  decide

end Pluto
