import Verif.Lemmas.MatSum
import Verif.Lemmas.Dims
import Verif.Model.CstList

/-! Helper lemmas for editing of constraint systems. -/

namespace Pluto

section
variable {R : Type*} [CommRing R]

theorem dot_set (a : List Int) (x : List R) (i : Nat) (k : Int) (h : i < a.length) (hx : i < x.length) :
    dot (a.set i k) x = dot a x + ((k - coef a i : Int) : R) * x.getD i 0 := by
  induction a generalizing x i with
  | nil => simp at h
  | cons p ps ih => cases x with
    | nil => simp at hx
    | cons y ys => cases i with
      | zero => simp [coef]; ring
      | succ i =>
        simp at h hx
        simp [ih ys i h hx, coef]; ring

theorem aff_set (a : List Int) (x : List R) (i : Nat) (k : Int) (h : a.length = x.length + 1) (hx : i < x.length) :
    aff (a.set i k) x = aff a x + ((k - coef a i : Int) : R) * x.getD i 0 := by
  unfold aff
  rw [dot_set _ _ _ _ (by omega) (by simp; omega)]
  simp [List.getD_eq_getElem?_getD, List.getElem?_append_left hx]

theorem aff_set_const (a : List Int) (x : List R) (k : Int) (h : a.length = x.length + 1) :
    aff (a.set x.length k) x = aff a x + ((k - coef a x.length : Int) : R) := by
  unfold aff
  rw [dot_set _ _ _ _ (by omega) (by simp)]
  simp [List.getD_eq_getElem?_getD]

theorem aff_unit (n v : Nat) (k c : Int) (x : List R) (hv : v < x.length) (hx : x.length + 1 = n) :
    aff (unitRow n v k c) x = (k : R) * x.getD v 0 + c := by
  subst hx
  unfold unitRow
  rw [show x.length + 1 - 1 = x.length from rfl, aff_set_const _ _ _ (by simp), aff_set _ _ _ _ (by simp) hv]
  have h0 : aff (List.replicate (x.length + 1) (0 : Int)) x = 0 := by unfold aff; exact dot_zero _ _
  have e1 : coef (List.replicate (x.length + 1) (0 : Int)) v = 0 := by
    simp [coef, List.getD_eq_getElem?_getD, List.getElem?_replicate]; split <;> simp
  have e2 : coef ((List.replicate (x.length + 1) (0 : Int)).set v k) x.length = 0 := by
    simp only [coef, List.getD_eq_getElem?_getD, List.getElem?_set, List.getElem?_replicate]
    rw [if_neg (by omega)]; simp
  rw [h0, e1, e2]; push_cast; ring

/-- Value of a row at a point with one coordinate changed. -/
theorem dot_point_set (a : List Int) (x : List R) (i : Nat) (v : R) (hx : i < x.length) :
    dot a (x.set i v) = dot a x + (coef a i : R) * (v - x.getD i 0) := by
  induction a generalizing x i with
  | nil => simp [coef]
  | cons p ps ih => cases x with
    | nil => simp at hx
    | cons y ys => cases i with
      | zero => simp [coef]; ring
      | succ i =>
        simp at hx
        simp [ih ys i hx, coef]; ring

theorem aff_point_set (a : List Int) (x : List R) (i : Nat) (v : R) (hx : i < x.length) :
    aff a (x.set i v) = aff a x + (coef a i : R) * (v - x.getD i 0) := by
  unfold aff
  rw [← List.set_append_left _ _ hx, dot_point_set _ _ _ _ (by simp; omega)]
  simp [List.getD_eq_getElem?_getD, List.getElem?_append_left hx]

theorem zipWith_sub_mul (a b : List Int) (k : Int) (x : List R) (h : a.length = b.length) :
    dot (List.zipWith (fun p q => p - k * q) a b) x = dot a x - k * dot b x := by
  have := dot_zipWith_lin (R := R) 1 (-k) a b x h
  rw [show (fun p q => p - k * q) = (fun p q : Int => p * 1 + q * (-k)) by funext p q; ring, this]
  push_cast; ring

end

section
variable {R : Type*} [CommRing R]

theorem coef_swapIdx (r : List Int) (i j k : Nat) (hi : i < r.length) (hj : j < r.length) :
    coef (swapIdx r i j) k = coef r (if k = i then j else if k = j then i else k) := by
  unfold swapIdx coef
  simp only [List.getD_eq_getElem?_getD, List.getElem?_set, List.length_set]
  by_cases h1 : j = k
  · subst h1
    rw [if_pos rfl, if_pos hj]
    by_cases h2 : j = i
    · subst h2; simp
    · simp [h2]
  · rw [if_neg h1]
    by_cases h2 : i = k
    · subst h2; simp [hi, List.getElem?_eq_getElem hj]
    · rw [if_neg h2, if_neg (Ne.symm h2), if_neg (Ne.symm h1)]

theorem dot_swapIdx (r : List Int) (x y : List R) (i j : Nat) (hi : i < r.length) (hj : j < r.length)
    (hy : ∀ k, y.getD k 0 = x.getD (if k = i then j else if k = j then i else k) 0) :
    dot (swapIdx r i j) y = dot r x := by
  have hl : (swapIdx r i j).length = r.length := by simp [swapIdx]
  rw [dot_eq_sum _ _ r.length hl, dot_eq_sum r x r.length rfl]
  have e : ∀ k, (if k = i then j else if k = j then i else k) = Equiv.swap i j k := by
    intro k; rw [Equiv.swap_apply_def]
  refine Finset.sum_bij' (fun k _ => Equiv.swap i j k) (fun k _ => Equiv.swap i j k) ?_ ?_ ?_ ?_ ?_
  · intro k hk; rw [Finset.mem_range] at *; rw [← e]; split_ifs <;> omega
  · intro k hk; rw [Finset.mem_range] at *; rw [← e]; split_ifs <;> omega
  · intro k _; simp
  · intro k _; simp
  · intro k hk
    rw [coef_swapIdx _ _ _ _ hi hj, hy, e]

end

theorem mapIdx_sat {R : Type*} [CommRing R] [LinearOrder R] [IsStrictOrderedRing R] (c : Cst)
    (f : Row → Row) (pos : Nat) (r : Row) (hr : c.rows[pos]? = some r) (x : List R) :
    (⟨c.ncols, c.rows.mapIdx (fun i r => if i = pos then f r else r)⟩ : Cst).Sat x ↔
      (f r).Sat x ∧ ∀ i r', i ≠ pos → c.rows[i]? = some r' → r'.Sat x := by
  unfold Cst.Sat
  constructor
  · intro h
    constructor
    · refine h _ (List.mem_iff_getElem?.mpr ⟨pos, ?_⟩)
      simp [hr]
    · intro i r' hi hr'
      refine h _ (List.mem_iff_getElem?.mpr ⟨i, ?_⟩)
      simp [hr', hi]
  · rintro ⟨h1, h2⟩ q hq
    obtain ⟨i, hi⟩ := List.mem_iff_getElem?.mp hq
    simp only [List.getElem?_mapIdx, Option.map_eq_some_iff] at hi
    obtain ⟨r', hr', rfl⟩ := hi
    by_cases hp : i = pos
    · subst hp; rw [hr] at hr'; cases hr'; simpa using h1
    · rw [if_neg hp]; exact h2 i r' hp hr'

end Pluto
