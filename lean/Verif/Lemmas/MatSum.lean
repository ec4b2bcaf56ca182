import Verif.Lemmas.Matrix
import Mathlib.Algebra.BigOperators.Ring.Finset
import Mathlib.Algebra.BigOperators.Intervals

namespace Pluto
open Finset

section
variable {R : Type*} [CommRing R]

theorem dot_eq_sum (a : List Int) (x : List R) (n : Nat) (h : a.length = n) :
    dot a x = ∑ j ∈ Finset.range n, (coef a j : R) * x.getD j 0 := by
  subst h
  induction a generalizing x with
  | nil => simp [dot]
  | cons p ps ih =>
    rw [List.length_cons, Finset.sum_range_succ']
    cases x with
    | nil => simp [dot]
    | cons y ys =>
      rw [dot, ih ys]
      simp [coef, add_comm]

theorem foldl_range_sum (f : Nat → Int) (n : Nat) :
    (List.range n).foldl (fun s k => s + f k) 0 = ∑ k ∈ Finset.range n, f k := by
  induction n with
  | zero => simp
  | succ n ih => rw [List.range_succ, List.foldl_append, ih, Finset.sum_range_succ]; simp

theorem coef_map_range (f : Nat → Int) (n j : Nat) (h : j < n) :
    coef ((List.range n).map f) j = f j := by
  simp [coef, List.getD_eq_getElem?_getD, h]

theorem foldl_llabs_zero (r : List Int) (s : Int) (hs : 0 ≤ s) :
    r.foldl (fun s a => s + llabs a) s = 0 ↔ s = 0 ∧ ∀ a ∈ r, a = 0 := by
  induction r generalizing s with
  | nil => simp
  | cons p ps ih =>
    have hp : 0 ≤ llabs p := by rw [llabs_natAbs]; omega
    rw [List.foldl_cons, ih _ (by omega)]
    have : s + llabs p = 0 ↔ s = 0 ∧ p = 0 := by
      rw [llabs_natAbs] at hp ⊢; omega
    rw [this]; simp [and_assoc]

theorem dot_comm_sum (m2 : Mat) (r : List Int) (x : List R) (n : Nat) (hr : r.length = n)
    (hn : n = m2.rows.length) (h2 : m2.WF) :
    dot ((List.range m2.ncols).map (fun j =>
      (List.range n).foldl (fun s k => s + coef r k * coef (m2.rows[k]?.getD default) j) 0)) x =
      ldot (r.map Int.cast) (m2.rows.map (fun v => dot v x)) := by
  rw [← dot_eq_ldot, dot_eq_sum _ _ m2.ncols (by simp), dot_eq_sum _ _ n hr]
  have e1 : ∀ j ∈ Finset.range m2.ncols,
      (coef ((List.range m2.ncols).map (fun j =>
        (List.range n).foldl (fun s k => s + coef r k * coef (m2.rows[k]?.getD default) j) 0)) j : R)
        * x.getD j 0 =
      ∑ k ∈ Finset.range n, (coef r k : R) * ((coef (m2.rows[k]?.getD default) j : R) * x.getD j 0) := by
    intro j hj
    rw [coef_map_range _ _ _ (Finset.mem_range.mp hj), foldl_range_sum, Int.cast_sum, Finset.sum_mul]
    apply Finset.sum_congr rfl; intro k _
    push_cast; ring
  rw [Finset.sum_congr rfl e1, Finset.sum_comm]
  apply Finset.sum_congr rfl
  intro k hk
  rw [Finset.mem_range] at hk
  have hk' : k < m2.rows.length := by omega
  rw [← Finset.mul_sum]
  congr 1
  simp only [List.getD_eq_getElem?_getD, List.getElem?_map]
  simp only [List.getElem?_eq_getElem hk', Option.map_some, Option.getD_some]
  rw [dot_eq_sum _ _ m2.ncols (h2 _ (List.getElem_mem hk'))]
  simp [List.getD_eq_getElem?_getD]

end
end Pluto
