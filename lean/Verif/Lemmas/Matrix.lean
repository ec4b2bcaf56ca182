import Verif.Model.Matrix
import Verif.Lemmas.Affine
import Verif.Props.Arith
import Mathlib.Data.List.Basic
import Mathlib.Tactic.LinearCombination

namespace Pluto

/-- Case split on all conditions, then index arithmetic. -/
macro "ifs_idx" : tactic => `(tactic| (split_ifs <;>
  first
    | rfl
    | (exfalso; omega)
    | (congr 1; omega)
    | (rw [List.getElem?_eq_none (by first | omega | (simp; omega))]; done)
    | (rw [eq_comm, List.getElem?_eq_none (by first | omega | (simp; omega))]; done)
    | (subst_vars; simp; done)
    | (subst_vars; simp_all; done)))

section shifts
variable {α : Type} [Inhabited α]

theorem some_getD (l : List α) (i : Nat) (h : i < l.length) : some (l[i]?.getD default) = l[i]? := by
  simp [h]

theorem shiftLeft_loop (l : List α) (pos k : Nat) (h : pos + k + 1 ≤ l.length) :
    ∃ a, (List.range' pos k).foldl (fun a j => a.set j (a[j + 1]?.getD default)) l = a ∧
      a.length = l.length ∧
      ∀ i, a[i]? = if pos ≤ i ∧ i < pos + k then l[i + 1]? else l[i]? := by
  induction k with
  | zero => exact ⟨l, by simp, rfl, fun i => by rw [if_neg (by omega)]⟩
  | succ k ih =>
    obtain ⟨a, ha, hl, hi⟩ := ih (by omega)
    refine ⟨_, rfl, ?_⟩
    rw [List.range'_concat, List.foldl_append, ha]
    simp only [List.foldl_cons, List.foldl_nil, one_mul, List.length_set]
    refine ⟨hl, fun i => ?_⟩
    rw [List.getElem?_set, some_getD a _ (by omega)]
    simp only [hi, hl]
    ifs_idx

theorem shiftLeft_eq (l : List α) (pos : Nat) (h : pos < l.length) :
    shiftLeft l pos = l.eraseIdx pos := by
  obtain ⟨a, ha, hl, hi⟩ := shiftLeft_loop l pos (l.length - 1 - pos) (by omega)
  unfold shiftLeft
  rw [ha]
  apply List.ext_getElem?
  intro i
  rw [List.getElem?_take, List.getElem?_eraseIdx, hi]
  ifs_idx

theorem shiftRight_loop (a0 : List α) (pos k : Nat) (h : pos + k < a0.length) :
    ∃ a, (List.range' pos k).reverse.foldl (fun a j => a.set (j + 1) (a[j]?.getD default)) a0 = a ∧
      a.length = a0.length ∧
      ∀ i, a[i]? = if pos < i ∧ i ≤ pos + k then a0[i - 1]? else a0[i]? := by
  induction k generalizing pos with
  | zero => exact ⟨a0, by simp, rfl, fun i => by rw [if_neg (by omega)]⟩
  | succ k ih =>
    obtain ⟨a, ha, hl, hi⟩ := ih (pos + 1) (by omega)
    refine ⟨_, rfl, ?_⟩
    rw [List.range'_succ, List.reverse_cons, List.foldl_append, ha]
    simp only [List.foldl_cons, List.foldl_nil, List.length_set]
    refine ⟨hl, fun i => ?_⟩
    rw [List.getElem?_set, some_getD a _ (by omega)]
    simp only [hi, hl]
    ifs_idx

theorem shiftRight_eq (junk : α) (l : List α) (pos : Nat) (z : α) (h : pos ≤ l.length) :
    shiftRight junk l pos z = l.insertIdx pos z := by
  obtain ⟨a, ha, hl, hi⟩ := shiftRight_loop (l ++ [junk]) pos (l.length - pos) (by simp; omega)
  unfold shiftRight
  rw [ha]
  apply List.ext_getElem?
  intro i
  simp only [List.length_append, List.length_singleton] at hl
  rw [List.getElem?_set, List.getElem?_insertIdx, hi, hl]
  simp only [List.getElem?_append, List.getElem?_singleton]
  ifs_idx

theorem swapAt_getElem? (l : List α) (i j : Nat) (hi : i < l.length) (hj : j < l.length) (n : Nat) :
    (swapAt l i j)[n]? = if n = j then l[i]? else if n = i then l[j]? else l[n]? := by
  unfold swapAt
  rw [List.getElem?_set, some_getD _ _ hi, List.getElem?_set, some_getD _ _ hj, List.length_set]
  ifs_idx

@[simp] theorem swapAt_length (l : List α) (i j : Nat) : (swapAt l i j).length = l.length := by
  simp [swapAt]

theorem swapAt_swapAt (l : List α) (i j : Nat) (hi : i < l.length) (hj : j < l.length) :
    swapAt (swapAt l i j) i j = l := by
  apply List.ext_getElem?
  intro n
  rw [swapAt_getElem? _ _ _ (by simpa) (by simpa)]
  simp only [swapAt_getElem? l i j hi hj]
  ifs_idx

theorem swapAt_comm (l : List α) (i j : Nat) (hi : i < l.length) (hj : j < l.length) :
    swapAt l i j = swapAt l j i := by
  apply List.ext_getElem?
  intro n
  rw [swapAt_getElem? _ _ _ hi hj, swapAt_getElem? _ _ _ hj hi]
  ifs_idx

/-- Moving an entry up by adjacent exchanges. -/
theorem moveUp (l : List α) (c k : Nat) (h : c + k < l.length) :
    (List.range' c k).foldl (fun l j => swapAt l j (j + 1)) l =
      (l.eraseIdx c).insertIdx (c + k) (l[c]?.getD default) := by
  have key : ∃ a, (List.range' c k).foldl (fun l j => swapAt l j (j + 1)) l = a ∧
      a.length = l.length ∧ ∀ i, a[i]? = if c ≤ i ∧ i < c + k then l[i + 1]?
        else if i = c + k then l[c]? else l[i]? := by
    induction k with
    | zero =>
      refine ⟨l, by simp, rfl, fun i => ?_⟩
      ifs_idx
    | succ k ih =>
      obtain ⟨a, ha, hl, hi⟩ := ih (by omega)
      refine ⟨_, rfl, ?_⟩
      rw [List.range'_concat, List.foldl_append, ha]
      simp only [List.foldl_cons, List.foldl_nil, one_mul, swapAt_length]
      refine ⟨hl, fun i => ?_⟩
      rw [swapAt_getElem? _ _ _ (by omega) (by omega)]
      simp only [hi]
      ifs_idx
  obtain ⟨a, ha, hl, hi⟩ := key
  rw [ha]
  apply List.ext_getElem?
  intro i
  have hc : c < l.length := by omega
  rw [hi, List.getElem?_insertIdx, some_getD _ _ hc]
  simp only [List.getElem?_eraseIdx, List.length_eraseIdx, hc, if_true]
  ifs_idx

/-- Moving an entry down by adjacent exchanges. -/
theorem moveDown (l : List α) (c k : Nat) (h : c + k < l.length) :
    (List.range' (c + 1) k).reverse.foldl (fun l j => swapAt l j (j - 1)) l =
      (l.eraseIdx (c + k)).insertIdx c (l[c + k]?.getD default) := by
  have key : ∃ a, (List.range' (c + 1) k).reverse.foldl (fun l j => swapAt l j (j - 1)) l = a ∧
      a.length = l.length ∧ ∀ i, a[i]? = if c < i ∧ i ≤ c + k then l[i - 1]?
        else if i = c then l[c + k]? else l[i]? := by
    induction k generalizing c with
    | zero =>
      refine ⟨l, by simp, rfl, fun i => ?_⟩
      ifs_idx
    | succ k ih =>
      obtain ⟨a, ha, hl, hi⟩ := ih (c + 1) (by omega)
      refine ⟨_, rfl, ?_⟩
      rw [List.range'_succ, List.reverse_cons, List.foldl_append, ha]
      simp only [List.foldl_cons, List.foldl_nil, swapAt_length, Nat.add_sub_cancel]
      refine ⟨hl, fun i => ?_⟩
      rw [swapAt_getElem? _ _ _ (by omega) (by omega)]
      simp only [hi]
      ifs_idx
  obtain ⟨a, ha, hl, hi⟩ := key
  rw [ha]
  apply List.ext_getElem?
  intro i
  rw [hi, List.getElem?_insertIdx, some_getD _ _ h]
  simp only [List.getElem?_eraseIdx, List.length_eraseIdx, h, if_true]
  ifs_idx

theorem reverse_loop (l : List α) (k : Nat) (h : 2 * k ≤ l.length) :
    ∃ a, (List.range k).foldl (fun a i => swapAt a i (a.length - 1 - i)) l = a ∧
      a.length = l.length ∧ ∀ i < l.length,
        a[i]? = if i < k ∨ l.length - k ≤ i then l[l.length - 1 - i]? else l[i]? := by
  induction k with
  | zero => exact ⟨l, by simp, rfl, fun i _ => by rw [if_neg (by omega)]⟩
  | succ k ih =>
    obtain ⟨a, ha, hl, hi⟩ := ih (by omega)
    refine ⟨_, rfl, ?_⟩
    rw [List.range_succ, List.foldl_append, ha]
    simp only [List.foldl_cons, List.foldl_nil, swapAt_length]
    refine ⟨hl, fun i h0 => ?_⟩
    rw [swapAt_getElem? _ _ _ (by omega) (by omega), hi k (by omega),
      hi _ (by omega : a.length - 1 - k < l.length), hi i h0]
    ifs_idx

theorem reverse_loop_eq (l : List α) :
    (List.range (l.length / 2)).foldl (fun a i => swapAt a i (a.length - 1 - i)) l = l.reverse := by
  obtain ⟨a, ha, hl, hi⟩ := reverse_loop l (l.length / 2) (by omega)
  rw [ha]
  apply List.ext_getElem?
  intro i
  by_cases h0 : i < l.length
  · rw [hi i h0, List.getElem?_reverse h0]
    ifs_idx
  · rw [List.getElem?_eq_none (by omega), List.getElem?_eq_none (by simp; omega)]

end shifts

end Pluto
