import Verif.Model.Remap
import Verif.Spec.Remap
import Verif.Props.Matrix
import Verif.Props.Arith
import Verif.Lemmas.Framework
import Mathlib.LinearAlgebra.Matrix.ToLinearEquiv

namespace Pluto

/-! ### The schedule matrix -/

theorem mapIdx_set_self {α β : Type} (l : List α) (f g : Nat → α → β) (p : Nat) (v : β) (hp : p < l.length)
    (hv : v = g p l[p]) (hfg : ∀ k (h : k < l.length), k ≠ p → f k l[k] = g k l[k]) :
    (l.mapIdx f).set p v = l.mapIdx g := by
  apply List.ext_getElem?
  intro k
  rw [List.getElem?_set]
  by_cases hk : p = k
  · subst hk
    simp [hp, hv]
  · rw [if_neg hk]
    by_cases hl : k < l.length
    · simp [hl, hfg k hl (Ne.symm hk)]
    · simp [hl]

theorem map_of_mapIdx {α β γ : Type} (l : List α) (f : Nat → α → β) (g : β → γ) :
    (l.mapIdx f).map g = l.mapIdx (fun k a => g (f k a)) := by
  apply List.ext_getElem?; intro k
  simp [List.getElem?_mapIdx, Function.comp_def]

theorem insertIdx_at {α : Type} (l1 l2 : List α) (a : α) :
    (l1 ++ l2).insertIdx l1.length a = l1 ++ a :: l2 := by
  induction l1 with
  | nil => simp
  | cons b l ih => simp [ih]

/-- After `j` steps. -/
def schedAfter (trans : List (List Int)) (j : Nat) : List (List Int) :=
  trans.mapIdx (fun k r => if trans.length - j ≤ k then
    (zrow j).set (k - (trans.length - j)) 1 ++ r.map (fun a => -a) else zrow j ++ r)

theorem schedAfter_wf {trans : List (List Int)} {nc : Nat} (h : ∀ r ∈ trans, r.length = nc) (j : Nat) :
    ∀ r ∈ schedAfter trans j, r.length = j + nc := by
  intro r hr
  unfold schedAfter at hr
  rw [List.mem_mapIdx] at hr
  obtain ⟨i, hi, rfl⟩ := hr
  have := h _ (List.getElem_mem hi)
  split <;> simp [zrow, this]

theorem schedStep_eq {trans : List (List Int)} {nc : Nat} (h : ∀ r ∈ trans, r.length = nc) (j : Nat)
    (hj : j < trans.length) :
    schedStep trans.length ⟨j + nc, schedAfter trans j⟩ j = ⟨j + 1 + nc, schedAfter trans (j + 1)⟩ := by
  unfold schedStep Mat.negateRow
  have hlen : (schedAfter trans j).length = trans.length := by simp [schedAfter]
  have hp : trans.length - 1 - j < trans.length := by omega
  have e1 : (schedAfter trans j)[trans.length - 1 - j]? = some (zrow j ++ trans[trans.length - 1 - j]) := by
    simp [schedAfter, hp]
    omega
  have e2 : (schedAfter trans j).set (trans.length - 1 - j)
      (((schedAfter trans j)[trans.length - 1 - j]?.getD default).map (fun a => -a)) =
      trans.mapIdx (fun k r => if trans.length - j ≤ k then
        (zrow j).set (k - (trans.length - j)) 1 ++ r.map (fun a => -a)
        else if k = trans.length - 1 - j then zrow j ++ r.map (fun a => -a) else zrow j ++ r) := by
    rw [e1]
    apply mapIdx_set_self _ _ _ _ _ hp
    · rw [if_neg (by omega), if_pos rfl]
      simp [zrow]
    · intro k hk hne
      by_cases c : trans.length - j ≤ k
      · rw [if_pos c, if_pos c]
      · rw [if_neg c, if_neg c, if_neg hne]
  simp only [e2]
  rw [C45_add_col, if_pos (by simp)]
  · simp only [Option.getD_some]
    congr 1
    · omega
    · rw [map_of_mapIdx]
      apply mapIdx_set_self _ _ _ _ _ hp
      · rw [List.getElem?_mapIdx, List.getElem?_eq_getElem hp]
        simp only [Option.map_some, Option.getD_some, if_true]
        rw [if_neg (by omega), if_pos (by omega)]
        have : trans.length - 1 - j - (trans.length - (j + 1)) = 0 := by omega
        rw [this]
        simp [zrow, List.replicate_succ]
      · intro k hk hne
        by_cases c : trans.length - j ≤ k
        · rw [if_pos c, if_pos (by omega)]
          have : k - (trans.length - (j + 1)) = k - (trans.length - j) + 1 := by omega
          rw [this]
          simp [zrow, List.replicate_succ]
        · rw [if_neg c, if_neg hne, if_neg (by omega)]
          simp [zrow, List.replicate_succ]
  · intro r hr
    rw [List.mem_mapIdx] at hr
    obtain ⟨i, hi, rfl⟩ := hr
    have := h _ (List.getElem_mem hi)
    split_ifs <;> simp [zrow, this]

/-- Row `k` of the schedule matrix is `t_k - phi_k`. -/
theorem schedMatrix_eq {trans : List (List Int)} {nc : Nat} (h : ∀ r ∈ trans, r.length = nc) :
    schedMatrix nc trans = ⟨trans.length + nc, trans.mapIdx (fun k r =>
      (zrow trans.length).set k 1 ++ r.map (fun a => -a))⟩ := by
  have key : ∀ j ≤ trans.length, (List.range j).foldl (schedStep trans.length) ⟨nc, trans⟩ =
      ⟨j + nc, schedAfter trans j⟩ := by
    intro j hj
    induction j with
    | zero =>
      simp only [List.range_zero, List.foldl_nil, Nat.zero_add]
      congr 1
      apply List.ext_getElem?
      intro k
      simp only [schedAfter, List.getElem?_mapIdx]
      by_cases hk : k < trans.length
      · rw [List.getElem?_eq_getElem hk]; simp [zrow]; omega
      · simp [hk]
    | succ j ih =>
      rw [List.range_succ, List.foldl_append, ih (by omega)]
      exact schedStep_eq h j (by omega)
  unfold schedMatrix
  rw [key _ (le_refl _)]
  congr 1
  apply List.ext_getElem?
  intro k
  simp [schedAfter, List.getElem?_mapIdx]

/-- The iterators moved to the front. -/
theorem remapStart_eq {trans : List (List Int)} {dim nc : Nat} (h : ∀ r ∈ trans, r.length = nc) (hd : dim < nc) :
    remapStart dim nc trans = ⟨trans.length + nc, trans.mapIdx (fun k r =>
      (r.map (fun a => -a)).take dim ++ (zrow trans.length).set k 1 ++ (r.map (fun a => -a)).drop dim)⟩ := by
  have key : ∀ i ≤ dim, (List.range i).foldl (fun m i => m.moveCol (trans.length + i) i) (schedMatrix nc trans) =
      ⟨trans.length + nc, trans.mapIdx (fun k r =>
      (r.map (fun a => -a)).take i ++ (zrow trans.length).set k 1 ++ (r.map (fun a => -a)).drop i)⟩ := by
    intro i hi
    induction i with
    | zero => simp [schedMatrix_eq h]
    | succ i ih =>
      rw [List.range_succ, List.foldl_append, ih (by omega)]
      simp only [List.foldl_cons, List.foldl_nil]
      rw [C45_move_col]
      · congr 1
        rw [map_of_mapIdx]
        apply List.ext_getElem?
        intro k
        simp only [List.getElem?_mapIdx]
        by_cases hk : k < trans.length
        · rw [List.getElem?_eq_getElem hk]
          simp only [Option.map_some]
          have hl := h _ (List.getElem_mem hk)
          congr 1
          generalize trans[k] = r at hl ⊢
          set B := r.map (fun a => -a) with hB
          have hBl : B.length = nc := by simp [hB, hl]
          set A := (zrow trans.length).set k 1 with hA
          have hAl : A.length = trans.length := by simp [hA, zrow]
          have hi' : i < B.length := by omega
          have e : B.drop i = B[i] :: B.drop (i + 1) := List.drop_eq_getElem_cons hi'
          have el : (B.take i ++ A).length = trans.length + i := by simp [hAl]; omega
          rw [e]
          have e3 : (B.take i ++ A ++ B[i] :: B.drop (i + 1)).eraseIdx (trans.length + i) =
              B.take i ++ A ++ B.drop (i + 1) := by
            rw [← el, List.eraseIdx_append_of_length_le (le_refl _)]
            simp
          have e4 : (B.take i ++ A ++ B[i] :: B.drop (i + 1))[trans.length + i]? = some B[i] := by
            rw [← el, List.getElem?_append_right (le_refl _)]; simp
          rw [e3]
          have e5 : (B.take i).length = i := by simp; omega
          rw [List.append_assoc]
          have e6 : (B.take i ++ (A ++ B.drop (i + 1))).insertIdx i B[i] =
              B.take i ++ (A ++ B.drop (i + 1)).insertIdx 0 B[i] := by
            have := insertIdx_at (B.take i) (A ++ B.drop (i + 1)) B[i]
            rw [e5] at this
            rw [this, List.insertIdx_zero]
          have e7 : B.take (i + 1) = B.take i ++ [B[i]] := (List.take_append_getElem hi').symm
          rw [e4, Option.getD_some, e6, List.insertIdx_zero, e7]
          simp only [List.append_assoc, List.singleton_append, List.cons_append]
          rfl
        · simp [hk]
      · intro r hr
        rw [List.mem_mapIdx] at hr
        obtain ⟨k, hk, rfl⟩ := hr
        have hl := h _ (List.getElem_mem hk)
        simp [zrow, hl]
        omega
      · simp; omega
      · simp; omega
  exact key dim (le_refl _)

end Pluto
