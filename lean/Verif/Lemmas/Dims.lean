import Verif.Lemmas.PadProg
import Verif.Lemmas.Satisfaction
import Verif.Model.Tile

/-! Points of systems with inserted dimensions. -/

namespace Pluto

theorem aff_insert_zero (r A B : List Int) (v : Int) (h : r.length = A.length + B.length + 1) :
    aff (r.insertIdx A.length 0) (A ++ v :: B) = aff r (A ++ B) := by
  have e : A ++ v :: B = (A ++ B).insertIdx A.length v := (insertIdx_mid A B A.length v rfl).symm
  have hl : (r.insertIdx A.length 0).length = (A ++ B).length + 2 := by
    rw [List.length_insertIdx_of_le_length (by omega : A.length ≤ r.length), h, List.length_append]
  rw [e, aff_insertIdx _ _ _ _ hl (by simp)]
  rw [List.getD_eq_getElem?_getD, List.getElem?_insertIdx_self, if_pos (by omega), List.eraseIdx_insertIdx_self]
  simp

theorem sat_addDim {c : Cst} (A B : List Int) (v : Int) (hc : c.WF)
    (h : c.ncols = A.length + B.length + 1) :
    (addDim c A.length).Sat (A ++ v :: B) ↔ c.Sat (A ++ B) := by
  unfold Cst.Sat addDim
  simp only [List.mem_map, forall_exists_index, and_imp, forall_apply_eq_imp_iff₂]
  refine forall₂_congr (fun r hr => ?_)
  unfold Row.Sat
  rw [aff_insert_zero r.val A B v (by rw [hc.2 r hr, h])]

theorem addDims_wf {c : Cst} {pos : Nat} (h : c.WF) (hp : pos ≤ c.ncols) (n : Nat) :
    (addDims c pos n).WF ∧ (addDims c pos n).ncols = c.ncols + n := by
  induction n generalizing c with
  | zero => exact ⟨h, rfl⟩
  | succ n ih =>
    obtain ⟨h1, h2⟩ := ih (addDim_wf h hp) (by simp [addDim]; omega)
    exact ⟨h1, by rw [addDims, h2]; simp [addDim]; omega⟩

theorem sat_addDims {c : Cst} (A Z B : List Int) (hc : c.WF)
    (h : c.ncols = A.length + B.length + 1) :
    (addDims c A.length Z.length).Sat (A ++ Z ++ B) ↔ c.Sat (A ++ B) := by
  induction Z using List.reverseRecOn generalizing c B with
  | nil => simp [addDims]
  | append_singleton Z v ih =>
    rw [List.length_append, List.length_singleton, addDims]
    have e : A ++ (Z ++ [v]) ++ B = A ++ Z ++ (v :: B) := by simp
    rw [e, ih (v :: B) (addDim_wf hc (by omega)) (by simp [addDim]; omega)]
    exact sat_addDim A B v hc h

theorem sat_addCst {c1 c2 : Cst} (x : List Int) : (addCst c1 c2).Sat x ↔ c1.Sat x ∧ c2.Sat x := by
  unfold Cst.Sat addCst
  simp only [List.mem_append]
  exact ⟨fun h => ⟨fun r hr => h r (.inl hr), fun r hr => h r (.inr hr)⟩,
    fun h r hr => hr.elim (h.1 r) (h.2 r)⟩

theorem addCst_wf {c1 c2 : Cst} (h1 : c1.WF) (h2 : c2.WF) (he : c2.ncols = c1.ncols) : (addCst c1 c2).WF := by
  refine ⟨h1.1, fun r hr => ?_⟩
  rcases List.mem_append.mp hr with hr | hr
  · exact h1.2 r hr
  · rw [h2.2 r hr, he]; rfl

theorem aff_zrow_append (n : Nat) (r T y : List Int) (hT : T.length = n) : aff (zrow n ++ r) (T ++ y) = aff r y := by
  unfold aff
  rw [List.append_assoc, dot_append _ _ _ _ (by rw [zrow_length, hT])]
  unfold zrow
  rw [dot_zero, zero_add]

theorem aff_addLast (r x : List Int) (k : Int) (h : r.length = x.length + 1) : aff (addLast r k) x = aff r x + k := by
  obtain ⟨a, b, rfl⟩ : ∃ a b, r = a ++ [b] := ⟨r.dropLast, r.getLast (by rintro rfl; simp at h), (List.dropLast_append_getLast _).symm⟩
  have ha : a.length = x.length := by simpa using h
  rw [addLast_snoc]
  unfold aff
  simp [dot_append _ _ _ _ ha, dot]
  ring

end Pluto
