import Verif.Lemmas.Iss
import Verif.Lemmas.Framework
import Verif.Lemmas.AutoFind
import Verif.Props.Farkas
import Verif.Spec.Search

namespace Pluto

section
variable {R : Type*} [CommRing R]

theorem map_range_scale (a b : List R) (o n : Nat) (k : R) (f : Nat → R) (ho : o = a.length) (h : b.length = n)
    (c : List R) (hf : ∀ i < n, f i = k * (a ++ b ++ c).getD (o + i) 0) :
    (List.range n).map f = b.map (fun v => k * v) := by
  have : (List.range n).map (fun r => (a ++ b).getD (o + r) 0) = b := by
    rw [map_range_getD_off a b o n ho (by omega), List.take_of_length_le (by omega)]
  conv_rhs => rw [← this, List.map_map]
  apply List.map_congr_left
  intro i hi
  rw [List.mem_range] at hi
  rw [hf i hi, getD_append_left' _ _ _ (by simp; omega)]
  rfl

theorem ldot_scale (k : R) (a y : List R) : ldot (a.map (fun v => k * v)) y = k * ldot a y := by
  induction a generalizing y with
  | nil => simp
  | cons v a ih => cases y with
    | nil => simp
    | cons w y => simp [ih]; ring

theorem issPhi_value (ndim npar : Nat) (sgn : Int) (m sg r : R) (h P s t q : List R)
    (hh : h.length = ndim) (hP : P.length = npar) (hs : s.length = ndim) (ht : t.length = ndim)
    (hq : q.length = npar) :
    formValue (issPhi ndim npar sgn) ([m, sg] ++ h ++ P ++ [r]) (s ++ t ++ q) =
      m - (sgn : R) * (ldot h s + ldot h t - 2 * (ldot P q + r)) := by
  set c := [m, sg] ++ h ++ P ++ [r] with hc
  have hcl : c.length = 2 + ndim + npar + 1 := by simp [hc, hh, hP]; omega
  have e1 : (List.range ndim).map (fun i => aff ((zrow (2 + ndim + npar + 1 + 1)).set (2 + i) (-sgn)) c) =
      h.map (fun a => (-sgn : R) * a) := by
    apply map_range_scale [m, sg] h 2 ndim _ _ rfl hh (P ++ [r])
    intro i hi
    rw [aff_set_zrow _ _ _ _ (by omega) (by omega), hc]
    simp
  have e2 : (List.range npar).map (fun i => aff ((zrow (2 + ndim + npar + 1 + 1)).set (2 + ndim + i) (2 * sgn)) c) =
      P.map (fun a => (2 * sgn : R) * a) := by
    apply map_range_scale ([m, sg] ++ h) P (2 + ndim) npar _ _ (by simp [hh]; omega) hP [r]
    intro i hi
    rw [aff_set_zrow _ _ _ _ (by omega) (by omega), hc]
    simp
  have e3 : aff (((zrow (2 + ndim + npar + 1 + 1)).set (2 + ndim + npar) (2 * sgn)).set 0 1) c =
      2 * sgn * r + m := by
    unfold aff
    rw [dot_set_eq _ _ _ _ (by simp [zrow]), dot_set_zrow _ _ _ _ (by omega),
      coef_set _ _ _ _ (by simp [zrow]), if_neg (by omega), coef_zrow,
      getD_append_left' c _ (2 + ndim + npar) (by omega), getD_append_left' c _ 0 (by omega)]
    have g0 : c.getD 0 0 = m := by simp [hc]
    have g1 : c.getD (2 + ndim + npar) 0 = r := by
      rw [hc, getD_append_right' _ [r] _ (by simp [hh, hP]; omega)]
      have : 2 + ndim + npar - ([m, sg] ++ h ++ P).length = 0 := by simp [hh, hP]; omega
      rw [this]
      simp
    rw [g0, g1]
    simp
  unfold formValue issPhi
  simp only [List.map_append, List.map_map, Function.comp_def, List.map_cons, List.map_nil]
  rw [e1, e2, e3, ldot_split4 _ _ _ _ _ _ _ (by simp [hh, hs]) (by simp [hh, ht]) (by simp [hP, hq]),
    ldot_scale, ldot_scale, ldot_scale]
  ring

end

theorem issPhi_shape (ndim npar : Nat) (sgn : Int) :
    (issPhi ndim npar sgn).length = ndim + ndim + npar + 1 ∧
    ∀ f ∈ issPhi ndim npar sgn, f.length = 2 + ndim + npar + 1 + 1 := by
  constructor
  · simp [issPhi]; omega
  · intro f hf
    simp only [issPhi, List.mem_append, List.mem_map, List.mem_singleton] at hf
    rcases hf with ((⟨i, _, rfl⟩ | ⟨i, _, rfl⟩) | ⟨i, _, rfl⟩) | rfl <;> simp [zrow]

/-- The constraints of all polyhedra. -/
theorem issFold_spec (ndim npar : Nat) (doms : List Cst) (c0 : Cst)
    (h0 : c0.WF ∧ c0.ncols = 2 + ndim + npar + 1 + 1) :
    let w := 2 + ndim + npar + 1 + 1
    let c := doms.foldl (fun c dom =>
      addCst (addCst c (farkasLemmaAffine dom w (issPhi ndim npar 1)))
        (farkasLemmaAffine dom w (issPhi ndim npar (-1)))) c0
    (c.WF ∧ c.ncols = w) ∧ ∀ x : List Int, c.Sat x ↔ c0.Sat x ∧ ∀ dom ∈ doms,
      (farkasLemmaAffine dom w (issPhi ndim npar 1)).Sat x ∧ (farkasLemmaAffine dom w (issPhi ndim npar (-1))).Sat x := by
  intro w
  induction doms generalizing c0 with
  | nil => exact ⟨h0, fun x => by simp⟩
  | cons d ds ih =>
    obtain ⟨a1, a2⟩ := C06_farkas_shape d (issPhi ndim npar 1) w (by omega) (issPhi_shape ndim npar 1).2
    obtain ⟨b1, b2⟩ := C06_farkas_shape d (issPhi ndim npar (-1)) w (by omega) (issPhi_shape ndim npar (-1)).2
    obtain ⟨i1, i2⟩ := ih (addCst (addCst c0 (farkasLemmaAffine d w (issPhi ndim npar 1)))
      (farkasLemmaAffine d w (issPhi ndim npar (-1)))) ⟨addCst_wf (addCst_wf h0.1 a1 (a2.trans h0.2.symm)) b1
        (b2.trans h0.2.symm), h0.2⟩
    refine ⟨i1, fun x => ?_⟩
    simp only [List.foldl_cons]
    rw [i2 x, C27_add, C27_add]
    simp only [List.forall_mem_cons]
    constructor
    · rintro ⟨⟨⟨a, b⟩, c⟩, d⟩; exact ⟨a, ⟨b, c⟩, d⟩
    · rintro ⟨a, ⟨b, c⟩, d⟩; exact ⟨⟨⟨a, b⟩, c⟩, d⟩

theorem dot_replicate (n : Nat) (k : Int) (h : List Int) (hl : h.length = n) :
    dot (List.replicate n k) h = k * h.sum := by
  induction n generalizing h with
  | zero => cases h <;> simp_all
  | succ n ih => cases h with
    | nil => simp at hl
    | cons a h => simp [List.replicate_succ, ih h (by simpa using hl)]; ring

theorem issUb_wf {c : Cst} (h : c.WF) (v : Nat) (ub : Int) : (addUb c v ub).WF := by
  refine ⟨h.1, fun r hr => ?_⟩
  simp only [addUb, List.mem_append, List.mem_singleton] at hr
  rcases hr with hr | rfl
  · exact h.2 r hr
  · exact unitRow_len _ _ _ _

theorem issSystem_wf (ndim npar : Nat) (doms : List Cst) :
    (issSystem doms ndim npar).WF ∧ (issSystem doms ndim npar).ncols = 2 + ndim + npar + 1 + 1 := by
  obtain ⟨⟨f1, f2⟩, f3⟩ := issFold_spec ndim npar doms ⟨2 + ndim + npar + 1 + 1, []⟩ ⟨⟨by simp, by simp⟩, rfl⟩
  unfold issSystem
  refine ⟨addCst_wf (addCst_wf (issUb_wf f1 _ _) ⟨by simp, ?_⟩ f2.symm) ⟨by simp, ?_⟩ f2.symm, f2⟩
  · intro r hr
    rw [List.mem_singleton] at hr
    subst hr
    simp [zrow]; omega
  · intro r hr
    rw [List.mem_singleton] at hr
    subst hr
    simp [zrow]; omega

theorem issSystem_sat (ndim npar : Nat) (doms : List Cst) (m sg r : Int) (h P : List Int)
    (hh : h.length = ndim) (hP : P.length = npar) :
    (issSystem doms ndim npar).Sat ([m, sg] ++ h ++ P ++ [r]) ↔
      (∀ dom ∈ doms, (farkasLemmaAffine dom (2 + ndim + npar + 1 + 1) (issPhi ndim npar 1)).Sat ([m, sg] ++ h ++ P ++ [r]) ∧
        (farkasLemmaAffine dom (2 + ndim + npar + 1 + 1) (issPhi ndim npar (-1))).Sat ([m, sg] ++ h ++ P ++ [r])) ∧
      m ≤ 5 ∧ sg = h.sum ∧ 1 ≤ h.sum := by
  obtain ⟨⟨f1, f2⟩, f3⟩ := issFold_spec ndim npar doms ⟨2 + ndim + npar + 1 + 1, []⟩ ⟨⟨by simp, by simp⟩, rfl⟩
  have hl : ([m, sg] ++ h ++ P ++ [r]).length = 2 + ndim + npar + 1 := by simp [hh, hP]; omega
  have z : ∀ y : List Int, dot (zrow (npar + 1)) y = 0 := fun y => dot_zrow _ _
  have e : ∀ (a b k c : Int), aff ([a, b] ++ List.replicate ndim k ++ zrow (npar + 1) ++ [c]) ([m, sg] ++ h ++ P ++ [r]) =
      a * m + b * sg + k * h.sum + c := by
    intro a b k c
    unfold aff
    rw [show [m, sg] ++ h ++ P ++ [r] ++ [1] = [m, sg] ++ (h ++ ((P ++ [r]) ++ [1])) by simp,
      show [a, b] ++ List.replicate ndim k ++ zrow (npar + 1) ++ [c] =
        [a, b] ++ (List.replicate ndim k ++ (zrow (npar + 1) ++ [c])) by simp,
      dot_append _ _ _ _ (by simp), dot_append _ _ _ _ (by simp [hh]), dot_append _ _ _ _ (by simp [zrow, hP]),
      dot_replicate _ _ _ hh, z]
    simp; ring
  unfold issSystem
  simp only
  rw [C27_add, C27_add, C27_add_ub _ _ _ _ (by rw [f2, hl]) (by simp), f3]
  have g1 := e 0 1 (-1) 0
  have g2 := e 0 0 1 (-1)
  have u1 : (⟨2 + ndim + npar + 1 + 1, [⟨true, [0, 1] ++ List.replicate ndim (-1) ++ zrow (npar + 1) ++ [0]⟩]⟩ : Cst).Sat
      ([m, sg] ++ h ++ P ++ [r]) ↔ sg = h.sum := by
    simp only [Cst.Sat, List.mem_singleton, forall_eq, Row.Sat, if_true]
    rw [g1]
    constructor <;> intro k <;> linarith
  have u2 : (⟨2 + ndim + npar + 1 + 1, [⟨false, [0, 0] ++ List.replicate ndim 1 ++ zrow (npar + 1) ++ [-1]⟩]⟩ : Cst).Sat
      ([m, sg] ++ h ++ P ++ [r]) ↔ 1 ≤ h.sum := by
    simp only [Cst.Sat, List.mem_singleton, forall_eq, Row.Sat, Bool.false_eq_true, if_false]
    rw [g2]
    constructor <;> intro k <;> linarith
  rw [u1, u2]
  have u0 : (⟨2 + ndim + npar + 1 + 1, []⟩ : Cst).Sat ([m, sg] ++ h ++ P ++ [r]) := by simp [Cst.Sat]
  have u3 : ([m, sg] ++ h ++ P ++ [r]).getD 0 0 = m := by simp
  rw [u3]
  constructor
  · rintro ⟨⟨⟨⟨_, a⟩, b⟩, c⟩, d⟩; exact ⟨a, b, c, d⟩
  · rintro ⟨a, b, c, d⟩; exact ⟨⟨⟨⟨u0, a⟩, b⟩, c⟩, d⟩

end Pluto
