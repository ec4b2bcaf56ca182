import Verif.Props.Elim
import Verif.Lemmas.LexScale
import Verif.Lemmas.AutoFind
import Verif.Spec.FcgCluster
/-! Linear programs with an objective that is not negative have an optimum. -/
namespace Pluto

/-- A system in one variable that bounds it from below has a least solution. -/
theorem one_min (rs : List Row) (hl : ∀ r ∈ rs, r.val.length = 2) (z0 lo : ℚ) (h0 : ∀ r ∈ rs, r.Sat [z0])
    (hlo : ∀ z : ℚ, (∀ r ∈ rs, r.Sat [z]) → lo ≤ z) : ∃ z : ℚ, (∀ r ∈ rs, r.Sat [z]) ∧ ∀ y : ℚ, (∀ r ∈ rs, r.Sat [y]) → z ≤ y := by
  have hr : ∀ r ∈ rs, ∀ z : ℚ, r.Sat [z] ↔ if r.eq then (coef r.val 0 : ℚ) * z + coef r.val 1 = 0 else 0 ≤ (coef r.val 0 : ℚ) * z + coef r.val 1 := by
    intro r hr z
    have := hl r hr
    obtain ⟨e, v⟩ := r
    match v, this with
    | [a, b], _ => cases e <;> simp [Row.Sat, aff, dot, coef]
  by_cases hE : ∃ r ∈ rs, r.eq = true ∧ coef r.val 0 ≠ 0
  · obtain ⟨r, hm, he, hc⟩ := hE
    refine ⟨z0, h0, fun y hy => ?_⟩
    have h1 := (hr r hm z0).mp (h0 r hm)
    have h2 := (hr r hm y).mp (hy r hm)
    rw [if_pos he] at h1 h2
    have hc' : (coef r.val 0 : ℚ) ≠ 0 := by exact_mod_cast hc
    have : (coef r.val 0 : ℚ) * (z0 - y) = 0 := by linarith
    rcases mul_eq_zero.mp this with h | h
    · exact absurd h hc'
    · linarith
  · push Not at hE
    let low := rs.filter (fun r => !r.eq && decide (0 < coef r.val 0))
    let f : Row → ℚ := fun r => -(coef r.val 1 : ℚ) / coef r.val 0
    have mem : ∀ r, r ∈ low ↔ r ∈ rs ∧ r.eq = false ∧ 0 < coef r.val 0 := by
      intro r
      simp [low]
    have hf : ∀ r ∈ low, ∀ z : ℚ, r.Sat [z] ↔ f r ≤ z := by
      intro r hm z
      obtain ⟨h1, h2, h3⟩ := (mem r).mp hm
      have h3' : (0 : ℚ) < coef r.val 0 := by exact_mod_cast h3
      rw [hr r h1 z, if_neg (by simp [h2]), div_le_iff₀ h3']
      constructor <;> intro h <;> linarith
    have up : ∀ r ∈ rs, r ∉ low → ∀ z ≤ z0, r.Sat [z] := by
      intro r hm hn z hz
      have h1 := (hr r hm z0).mp (h0 r hm)
      rw [hr r hm z]
      cases he : r.eq with
      | true =>
        have := hE r hm he
        rw [he, if_pos rfl, this] at h1
        rw [if_pos rfl, this]
        simpa using h1
      | false =>
        rw [he, if_neg (by simp)] at h1
        rw [if_neg (by simp)]
        have : ¬ 0 < coef r.val 0 := fun h => hn ((mem r).mpr ⟨hm, he, h⟩)
        have h2 : (coef r.val 0 : ℚ) ≤ 0 := by exact_mod_cast not_lt.mp this
        nlinarith
    cases e : low with
    | nil =>
      have := hlo (min z0 (lo - 1)) (fun r hm => up r hm (by rw [e]; simp) _ (min_le_left _ _))
      have h2 := min_le_right z0 (lo - 1)
      linarith
    | cons r0 low' =>
      have hne : low ≠ [] := by rw [e]; simp
      obtain ⟨r, hm, hmax⟩ : ∃ r ∈ low, ∀ r' ∈ low, f r' ≤ f r := by
        obtain ⟨r, hm, h⟩ := Finset.exists_max_image low.toFinset f ⟨r0, by rw [e]; simp⟩
        exact ⟨r, List.mem_toFinset.mp hm, fun r' h' => h r' (List.mem_toFinset.mpr h')⟩
      have hr0 : f r ≤ z0 := (hf r hm z0).mp (h0 r ((mem r).mp hm).1)
      refine ⟨f r, fun r' hm' => ?_, fun y hy => (hf r hm y).mp (hy r ((mem r).mp hm).1)⟩
      by_cases hl' : r' ∈ low
      · exact (hf r' hl' _).mpr (hmax r' hl')
      · exact up r' hm' hl' _ hr0

/-- The system over `x` and the value of the objective. -/
def objSystem (c : Cst) (obj : List Int) : Cst :=
  ⟨c.ncols + 1, c.rows.map (fun r => ⟨r.eq, r.val.take (c.ncols - 1) ++ (0 :: r.val.drop (c.ncols - 1))⟩) ++
    (List.range (c.ncols - 1)).map (fun i => ⟨false, unitRow (c.ncols + 1) i 1 0⟩) ++
    [⟨true, (List.range (c.ncols - 1)).map (fun j => -coef obj j) ++ [1, 0]⟩]⟩

theorem objSystem_wf {c : Cst} (hc : c.WF) (obj : List Int) : (objSystem c obj).WF := by
  refine ⟨by simp [objSystem], fun r hr => ?_⟩
  have h1 := hc.1
  simp only [objSystem, List.mem_append, List.mem_map, List.mem_singleton] at hr ⊢
  rcases hr with (⟨r', hm, rfl⟩ | ⟨i, _, rfl⟩) | rfl
  · have := hc.2 r' hm
    simp
    omega
  · exact unitRow_len _ _ _ _
  · simp
    omega

theorem dot_range_obj (obj : List Int) (n : Nat) (x : List ℚ) (hx : x.length = n) :
    dot ((List.range n).map (fun j => -coef obj j)) x = - dot obj x := by
  induction n generalizing obj x with
  | zero =>
    rw [List.length_eq_zero_iff.mp hx]
    simp [dot]
  | succ n ih =>
    match x, hx with
    | a :: x, hx =>
      rw [List.range_succ_eq_map, List.map_cons, List.map_map]
      cases obj with
      | nil =>
        have := ih [] x (by simpa using hx)
        simp only [coef] at this ⊢
        simp [dot] at this ⊢
        simpa [Function.comp_def] using this
      | cons o obj =>
        have := ih obj x (by simpa using hx)
        have e : (List.range n).map ((fun j => -coef (o :: obj) j) ∘ Nat.succ) = (List.range n).map (fun j => -coef obj j) := by
          refine List.map_congr_left fun j _ => ?_
          simp [coef]
        rw [e]
        rw [dot_cons, dot_cons, this]
        simp [coef]
        ring

theorem objSystem_sat {c : Cst} (hc : c.WF) (obj : List Int) {x : List ℚ} (hx : x.length + 1 = c.ncols) (z : ℚ) :
    (objSystem c obj).Sat (x ++ [z]) ↔ c.Sat x ∧ (∀ v ∈ x, 0 ≤ v) ∧ z = dot obj x := by
  have hn : x.length = c.ncols - 1 := by omega
  show (∀ r ∈ (objSystem c obj).rows, r.Sat (x ++ [z])) ↔ (∀ r ∈ c.rows, r.Sat x) ∧ _
  simp only [objSystem, List.mem_append, List.mem_map, List.mem_singleton, or_imp, forall_and, forall_eq, forall_exists_index, and_imp,
    forall_apply_eq_imp_iff₂, List.mem_range, and_assoc]
  refine and_congr (forall₂_congr fun r hm => ?_) (and_congr ?_ ?_)
  · have hl := hc.2 r hm
    have e : aff (r.val.take (c.ncols - 1) ++ (0 :: r.val.drop (c.ncols - 1))) (x ++ [z]) = aff r.val x := by
      unfold aff
      rw [List.append_assoc, dot_append _ _ _ _ (by simp; omega)]
      conv_rhs => rw [← List.take_append_drop (c.ncols - 1) r.val, dot_append _ _ _ _ (by simp; omega)]
      simp
    unfold Row.Sat
    rw [e]
  · have key : ∀ i < c.ncols - 1, (Row.Sat ⟨false, unitRow (c.ncols + 1) i 1 0⟩ (x ++ [z]) ↔ 0 ≤ x.getD i 0) := by
      intro i hi
      unfold Row.Sat
      rw [if_neg (by simp), aff_unitRow_rat _ _ _ _ _ (by omega) (by simp; omega)]
      rw [List.getD_eq_getElem?_getD, List.getElem?_append_left (by omega), ← List.getD_eq_getElem?_getD]
      simp
    constructor
    · intro h v hv
      obtain ⟨i, hi, rfl⟩ := List.getElem_of_mem hv
      have := (key i (by omega)).mp (h i (by omega))
      rwa [List.getD_eq_getElem?_getD, List.getElem?_eq_getElem hi] at this
    · intro h i hi
      refine (key i hi).mpr ?_
      rw [List.getD_eq_getElem?_getD, List.getElem?_eq_getElem (by omega)]
      exact h _ (List.getElem_mem _)
  · unfold Row.Sat
    rw [if_pos (by rfl)]
    have e : aff ((List.range (c.ncols - 1)).map (fun j => -coef obj j) ++ [1, 0]) (x ++ [z]) = z - dot obj x := by
      unfold aff
      rw [List.append_assoc, dot_append _ _ _ _ (by simp; omega), dot_range_obj _ _ _ hn]
      simp
      ring
    rw [e, sub_eq_zero]

theorem dot_nonneg {obj : List Int} {x : List ℚ} (ho : ∀ v ∈ obj, 0 ≤ v) (hx : ∀ v ∈ x, 0 ≤ v) : 0 ≤ dot obj x := by
  induction obj generalizing x with
  | nil => simp
  | cons o obj ih =>
    cases x with
    | nil => simp
    | cons a x =>
      rw [dot_cons]
      have h1 : (0 : ℚ) ≤ o := by exact_mod_cast ho o (by simp)
      have h2 := hx a (by simp)
      have h3 := ih (fun v hv => ho v (by simp [hv])) (x := x) (fun v hv => hx v (by simp [hv]))
      positivity

theorem fmFront_shape (n : Nat) (c : Cst) (h : c.WF) (hn : n < c.ncols) : (fmEliminateFront c n).WF ∧ (fmEliminateFront c n).ncols = c.ncols - n := by
  induction n generalizing c with
  | zero => exact ⟨h, rfl⟩
  | succ n ih =>
    have hs := C03_fm_shape c 0 h (by omega)
    have := ih (fmEliminate c 0) hs.1 (by rw [hs.2]; omega)
    exact ⟨this.1, by rw [fmEliminateFront, this.2, hs.2]; omega⟩

/-- An optimum exists. -/
theorem lp_optimum {c : Cst} (hc : c.WF) {obj : List Int} (ho : ∀ v ∈ obj, 0 ≤ v)
    (hf : ∃ x : List ℚ, x.length + 1 = c.ncols ∧ (∀ v ∈ x, 0 ≤ v) ∧ c.Sat x) :
    ∃ x : List ℚ, (x.length + 1 = c.ncols ∧ (∀ v ∈ x, 0 ≤ v) ∧ c.Sat x) ∧
      ∀ y : List ℚ, y.length + 1 = c.ncols → (∀ v ∈ y, 0 ≤ v) → c.Sat y → dot obj x ≤ dot obj y := by
  have hw := objSystem_wf hc obj
  have hcols : (objSystem c obj).ncols = c.ncols + 1 := rfl
  have hpos := hc.1
  have proj : ∀ z : ℚ, (fmEliminateFront (objSystem c obj) (c.ncols - 1)).Sat [z] ↔
      ∃ y : List ℚ, y.length = c.ncols - 1 ∧ (objSystem c obj).Sat (y ++ [z]) :=
    fun z => C03_fm_sequence (c.ncols - 1) (objSystem c obj) [z] hw (by rw [hcols]; simp; omega)
  obtain ⟨x0, g1, g2, g3⟩ := hf
  have hshape : ∀ r ∈ (fmEliminateFront (objSystem c obj) (c.ncols - 1)).rows, r.val.length = 2 := by
    have := fmFront_shape (c.ncols - 1) (objSystem c obj) hw (by rw [hcols]; omega)
    intro r hr
    rw [this.1.2 r hr, this.2, hcols]
    omega
  obtain ⟨z, hz, hmin⟩ := one_min _ hshape (dot obj x0) 0
    ((proj _).mpr ⟨x0, by omega, (objSystem_sat hc obj g1 _).mpr ⟨g3, g2, rfl⟩⟩)
    (fun z hz => by
      obtain ⟨y, hy, hs⟩ := (proj z).mp hz
      obtain ⟨_, h2, rfl⟩ := (objSystem_sat hc obj (by omega) z).mp hs
      exact dot_nonneg ho h2)
  obtain ⟨x, hx, hs⟩ := (proj z).mp hz
  obtain ⟨h1, h2, rfl⟩ := (objSystem_sat hc obj (by omega) z).mp hs
  exact ⟨x, ⟨by omega, h2, h1⟩, fun y q1 q2 q3 => hmin _ ((proj _).mpr ⟨y, by omega, (objSystem_sat hc obj q1 _).mpr ⟨q3, q2, rfl⟩⟩)⟩

end Pluto
