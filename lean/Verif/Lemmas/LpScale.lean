import Verif.Spec.LpScale
import Verif.Lemmas.Lexmin
import Mathlib.Data.Rat.Floor
import Mathlib.Data.List.GetD
import Mathlib.Algebra.Order.Floor.Ring
import Mathlib.Tactic.Linarith
import Mathlib.Tactic.FieldSimp

/-! Scaling of rational solutions. -/

namespace Pluto

theorem cround_int (n : Int) : cround (n : ℚ) = n := by
  unfold cround
  have h : ∀ m : Int, ((m : ℚ) + 1 / 2).floor = m := by
    intro m
    show ⌊(m : ℚ) + 1 / 2⌋ = m
    rw [Int.floor_eq_iff]
    constructor <;> linarith
  split_ifs
  · exact h n
  · have := h (-n)
    push_cast at this
    rw [this, neg_neg]

theorem mapM_some {α β : Type} (f : α → Option β) (l : List α) (r : List β) (h : l.mapM f = some r) :
    ∀ a ∈ l, ∃ b ∈ r, f a = some b := by
  induction l generalizing r with
  | nil => simp
  | cons x l ih =>
    rw [List.mapM_cons] at h
    simp only [Option.bind_eq_bind, Option.pure_def] at h
    obtain ⟨b, h1, h⟩ := Option.bind_eq_some_iff.mp h
    obtain ⟨r', h2, h⟩ := Option.bind_eq_some_iff.mp h
    simp only [Option.some.injEq] at h
    subst h
    intro a ha
    rcases List.mem_cons.mp ha with rfl | ha
    · exact ⟨b, by simp, h1⟩
    · obtain ⟨b', hb, he⟩ := ih r' h2 a ha
      exact ⟨b', by simp [hb], he⟩

theorem mapM_mem {α β : Type} (f : α → Option β) (l : List α) (r : List β) (h : l.mapM f = some r) :
    ∀ b ∈ r, ∃ a ∈ l, f a = some b := by
  induction l generalizing r with
  | nil => simp [List.mapM_nil] at h; subst h; simp
  | cons x l ih =>
    rw [List.mapM_cons] at h
    simp only [Option.bind_eq_bind, Option.pure_def] at h
    obtain ⟨b, h1, h⟩ := Option.bind_eq_some_iff.mp h
    obtain ⟨r', h2, h⟩ := Option.bind_eq_some_iff.mp h
    simp only [Option.some.injEq] at h
    subst h
    intro c hc
    rcases List.mem_cons.mp hc with rfl | hc
    · exact ⟨x, by simp, h1⟩
    · obtain ⟨a, ha, he⟩ := ih r' h2 c hc
      exact ⟨a, by simp [ha], he⟩

/-- The entries of `index` for columns in components `ccs`. -/
def indexOf (ccs : List Nat) (n : Nat) : List (Nat × Nat) := ccs.mapIdx (fun r c => (c + 1, n + r + 1))

/-- Entries that are zero or above the tolerance. -/
def Clear (x : List ℚ) : Prop := ∀ a ∈ x, a = 0 ∨ scaleTol < a

theorem Clear.abs {x : List ℚ} (h : Clear x) {a : ℚ} (ha : a ∈ x) : 0 ≤ a ∧ (scaleTol < |a| ↔ a ≠ 0) := by
  have h0 : (0 : ℚ) < scaleTol := by unfold scaleTol; norm_num
  rcases h a ha with rfl | h1
  · simp [h0.le]
  · have : 0 < a := h0.trans h1
    refine ⟨this.le, ?_⟩
    rw [abs_of_pos this]
    exact ⟨fun _ => this.ne', fun _ => h1⟩

section
variable {x : List ℚ} {ccs : List Nat} {npar n : Nat} {P : ScaleProb} (hx : Clear x) (hl : ccs.length = (x.drop (npar + 1)).length)
  (h : scalingProb x (some (indexOf ccs n)) npar n = some P)
include h

theorem scalingProb_cols : P.cols = List.replicate n .rat ++ (x.drop (npar + 1)).map (fun a => if scaleTol < |a| then .int else .zero) := by
  unfold scalingProb at h
  simp only [Option.bind_eq_bind, Option.pure_def] at h
  obtain ⟨rows, _, h⟩ := Option.bind_eq_some_iff.mp h
  simp only [Option.some.injEq] at h
  rw [← h]

include hl hx in
/-- A solution of the scaling problem multiplies the entries by the factors of their components. -/
theorem scaled_entries {s : List ℚ} (hs : P.Sol s) (hc : ∀ c ∈ ccs, c < n) :
    s.length = n + ccs.length ∧ (∀ c < n, 1 ≤ s.getD c 0) ∧
    ∀ q (hq : q < ccs.length), (∃ m : Int, s.getD (n + q) 0 = m) ∧
      s.getD (n + q) 0 = s.getD ccs[q] 0 * (x.drop (npar + 1)).getD q 0 := by
  have hcols := scalingProb_cols h
  have hlen : s.length = n + ccs.length := by rw [hs.1, hcols, hl]; simp
  refine ⟨hlen, fun c hc => ?_, fun q hq => ?_⟩
  · exact hs.2.1 c .rat (by rw [hcols, List.getElem?_append_left (by simpa using hc), List.getElem?_replicate, if_pos hc])
  · have hq' : q < (x.drop (npar + 1)).length := by omega
    have ha : (x.drop (npar + 1))[q] ∈ x := List.mem_of_mem_drop (List.getElem_mem hq')
    obtain ⟨a0, a1⟩ := hx.abs ha
    have hk := hs.2.1 (n + q) (if scaleTol < |(x.drop (npar + 1))[q]| then .int else .zero) (by
      rw [hcols, List.getElem?_append_right (by simp), List.length_replicate, Nat.add_sub_cancel_left, List.getElem?_map,
        List.getElem?_eq_getElem hq', Option.map_some])
    rw [List.getD_eq_getElem _ _ hq']
    by_cases h0 : (x.drop (npar + 1))[q] = 0
    · rw [if_neg (by rw [a1]; simpa using h0)] at hk
      have hk : s.getD (n + q) 0 = 0 := hk
      rw [hk, h0]
      exact ⟨⟨0, by simp⟩, by ring⟩
    · rw [if_pos (a1.mpr h0)] at hk
      refine ⟨hk.2, ?_⟩
      unfold scalingProb at h
      simp only [Option.bind_eq_bind, Option.pure_def] at h
      obtain ⟨rows, hrows, h⟩ := Option.bind_eq_some_iff.mp h
      simp only [Option.some.injEq] at h
      obtain ⟨row, hr, he⟩ := mapM_some _ _ _ hrows ((x.drop (npar + 1))[q], q) (by
        rw [List.mem_filter]
        refine ⟨?_, by simpa using a1.mpr h0⟩
        rw [List.mem_zipIdx_iff_getElem?]
        exact List.getElem?_eq_getElem hq')
      simp only [Option.bind_some] at he
      have hi : (indexOf ccs n)[q]? = some (ccs[q] + 1, n + q + 1) := by
        simp [indexOf, List.getElem?_mapIdx, List.getElem?_eq_getElem hq]
      rw [hi, Option.bind_some, Option.some.injEq] at he
      have := hs.2.2 row (by rw [← h]; exact hr)
      rw [← he] at this
      simp only [List.map_cons, List.map_nil, List.sum_cons, List.sum_nil, Nat.add_sub_cancel] at this
      linarith

end

/-- Rational numbers have a common denominator. -/
theorem common_den (x : List ℚ) : ∃ k : Nat, 0 < k ∧ ∃ X : List Int, x = X.map (fun a : Int => (a : ℚ) / k) := by
  induction x with
  | nil => exact ⟨1, by omega, [], rfl⟩
  | cons a x ih =>
    obtain ⟨k, hk, X, hX⟩ := ih
    refine ⟨k * a.den, Nat.mul_pos hk a.den_pos, (a.num * k) :: X.map (· * (a.den : Int)), ?_⟩
    have hk' : (k : ℚ) ≠ 0 := by exact_mod_cast hk.ne'
    have hd : (a.den : ℚ) ≠ 0 := by exact_mod_cast a.den_pos.ne'
    rw [List.map_cons]
    congr 1
    · push_cast
      rw [mul_comm (k : ℚ) a.den, mul_div_mul_right _ _ hk', Rat.num_div_den]
    · rw [hX, List.map_map]
      apply List.map_congr_left
      intro b _
      simp only [Function.comp]
      push_cast
      rw [mul_div_mul_right _ _ hd]

/-- The scaling problem of a non-negative solution can be solved. -/
theorem scaling_solvable {x : List ℚ} {ccs : List Nat} {npar n : Nat} (hx : Clear x) (hl : ccs.length = (x.drop (npar + 1)).length)
    (hc : ∀ c ∈ ccs, c < n) : ∃ P, scalingProb x (some (indexOf ccs n)) npar n = some P ∧ ∃ s, P.Sol s := by
  have hP : ∃ P, scalingProb x (some (indexOf ccs n)) npar n = some P := by
    have key : ∀ l : List (ℚ × Nat), (∀ a ∈ l, a.2 < ccs.length) → ∃ r, l.mapM (fun a => (do
        let e ← (← some (indexOf ccs n))[a.2]?
        return [(e.1, a.1), (e.2, (-1 : ℚ))] : Option (List (Nat × ℚ)))) = some r := by
      intro l
      induction l with
      | nil => intro _; exact ⟨[], rfl⟩
      | cons a l ih =>
        intro ha
        obtain ⟨r, hr⟩ := ih (fun b hb => ha b (by simp [hb]))
        have h1 := ha a (by simp)
        have hi : (indexOf ccs n)[a.2]? = some (ccs[a.2] + 1, n + a.2 + 1) := by
          simp [indexOf, List.getElem?_mapIdx, List.getElem?_eq_getElem h1]
        rw [List.mapM_cons, hr]
        simp [hi]
    obtain ⟨r, hr⟩ := key ((x.drop (npar + 1)).zipIdx.filter (fun a => decide (scaleTol < |a.1|))) (by
      intro a ha
      have := (List.mem_filter.mp ha).1
      rw [List.mem_zipIdx_iff_getElem?] at this
      rw [hl]
      exact (List.getElem?_eq_some_iff.mp this).1)
    unfold scalingProb
    simp only [Option.bind_eq_bind, Option.pure_def] at hr ⊢
    rw [hr]
    exact ⟨_, rfl⟩
  obtain ⟨P, hP⟩ := hP
  refine ⟨P, hP, ?_⟩
  have hcols := scalingProb_cols hP
  obtain ⟨k, hk, X, hX⟩ := common_den (x.drop (npar + 1))
  have hk' : (0 : ℚ) < k := by exact_mod_cast hk
  have hk1 : (1 : ℚ) ≤ k := by exact_mod_cast hk
  have hXl : X.length = (x.drop (npar + 1)).length := by rw [hX]; simp
  have hget : ∀ q < ccs.length, (List.replicate n (k : ℚ) ++ X.map (fun a : Int => (a : ℚ))).getD (n + q) 0 =
      k * (x.drop (npar + 1)).getD q 0 := by
    intro q hq
    rw [List.getD_append_right _ _ _ _ (by simp), List.length_replicate, Nat.add_sub_cancel_left, hX,
      List.getD_eq_getElem _ _ (by simp; omega), List.getD_eq_getElem _ _ (by simp; omega)]
    simp only [List.getElem_map]
    field_simp
  refine ⟨List.replicate n (k : ℚ) ++ X.map (fun a : Int => (a : ℚ)), ?_, ?_, ?_⟩
  · rw [hcols]; simp [hXl]
  · intro i t hi
    rw [hcols] at hi
    by_cases hin : i < n
    · rw [List.getElem?_append_left (by simpa using hin), List.getElem?_replicate, if_pos hin, Option.some.injEq] at hi
      subst hi
      show 1 ≤ _
      rw [List.getD_append _ _ _ _ (by simpa using hin), List.getD_eq_getElem _ _ (by simpa using hin)]
      simpa using hk1
    · rw [List.getElem?_append_right (by simpa using hin), List.length_replicate, List.getElem?_map] at hi
      obtain ⟨a, ha, he⟩ := Option.map_eq_some_iff.mp hi
      have hlt := (List.getElem?_eq_some_iff.mp ha).1
      have hmem : a ∈ x := List.mem_of_mem_drop (List.mem_of_getElem? ha)
      obtain ⟨a0, a1⟩ := hx.abs hmem
      have hg := hget (i - n) (by omega)
      rw [show n + (i - n) = i by omega] at hg
      have hai : (x.drop (npar + 1)).getD (i - n) 0 = a := by
        rw [List.getD_eq_getElem?_getD, ha]; rfl
      rw [hai] at hg
      have hz : ∃ m : Int, (k : ℚ) * a = m := by
        rw [← hg, List.getD_append_right _ _ _ _ (by simpa using hin), List.length_replicate,
          List.getD_eq_getElem _ _ (by simp; omega)]
        simp only [List.getElem_map]
        exact ⟨_, rfl⟩
      rw [hg, ← he]
      split_ifs with h1
      · refine ⟨?_, hz⟩
        have : 0 < a := lt_of_le_of_ne a0 (Ne.symm (a1.mp h1))
        obtain ⟨m, hm⟩ := hz
        have hpos : (0 : ℚ) < m := by rw [← hm]; exact mul_pos hk' this
        rw [hm]
        have : 0 < m := by exact_mod_cast hpos
        exact_mod_cast this
      · have h0 : a = 0 := by
          by_contra hne
          exact h1 (a1.mpr hne)
        show _ = _
        rw [h0]; ring
  · intro row hrow
    have hP' := hP
    unfold scalingProb at hP'
    simp only [Option.bind_eq_bind, Option.pure_def] at hP'
    obtain ⟨rows, hrows, he⟩ := Option.bind_eq_some_iff.mp hP'
    simp only [Option.some.injEq] at he
    rw [← he] at hrow
    obtain ⟨⟨a, q⟩, hm, hf⟩ := mapM_mem _ _ _ hrows row hrow
    have hq := (List.mem_filter.mp hm).1
    rw [List.mem_zipIdx_iff_getElem?] at hq
    simp only at hq
    have hlt := (List.getElem?_eq_some_iff.mp hq).1
    have hi : (indexOf ccs n)[q]? = some (ccs[q] + 1, n + q + 1) := by
      simp [indexOf, List.getElem?_mapIdx, List.getElem?_eq_getElem (show q < ccs.length by omega)]
    simp only [Option.bind_some, hi, Option.some.injEq] at hf
    rw [← hf]
    have hg := hget q (by omega)
    have hai : (x.drop (npar + 1)).getD q 0 = a := by rw [List.getD_eq_getElem?_getD, hq]; rfl
    rw [hai] at hg
    have hcq := hc ccs[q] (List.getElem_mem _)
    have h1 : (List.replicate n (k : ℚ) ++ X.map (fun a : Int => (a : ℚ))).getD ccs[q] 0 = k := by
      rw [List.getD_append _ _ _ _ (by simpa using hcq), List.getD_eq_getElem _ _ (by simpa using hcq)]
      simp
    simp only [List.map_cons, List.map_nil, List.sum_cons, List.sum_nil, Nat.add_sub_cancel, h1, hg]
    ring

end Pluto
