import Verif.Model.Glpk
import Verif.Lemmas.Affine

/-! C26: conversion of a system for GLPK. -/

namespace Pluto

/-- Meaning of a GLPK problem: row `i` (from 1) has the value of the sum of its entries times the column
variables (from 1), which obeys the bound of the row. -/
def GlpkSat (entries : List (Nat × Nat × Int)) (bounds : List GlpkBound) (x : List Int) : Prop :=
  ∀ i (h : i < bounds.length),
    let v := ((entries.filter (fun e => decide (e.1 = i + 1))).map (fun e => e.2.2 * x.getD (e.2.1 - 1) 0)).sum
    match bounds[i] with
    | .fixed b => v = b
    | .lower b => b ≤ v

theorem entries_sum (v : List Int) (k i : Nat) (x : List Int) (h : v.length + k = x.length) :
    (((v.zipIdx k).filter (fun (a : Int × Nat) => decide (a.1 ≠ 0))).map (fun (a : Int × Nat) => ((i + 1 : Nat), a.2 + 1, a.1))
      |>.map (fun e => e.2.2 * x.getD (e.2.1 - 1) 0)).sum = dot v (x.drop k) := by
  induction v generalizing k with
  | nil => simp
  | cons a v ih =>
    have hk : k < x.length := by simp at h; omega
    rw [List.drop_eq_getElem_cons hk, dot_cons, ← ih (k + 1) (by simp at h; omega)]
    rw [List.zipIdx_cons]
    by_cases h0 : a = 0
    · rw [List.filter_cons_of_neg (by simp [h0])]
      simp [h0]
    · rw [List.filter_cons_of_pos (by simp [h0])]
      simp [hk]

theorem entries_count (v : List Int) (k : Nat) :
    ((v.zipIdx k).filter (fun (a : Int × Nat) => decide (a.1 ≠ 0))).length = v.countP (fun a => decide (a ≠ 0)) := by
  induction v generalizing k with
  | nil => simp
  | cons a v ih =>
    rw [List.zipIdx_cons]
    by_cases h0 : a = 0
    · rw [List.filter_cons_of_neg (by simp [h0]), ih, List.countP_cons_of_neg (by simp [h0])]
    · rw [List.filter_cons_of_pos (by simp [h0]), List.length_cons, ih, List.countP_cons_of_pos (by simp [h0])]

theorem entries_row (f : Row → Nat → List (Nat × Nat × Int)) (hf : ∀ r i, ∀ e ∈ f r i, e.1 = i + 1) (rows : List Row) (k i : Nat)
    (r : Row) (h : rows[i]? = some r) :
    ((rows.zipIdx k).flatMap (fun (a : Row × Nat) => f a.1 a.2)).filter (fun e => decide (e.1 = i + k + 1)) = f r (i + k) := by
  have all : ∀ r j, (f r j).filter (fun e => decide (e.1 = j + 1)) = f r j := by
    intro r j
    rw [List.filter_eq_self]
    intro e he
    simpa using hf r j e he
  have none' : ∀ (rows : List Row) (k j : Nat), j < k → ((rows.zipIdx k).flatMap (fun (a : Row × Nat) => f a.1 a.2)).filter (fun e => decide (e.1 = j + 1)) = [] := by
    intro rows k j hj
    rw [List.filter_eq_nil_iff]
    intro e he
    obtain ⟨⟨r, l⟩, h1, h2⟩ := List.mem_flatMap.mp he
    have := List.le_snd_of_mem_zipIdx h1
    have := hf r l e h2
    simp at *
    omega
  induction rows generalizing k i with
  | nil => simp at h
  | cons a rows ih =>
    rw [List.zipIdx_cons, List.flatMap_cons, List.filter_append]
    cases i with
    | zero =>
      simp only [List.getElem?_cons_zero, Option.some.injEq] at h
      subst h
      rw [Nat.zero_add, all, none' _ _ _ (by omega), List.append_nil]
    | succ i =>
      rw [List.getElem?_cons_succ] at h
      have e := ih (k + 1) i h
      rw [show i + (k + 1) = i + 1 + k by omega] at e
      rw [e]
      rw [List.filter_eq_nil_iff.mpr, List.nil_append]
      intro x hx
      have := hf a k x hx
      simp; omega

/-- C26, the problem set up for GLPK. Its integer solutions are those of the system; there are exactly as many
entries as `pluto_constraints_get_num_non_zero_coeffs` says (the size of the arrays), all of them
non-zero with valid row and column numbers. -/
theorem C26_glpk (c : Cst) (hc : c.WF) :
    (glpkEntries c).length = numNonZeroCoeffs c ∧ (glpkBounds c).length = c.rows.length ∧
    (∀ e ∈ glpkEntries c, 1 ≤ e.1 ∧ e.1 ≤ c.rows.length ∧ 1 ≤ e.2.1 ∧ e.2.1 ≤ c.ncols - 1 ∧ e.2.2 ≠ 0) ∧
    ∀ x : List Int, x.length + 1 = c.ncols → (GlpkSat (glpkEntries c) (glpkBounds c) x ↔ c.Sat x) := by
  obtain ⟨hn, hw⟩ := hc
  refine ⟨?_, by simp [glpkBounds], ?_, ?_⟩
  · unfold glpkEntries numNonZeroCoeffs
    rw [List.length_flatMap]
    congr 1
    have : ∀ (rows : List Row) (k : Nat), (rows.zipIdx k).map (fun a => (glpkRow (c.ncols - 1) a.1 a.2).length) =
        rows.map (fun r => (r.val.take (c.ncols - 1)).countP (fun a => decide (a ≠ 0))) := by
      intro rows
      induction rows with
      | nil => intro k; rfl
      | cons r rows ih =>
        intro k
        rw [List.zipIdx_cons, List.map_cons, List.map_cons, ih]
        congr 1
        unfold glpkRow
        rw [List.length_map]
        exact entries_count _ _
    exact this _ _
  · intro e he
    obtain ⟨⟨r, i⟩, h1, h2⟩ := List.mem_flatMap.mp he
    obtain ⟨⟨a, j⟩, h3, rfl⟩ := List.mem_map.mp h2
    obtain ⟨h4, h5⟩ := List.mem_filter.mp h3
    have hi := List.snd_lt_of_mem_zipIdx h1
    have hj := List.snd_lt_of_mem_zipIdx h4
    rw [List.length_take] at hj
    simp at h5 hi hj
    refine ⟨by simp, by simp; omega, by simp, by simp; omega, by simpa using h5⟩
  · intro x hx
    unfold GlpkSat Cst.Sat
    have key : ∀ i (h : i < (glpkBounds c).length),
        (let v := (((glpkEntries c).filter (fun e => decide (e.1 = i + 1))).map (fun e => e.2.2 * x.getD (e.2.1 - 1) 0)).sum
          match (glpkBounds c)[i] with
          | .fixed b => v = b
          | .lower b => b ≤ v) ↔ (c.rows[i]'(by simpa [glpkBounds] using h)).Sat x := by
      intro i h
      have hi : i < c.rows.length := by simpa [glpkBounds] using h
      have hlen := hw _ (List.getElem_mem hi)
      have e1 := entries_row (glpkRow (c.ncols - 1)) (by
          intro r i e he
          obtain ⟨a, _, rfl⟩ := List.mem_map.mp he
          rfl) c.rows 0 i _ (List.getElem?_eq_getElem hi)
      have e2 := entries_sum ((c.rows[i]).val.take (c.ncols - 1)) 0 (i + 0) x (by rw [List.length_take]; omega)
      rw [show (((c.rows[i]).val.take (c.ncols - 1)).zipIdx.filter (fun (a : Int × Nat) => decide (a.1 ≠ 0))).map
        (fun (a : Int × Nat) => (i + 0 + 1, a.2 + 1, a.1)) = glpkRow (c.ncols - 1) c.rows[i] (i + 0) from rfl, ← e1] at e2
      rw [List.drop_zero] at e2
      have e3 : aff (c.rows[i]).val x = dot ((c.rows[i]).val.take (c.ncols - 1)) x + coef (c.rows[i]).val (c.ncols - 1) := by
        unfold aff
        conv_lhs => rw [← List.take_append_drop (c.ncols - 1) (c.rows[i]).val]
        rw [dot_append _ _ _ _ (by rw [List.length_take]; omega), List.drop_eq_getElem_cons (by omega),
          List.drop_eq_nil_of_le (by omega)]
        simp [coef, List.getD_eq_getElem?_getD, List.getElem?_eq_getElem (show c.ncols - 1 < (c.rows[i]).val.length by omega)]
      simp only [glpkBounds, List.getElem_map]
      unfold Row.Sat
      rw [e3]
      have e4 : ∀ m, (((glpkEntries c).filter (fun e => decide (e.1 = i + 1))).map (fun e => e.2.2 * x.getD (e.2.1 - 1) 0)).sum = m ↔
          dot ((c.rows[i]).val.take (c.ncols - 1)) x = m := by
        intro m
        rw [← e2]; rfl
      have e5 := (e4 _).mpr rfl
      rw [e5]
      cases (c.rows[i]).eq
      · simp only [Bool.false_eq_true, if_false]; constructor <;> intro h <;> omega
      · simp only [if_true]; constructor <;> intro h <;> omega
    constructor
    · intro h r hr
      obtain ⟨i, hi, rfl⟩ := List.getElem_of_mem hr
      exact (key i (by simpa [glpkBounds] using hi)).mp (h i (by simpa [glpkBounds] using hi))
    · intro h i hi
      exact (key i hi).mpr (h _ (List.getElem_mem _))

/-- `3x - 2 >= 0`, `x - y + 4 = 0`. -/
example : Cst.WF ⟨3, [⟨false, [3, 0, -2]⟩, ⟨true, [1, -1, 4]⟩]⟩ ∧
    glpkEntries ⟨3, [⟨false, [3, 0, -2]⟩, ⟨true, [1, -1, 4]⟩]⟩ = [(1, 1, 3), (2, 1, 1), (2, 2, -1)] ∧
    glpkBounds ⟨3, [⟨false, [3, 0, -2]⟩, ⟨true, [1, -1, 4]⟩]⟩ = [.lower 2, .fixed (-4)] := by decide

end Pluto
