import Verif.Spec.Auto
import Mathlib.Data.List.Basic
import Mathlib.Tactic

/-! Lexicographic order. -/

namespace Pluto

theorem lex_append {a b : List Int} (h : LexBefore a b) (X Y : List Int) : LexBefore (a ++ X) (b ++ Y) := by
  obtain ⟨l, x, y, h1, h2, h3, h4⟩ := h
  have la : l < a.length := (List.getElem?_eq_some_iff.mp h1).1
  have lb : l < b.length := (List.getElem?_eq_some_iff.mp h2).1
  refine ⟨l, x, y, by rw [List.getElem?_append_left la, h1], by rw [List.getElem?_append_left lb, h2], h3, ?_⟩
  intro l' hl'
  rw [List.getElem?_append_left (by omega), List.getElem?_append_left (by omega)]
  exact h4 l' hl'

theorem lex_prefix {a b : List Int} (C : List Int) : LexBefore (C ++ a) (C ++ b) ↔ LexBefore a b := by
  constructor
  · rintro ⟨l, x, y, h1, h2, h3, h4⟩
    have hl : C.length ≤ l := by
      by_contra hc
      rw [List.getElem?_append_left (by omega)] at h1 h2
      rw [h1] at h2
      simp at h2; omega
    refine ⟨l - C.length, x, y, ?_, ?_, h3, ?_⟩
    · rw [List.getElem?_append_right hl] at h1; exact h1
    · rw [List.getElem?_append_right hl] at h2; exact h2
    · intro l' hl'
      have := h4 (l' + C.length) (by omega)
      rw [List.getElem?_append_right (by omega), List.getElem?_append_right (by omega)] at this
      simpa using this
  · rintro ⟨l, x, y, h1, h2, h3, h4⟩
    refine ⟨l + C.length, x, y, ?_, ?_, h3, ?_⟩
    · rw [List.getElem?_append_right (by omega)]; simpa using h1
    · rw [List.getElem?_append_right (by omega)]; simpa using h2
    · intro l' hl'
      by_cases hc : l' < C.length
      · rw [List.getElem?_append_left hc, List.getElem?_append_left hc]
      · rw [List.getElem?_append_right (by omega), List.getElem?_append_right (by omega)]
        exact h4 _ (by omega)

theorem lex_split {A B X Y : List Int} (hl : A.length = B.length) (h : LexBefore (A ++ X) (B ++ Y)) :
    LexBefore A B ∨ (A = B ∧ LexBefore X Y) := by
  obtain ⟨l, x, y, h1, h2, h3, h4⟩ := h
  by_cases hc : l < A.length
  · left
    rw [List.getElem?_append_left hc] at h1
    rw [List.getElem?_append_left (by omega)] at h2
    refine ⟨l, x, y, h1, h2, h3, fun l' hl' => ?_⟩
    have := h4 l' hl'
    rwa [List.getElem?_append_left (by omega), List.getElem?_append_left (by omega)] at this
  · right
    have e : A = B := by
      apply List.ext_getElem?
      intro j
      by_cases hj : j < A.length
      · have := h4 j (by omega)
        rwa [List.getElem?_append_left (by omega), List.getElem?_append_left (by omega)] at this
      · rw [List.getElem?_eq_none (by omega), List.getElem?_eq_none (by omega)]
    refine ⟨e, ?_⟩
    rw [e] at h1 h4
    rw [← lex_prefix B]
    exact ⟨l, x, y, h1, h2, h3, h4⟩

theorem lex_range (w : Nat) (g h : Nat → Int)
    (hc : ∀ m < w, (∀ m0 < m, g m0 = h m0) → g m ≤ h m) :
    (List.range w).map g = (List.range w).map h ∨ LexBefore ((List.range w).map g) ((List.range w).map h) := by
  by_cases e : ∀ m < w, g m = h m
  · left
    exact List.map_congr_left (fun m hm => e m (List.mem_range.mp hm))
  · right
    push Not at e
    have ex : ∃ m, m < w ∧ g m ≠ h m := e
    classical
    let m := Nat.find ex
    obtain ⟨hm, hne⟩ := Nat.find_spec ex
    have hmin : ∀ m' < m, g m' = h m' := by
      intro m' hm'
      by_contra hc'
      exact Nat.find_min ex hm' ⟨by omega, hc'⟩
    have hle : g m < h m := lt_of_le_of_ne (hc m hm hmin) hne
    refine ⟨m, g m, h m, ?_, ?_, hle, ?_⟩
    · rw [List.getElem?_map, List.getElem?_range hm]; rfl
    · rw [List.getElem?_map, List.getElem?_range hm]; rfl
    · intro l' hl'
      rw [List.getElem?_map, List.getElem?_map, List.getElem?_range (by omega)]
      simp [hmin l' hl']

instance (a b : List Int) : Decidable (LexBefore a b) :=
  decidable_of_iff (∃ l < a.length, (match a[l]?, b[l]? with
      | some x, some y => decide (x < y)
      | _, _ => false) = true ∧ ∀ l' < l, a[l']? = b[l']?) (by
    constructor
    · rintro ⟨l, hl, h1, h2⟩
      cases ha : a[l]? with
      | none => rw [ha] at h1; simp at h1
      | some x =>
        cases hb : b[l]? with
        | none => rw [ha, hb] at h1; simp at h1
        | some y => rw [ha, hb] at h1; exact ⟨l, x, y, ha, hb, by simpa using h1, h2⟩
    · rintro ⟨l, x, y, ha, hb, h1, h2⟩
      refine ⟨l, (List.getElem?_eq_some_iff.mp ha).1, ?_, h2⟩
      rw [ha, hb]; simpa using h1)

end Pluto
