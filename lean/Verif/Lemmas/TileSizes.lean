import Verif.Spec.TileSizes
import Mathlib.Data.List.GetD

/-! Lemmas on reading tile sizes. -/

namespace Pluto

theorem putAt_some {a : List Int} {i : Nat} (v : Int) (h : i < a.length) : putAt a i v = some (a.set i v) := if_pos h

theorem putAt_eq {a a' : List Int} {i : Nat} {v : Int} (h : putAt a i v = some a') : i < a.length ∧ a' = a.set i v := by
  unfold putAt at h
  by_cases hc : i < a.length
  · rw [if_pos hc] at h; cases h; exact ⟨hc, rfl⟩
  · rw [if_neg hc] at h; cases h

theorem getD_set_self {a : List Int} {i : Nat} (v d : Int) (h : i < a.length) : (a.set i v).getD i d = v := by
  simp [List.getD_eq_getElem?_getD, h]

theorem getD_set_ne {a : List Int} {i j : Nat} (v d : Int) (h : i ≠ j) : (a.set i v).getD j d = a.getD j d := by
  simp [List.getD_eq_getElem?_getD, List.getElem?_set_ne h]

theorem scan_nil (be : Bool) (e : Bool) : scanInt be ⟨[], e⟩ = (none, ⟨[], true⟩) := rfl
theorem scan_cons (be : Bool) (e : Bool) (v : Int) (r : List (Option Int)) :
    scanInt be ⟨some v :: r, e⟩ = (some v, ⟨r, r.isEmpty && !be⟩) := rfl

/-- The loop for the first level on a stream of numbers that suffice for the loops. -/
theorem readSizes_spec {be : Bool} {isLoop : Nat → Option Bool} {lp : Nat → Bool} : ∀ (n i : Nat) (ns : List Int) (e : Bool) (sizes : List Int),
    (∀ k, i ≤ k → k < i + n → isLoop k = some (lp k)) → i + n ≤ sizes.length → (e = true → ns = [] ∧ be = false) →
    (List.range' i n).countP lp ≤ ns.length →
    ∃ i' e' sizes', readSizes be isLoop n i ⟨ns.map some, e⟩ sizes = some (i', ⟨(ns.drop ((List.range' i n).countP lp)).map some, e'⟩, sizes') ∧
      sizes'.length = sizes.length ∧ i' ≤ i + n ∧
      (∀ k, i ≤ k → k < i + n → lp k = true → sizes'.getD k 0 = ns.getD ((List.range' i (k - i)).countP lp) 0) ∧
      (∀ k, k < i ∨ i + n ≤ k → sizes'.getD k 0 = sizes.getD k 0) ∧
      (i' < i + n → e' = true) ∧ (e' = true → ns.length = (List.range' i n).countP lp ∧ be = false) ∧
      ((ns = [] → be = false → e = true) → be = false → ns.length = (List.range' i n).countP lp → e' = true) := by
  intro n
  induction n with
  | zero =>
    intro i ns e sizes _ _ he _
    refine ⟨i, e, sizes, by simp [readSizes], rfl, by omega, fun k _ _ => by omega, fun _ _ => rfl, by omega, ?_, ?_⟩
    · intro h
      obtain ⟨rfl, h2⟩ := he h
      exact ⟨rfl, h2⟩
    · intro h h1 h2
      exact h (List.eq_nil_of_length_eq_zero (by simpa using h2)) h1
  | succ n ih =>
    intro i ns e sizes hl hlen he hc
    rw [List.range'_succ, List.countP_cons] at hc
    by_cases hE : e = true
    · obtain ⟨rfl, h2⟩ := he hE
      subst hE
      have h0 : (List.range' i (n + 1)).countP lp = 0 := by
        rw [List.range'_succ, List.countP_cons]
        exact Nat.le_zero.mp hc
      refine ⟨i, true, sizes, by simp [readSizes], rfl, by omega, ?_, fun _ _ => rfl, fun _ => rfl, fun _ => ⟨by rw [h0]; rfl, h2⟩,
        fun _ _ _ => rfl⟩
      intro k hk1 hk2 hk3
      rw [List.countP_eq_zero] at h0
      exact absurd hk3 (h0 k (by rw [List.mem_range'_1]; omega))
    · have hE' : e = false := by simpa using hE
      subst hE'
      have hi := hl i (le_refl _) (by omega)
      by_cases hlp : lp i = true
      · rw [if_pos hlp] at hc
        cases ns with
        | nil => simp at hc
        | cons v ns =>
          have hc' : (List.range' (i + 1) n).countP lp ≤ ns.length := by simpa using hc
          obtain ⟨i', e', sizes', g1, g2, g3, g4, g5, g6, g7, g8⟩ := ih (i + 1) ns (ns.isEmpty && !be) (sizes.set i v)
            (fun k h1 h2 => hl k (by omega) (by omega)) (by rw [List.length_set]; omega) (by
              intro h
              rw [Bool.and_eq_true, List.isEmpty_iff] at h
              exact ⟨h.1, by simpa using h.2⟩) hc'
          have hcnt : (List.range' i (n + 1)).countP lp = (List.range' (i + 1) n).countP lp + 1 := by
            rw [List.range'_succ, List.countP_cons, if_pos hlp]
          refine ⟨i', e', sizes', ?_, by rw [g2, List.length_set], by omega, ?_, ?_, fun h => g6 (by omega), ?_, ?_⟩
          · have hE2 : (ns.map some).isEmpty = ns.isEmpty := by cases ns <;> rfl
            rw [hcnt, List.drop_succ_cons, ← g1]
            simp only [readSizes, hi, hlp, List.map_cons, scan_cons, hE2, Option.bind_eq_bind, Option.bind_some, Option.getD_some,
              putAt_some v (show i < sizes.length by omega)]
            rfl
          · intro k h1 h2 h3
            rcases Nat.eq_or_lt_of_le h1 with rfl | h1
            · rw [g5 i (Or.inl (by omega)), getD_set_self v 0 (by omega)]
              simp
            · rw [g4 k (by omega) (by omega) h3]
              obtain ⟨m, rfl⟩ : ∃ m, k = i + 1 + m := ⟨k - i - 1, by omega⟩
              have a1 : i + 1 + m - i = m + 1 := by omega
              have a2 : i + 1 + m - (i + 1) = m := by omega
              rw [a1, a2, List.range'_succ, List.countP_cons, if_pos hlp, List.getD_cons_succ]
          · intro k h
            rw [g5 k (by omega), getD_set_ne v 0 (by omega)]
          · intro h
            obtain ⟨q1, q2⟩ := g7 h
            rw [hcnt]
            exact ⟨by simp [q1], q2⟩
          · intro _ hbe hcl
            rw [hcnt, List.length_cons] at hcl
            exact g8 (by rintro rfl h; rw [h]; rfl) hbe (by omega)
      · rw [if_neg hlp] at hc
        obtain ⟨i', e', sizes', g1, g2, g3, g4, g5, g6, g7, g8⟩ := ih (i + 1) ns false (sizes.set i 42)
          (fun k h1 h2 => hl k (by omega) (by omega)) (by rw [List.length_set]; omega) (by simp) (by simpa using hc)
        have hcnt : (List.range' i (n + 1)).countP lp = (List.range' (i + 1) n).countP lp := by
          rw [List.range'_succ, List.countP_cons, if_neg hlp]; rfl
        have hlp' : lp i = false := by simpa using hlp
        refine ⟨i', e', sizes', ?_, by rw [g2, List.length_set], by omega, ?_, ?_, fun h => g6 (by omega), ?_, ?_⟩
        · rw [hcnt, ← g1]
          simp only [readSizes, hi, hlp', Option.bind_eq_bind, Option.bind_some, putAt_some 42 (show i < sizes.length by omega)]
          rfl
        · intro k h1 h2 h3
          rcases Nat.eq_or_lt_of_le h1 with rfl | h1
          · exact absurd h3 hlp
          · rw [g4 k (by omega) (by omega) h3]
            obtain ⟨m, rfl⟩ : ∃ m, k = i + 1 + m := ⟨k - i - 1, by omega⟩
            have a1 : i + 1 + m - i = m + 1 := by omega
            have a2 : i + 1 + m - (i + 1) = m := by omega
            rw [a1, a2, List.range'_succ, List.countP_cons, if_neg hlp]; rfl
        · intro k h
          rw [g5 k (by omega), getD_set_ne 42 0 (by omega)]
        · rw [hcnt]; exact g7
        · rw [hcnt]; exact g8

/-- The loop for the second level, if the numbers suffice. -/
theorem readRatios_enough {be : Bool} : ∀ (n i : Nat) (ns : List Int) (ratios : List Int), i + n ≤ ratios.length → n ≤ ns.length →
    ∃ (s : Bool → SizeStream) (ratios' : List Int), (∀ e, (e = true → ns = []) → readRatios be n i ⟨ns.map some, e⟩ ratios = some (i + n, s e, ratios')) ∧
      ratios'.length = ratios.length ∧ (∀ k, i ≤ k → k < i + n → ratios'.getD k 0 = ns.getD (k - i) 0) ∧
      ∀ k, k < i ∨ i + n ≤ k → ratios'.getD k 0 = ratios.getD k 0 := by
  intro n
  induction n with
  | zero =>
    intro i ns ratios _ _
    exact ⟨fun e => ⟨ns.map some, e⟩, ratios, fun e _ => by simp [readRatios], rfl, fun k _ _ => by omega, fun _ _ => rfl⟩
  | succ n ih =>
    intro i ns ratios hlen hn
    cases ns with
    | nil => simp at hn
    | cons v ns =>
      obtain ⟨s, r', g1, g2, g3, g4⟩ := ih (i + 1) ns (ratios.set i v) (by rw [List.length_set]; omega) (by simpa using hn)
      refine ⟨fun _ => s (ns.isEmpty && !be), r', ?_, by rw [g2, List.length_set], ?_, ?_⟩
      · intro e he
        have : e = false := by
          cases e with
          | false => rfl
          | true => exact absurd (he rfl) (by simp)
        subst this
        have hE2 : (ns.map some).isEmpty = ns.isEmpty := by cases ns <;> rfl
        have := g1 (ns.isEmpty && !be) (by
          intro h
          rw [Bool.and_eq_true, List.isEmpty_iff] at h
          exact h.1)
        rw [show i + (n + 1) = i + 1 + n by omega, ← this]
        simp only [readRatios, List.map_cons, scan_cons, hE2, Option.bind_eq_bind, Option.bind_some, Option.getD_some,
          putAt_some v (show i < ratios.length by omega)]
        rfl
      · intro k h1 h2
        rcases Nat.eq_or_lt_of_le h1 with rfl | h1
        · rw [g4 i (Or.inl (by omega)), getD_set_self v 0 (by omega)]
          simp
        · rw [g3 k (by omega) (by omega)]
          obtain ⟨m, rfl⟩ : ∃ m, k = i + 1 + m := ⟨k - i - 1, by omega⟩
          have a1 : i + 1 + m - i = m + 1 := by omega
          have a2 : i + 1 + m - (i + 1) = m := by omega
          rw [a1, a2, List.getD_cons_succ]
      · intro k h
        rw [g4 k (by omega), getD_set_ne v 0 (by omega)]

theorem readRatios_defined {be : Bool} : ∀ (n i : Nat) (s : SizeStream) (ratios : List Int), i + n ≤ ratios.length →
    ∃ i' s' ratios', readRatios be n i s ratios = some (i', s', ratios') ∧ ratios'.length = ratios.length := by
  intro n
  induction n with
  | zero => intro i s ratios _; exact ⟨i, s, ratios, rfl, rfl⟩
  | succ n ih =>
    intro i s ratios hlen
    by_cases hE : s.eof = true
    · exact ⟨i, s, ratios, by rw [readRatios, if_pos hE], rfl⟩
    · obtain ⟨i', s', z', g1, g2⟩ := ih (i + 1) (scanInt be s).2 (ratios.set i ((scanInt be s).1.getD (ratios.getD i 0)))
        (by rw [List.length_set]; omega)
      refine ⟨i', s', z', ?_, by rw [g2, List.length_set]⟩
      rw [readRatios, if_neg hE, ← g1]
      simp only [Option.bind_eq_bind, putAt_some _ (show i < ratios.length by omega)]
      rfl

/-- The loop for the second level stops early if there are too few numbers: one too few if the file does not end with a
blank, two too few otherwise. -/
theorem readRatios_short {be : Bool} : ∀ (n i : Nat) (ns : List Int) (e : Bool) (ratios : List Int), i + n ≤ ratios.length →
    (e = true → ns = []) → (ns = [] → be = false → e = true) → ns.length + (if be then 1 else 0) < n →
    ∃ i' s ratios', readRatios be n i ⟨ns.map some, e⟩ ratios = some (i', s, ratios') ∧ i' < i + n ∧ ratios'.length = ratios.length ∧
      ∀ k, k < i ∨ i + n ≤ k → ratios'.getD k 0 = ratios.getD k 0 := by
  intro n
  induction n with
  | zero => intro i ns e ratios _ _ _ h; omega
  | succ n ih =>
    intro i ns e ratios hlen he he2 hn
    by_cases hE : e = true
    · subst hE
      exact ⟨i, _, ratios, by simp only [readRatios]; rfl, by omega, rfl, fun _ _ => rfl⟩
    · have hE' : e = false := by simpa using hE
      subst hE'
      cases ns with
      | nil =>
        have hbe : be = true := by
          by_contra h
          exact absurd (he2 rfl (by simpa using h)) (by simp)
        subst hbe
        have hn' : 0 < n := by simpa using hn
        obtain ⟨n, rfl⟩ : ∃ m, n = m + 1 := ⟨n - 1, by omega⟩
        refine ⟨i + 1, ⟨[], true⟩, ratios.set i (ratios.getD i 0), ?_, by omega, by rw [List.length_set], ?_⟩
        · simp only [readRatios, List.map_nil, scan_nil, Option.bind_eq_bind, Option.bind_some, Option.getD_none,
            putAt_some _ (show i < ratios.length by omega)]
          rfl
        · intro k h
          rw [getD_set_ne _ 0 (by omega)]
      | cons v ns =>
        obtain ⟨i', s, r', g1, g2, g3, g4⟩ := ih (i + 1) ns (ns.isEmpty && !be) (ratios.set i v) (by rw [List.length_set]; omega) (by
          intro h
          rw [Bool.and_eq_true, List.isEmpty_iff] at h
          exact h.1) (by rintro rfl rfl; rfl) (by simp only [List.length_cons] at hn; omega)
        refine ⟨i', s, r', ?_, by omega, by rw [g3, List.length_set], ?_⟩
        · have hE2 : (ns.map some).isEmpty = ns.isEmpty := by cases ns <;> rfl
          rw [← g1]
          simp only [readRatios, List.map_cons, scan_cons, hE2, Option.bind_eq_bind, Option.bind_some, Option.getD_some,
            putAt_some v (show i < ratios.length by omega)]
          rfl
        · intro k h
          rw [g4 k (by omega), getD_set_ne v 0 (by omega)]

end Pluto
