import Verif.Lemmas.Remap
import Verif.Lemmas.Rank

namespace Pluto

/-! ### Elimination -/

/-- All rows vanish at `v`. -/
def Vanish (rows : List (List Int)) (v : List Int) : Prop := ∀ r ∈ rows, dot r v = 0

theorem clcm_quot {a b : Int} (ha : a ≠ 0) (hb : b ≠ 0) :
    a * (clcm a b).tdiv a = clcm a b ∧ b * (clcm a b).tdiv b = clcm a b ∧ (clcm a b).tdiv a ≠ 0 ∧ clcm a b ≠ 0 := by
  have hn := C01_lcm_natAbs a b
  have hd1 : a ∣ clcm a b := by
    rw [← Int.natAbs_dvd_natAbs, hn]; exact Nat.dvd_lcm_left _ _
  have hd2 : b ∣ clcm a b := by
    rw [← Int.natAbs_dvd_natAbs, hn]; exact Nat.dvd_lcm_right _ _
  have hne : clcm a b ≠ 0 := by
    intro h0
    rw [h0] at hn
    have : Int.lcm a b ≠ 0 := Nat.lcm_ne_zero (by omega) (by omega)
    simp at hn; omega
  have h1 := Int.mul_tdiv_cancel' hd1
  have h2 := Int.mul_tdiv_cancel' hd2
  refine ⟨h1, h2, ?_, hne⟩
  intro h0
  rw [h0] at h1; simp at h1; exact hne h1.symm

theorem remapElim_length (s i : Nat) (piv row : List Int) : (remapElim s i piv row).length = row.length := by
  unfold remapElim; split <;> simp

theorem coef_mapIdx (f : Nat → Int → Int) (row : List Int) (j : Nat) (h : j < row.length) :
    coef (row.mapIdx f) j = f j (coef row j) := by
  simp [coef, List.getD_eq_getElem?_getD, h]

/-- Effect of the elimination step when everything left of the start column is zero. -/
theorem remapElim_spec (s i : Nat) (piv row : List Int) (hp : coef piv i ≠ 0) (hl : piv.length = row.length)
    (hi : i < row.length) (hz : ∀ j < s, coef piv j = 0 ∧ coef row j = 0) :
    ∃ f g : Int, f ≠ 0 ∧ (∀ j, coef (remapElim s i piv row) j = f * coef row j - g * coef piv j) ∧
      coef (remapElim s i piv row) i = 0 ∧
      (∀ v : List Int, dot (remapElim s i piv row) v = f * dot row v - g * dot piv v) := by
  unfold remapElim
  by_cases h0 : coef row i = 0
  · rw [if_pos h0]
    exact ⟨1, 0, by norm_num, fun j => by ring, h0, fun v => by ring⟩
  · rw [if_neg h0]
    obtain ⟨h1, h2, h3, h4⟩ := clcm_quot h0 hp
    simp only
    set l := clcm (coef row i) (coef piv i)
    have hc : ∀ j, coef (row.mapIdx (fun j a => if j < s then a else
        a * l.tdiv (coef row i) - coef piv j * l.tdiv (coef piv i))) j =
        l.tdiv (coef row i) * coef row j - l.tdiv (coef piv i) * coef piv j := by
      intro j
      by_cases hj : j < row.length
      · rw [coef_mapIdx _ _ _ hj]
        by_cases hs : j < s
        · rw [if_pos hs, (hz j hs).1, (hz j hs).2]; ring
        · rw [if_neg hs]; ring
      · rw [coef_ge _ _ (by simp; omega), coef_ge row j (by omega), coef_ge piv j (by omega)]; ring
    refine ⟨l.tdiv (coef row i), l.tdiv (coef piv i), h3, hc, ?_, fun v => ?_⟩
    · rw [hc]; linarith [mul_comm (coef row i) (l.tdiv (coef row i)), mul_comm (coef piv i) (l.tdiv (coef piv i))]
    · rw [dot_eq_sum _ v row.length (by simp), dot_eq_sum row v row.length rfl, dot_eq_sum piv v row.length hl,
        Finset.mul_sum, Finset.mul_sum, ← Finset.sum_sub_distrib]
      apply Finset.sum_congr rfl
      intro j _
      rw [hc]
      push_cast
      ring

/-- Replacing rows by combinations with a pivot row that is kept does not change where all rows vanish. -/
theorem vanish_mapIdx (rows : List (List Int)) (F : Nat → List Int → List Int) (p : Nat) (hp : p < rows.length)
    (hpk : F p rows[p] = rows[p])
    (hF : ∀ k (hk : k < rows.length), ∃ f g : Int, f ≠ 0 ∧
      ∀ v : List Int, dot (F k rows[k]) v = f * dot rows[k] v - g * dot rows[p] v) (v : List Int) :
    Vanish (rows.mapIdx F) v ↔ Vanish rows v := by
  constructor
  · intro h
    have hpv : dot rows[p] v = 0 := by
      rw [← hpk]
      exact h _ (List.mem_mapIdx.mpr ⟨p, hp, rfl⟩)
    intro r hr
    obtain ⟨k, hk, rfl⟩ := List.mem_iff_getElem.mp hr
    obtain ⟨f, g, hf, hd⟩ := hF k hk
    have := h _ (List.mem_mapIdx.mpr ⟨k, hk, rfl⟩)
    rw [hd, hpv] at this
    have h2 : f * dot rows[k] v = 0 := by linarith
    exact (mul_eq_zero.mp h2).resolve_left hf
  · intro h r hr
    obtain ⟨k, hk, rfl⟩ := List.mem_mapIdx.mp hr
    obtain ⟨f, g, hf, hd⟩ := hF k hk
    rw [hd, h _ (List.getElem_mem hk), h _ (List.getElem_mem hp)]; ring

/-- Echelon form reached after the first `i` columns. -/
structure Ech (w n i : Nat) (rows : List (List Int)) : Prop where
  len : rows.length = n
  wid : ∀ r ∈ rows, r.length = w
  diag : ∀ j < i, coef ((rows[j]?).getD []) j ≠ 0
  low : ∀ j < i, ∀ k, j < k → coef ((rows[k]?).getD []) j = 0

theorem swapAt_perm_mem {rows : List (List Int)} {i j : Nat} (hi : i < rows.length) (hj : j < rows.length) (r : List Int) :
    r ∈ swapAt rows i j ↔ r ∈ rows := by
  simp only [List.mem_iff_getElem?]
  constructor
  · rintro ⟨k, hk⟩
    rw [swapAt_getElem? _ _ _ hi hj] at hk
    split_ifs at hk
    · exact ⟨_, hk⟩
    · exact ⟨_, hk⟩
    · exact ⟨_, hk⟩
  · rintro ⟨k, hk⟩
    by_cases c1 : k = i
    · refine ⟨j, ?_⟩
      rw [swapAt_getElem? _ _ _ hi hj]
      subst c1
      by_cases c2 : j = k <;> simp_all
    · by_cases c2 : k = j
      · refine ⟨i, ?_⟩
        rw [swapAt_getElem? _ _ _ hi hj]
        subst c2
        simp_all
      · refine ⟨k, ?_⟩
        rw [swapAt_getElem? _ _ _ hi hj]
        simp_all

theorem getD_of_lt {rows : List (List Int)} {k : Nat} (h : k < rows.length) : (rows[k]?).getD [] = rows[k] := by
  simp [h]

theorem remapPivot_some {w n i : Nat} {rows rows' : List (List Int)} (hE : Ech w n i rows) (hi : i < n)
    (h : remapPivot rows i = some rows') :
    Ech w n i rows' ∧ coef ((rows'[i]?).getD []) i ≠ 0 ∧ ∀ v : List Int, Vanish rows' v ↔ Vanish rows v := by
  unfold remapPivot at h
  have hi' : i < rows.length := by rw [hE.len]; exact hi
  rw [List.getElem?_eq_getElem hi'] at h
  simp only [Option.bind_eq_bind, Option.bind_some] at h
  by_cases c : coef rows[i] i ≠ 0
  · rw [if_pos c] at h
    cases h
    refine ⟨hE, ?_, fun v => Iff.rfl⟩
    rw [getD_of_lt hi']; exact c
  · rw [if_neg c] at h
    simp only [Option.bind_eq_some_iff] at h
    obtain ⟨k, hk, h⟩ := h
    obtain rfl := Option.some.inj h
    rw [List.findIdx?_eq_some_iff_getElem] at hk
    obtain ⟨hk1, hk2, -⟩ := hk
    simp only [List.length_drop] at hk1
    have hkl : i + 1 + k < rows.length := by omega
    simp only [List.getElem_drop, decide_eq_true_eq] at hk2
    have hmem := fun r => swapAt_perm_mem hi' hkl r
    have hg := fun m => swapAt_getElem? rows i (i + 1 + k) hi' hkl m
    refine ⟨⟨by rw [swapAt_length]; exact hE.len, fun r hr => hE.wid r ((hmem r).mp hr), ?_, ?_⟩, ?_, ?_⟩
    · intro j hj
      rw [hg j, if_neg (by omega), if_neg (by omega)]
      exact hE.diag j hj
    · intro j hj m hm
      rw [hg m]
      split_ifs
      · exact hE.low j hj i hj
      · exact hE.low j hj _ (by omega)
      · exact hE.low j hj m hm
    · rw [hg i, if_neg (by omega), if_pos rfl, getD_of_lt hkl]
      exact hk2
    · intro v
      exact ⟨fun h r hr => h r ((hmem r).mpr hr), fun h r hr => h r ((hmem r).mp hr)⟩

theorem remapPivot_none {rows : List (List Int)} {i : Nat} (hi : i < rows.length) (h : remapPivot rows i = none) :
    ∀ k, i ≤ k → coef ((rows[k]?).getD []) i = 0 := by
  unfold remapPivot at h
  rw [List.getElem?_eq_getElem hi] at h
  simp only [Option.bind_eq_bind, Option.bind_some] at h
  by_cases c : coef rows[i] i ≠ 0
  · rw [if_pos c] at h; cases h
  · rw [if_neg c] at h
    have h2 : (rows.drop (i + 1)).findIdx? (fun r => decide (coef r i ≠ 0)) = none := by
      cases hf : (rows.drop (i + 1)).findIdx? (fun r => decide (coef r i ≠ 0)) with
      | none => rfl
      | some k => rw [hf] at h; simp at h
    rw [List.findIdx?_eq_none_iff] at h2
    intro k hk
    by_cases hkl : k < rows.length
    · rw [getD_of_lt hkl]
      by_cases e : k = i
      · subst e; exact not_not.mp c
      · have := h2 rows[k] (by
          rw [List.mem_drop_iff_getElem]
          exact ⟨k - (i + 1), by omega, by congr 1; omega⟩)
        simpa using this
    · simp [hkl, coef]

theorem remapForwardStep_some {w n i : Nat} {rows rows' : List (List Int)} (hE : Ech w n i rows) (hi : i < n)
    (hw : i < w) (h : remapForwardStep rows i = some rows') :
    Ech w n (i + 1) rows' ∧ ∀ v : List Int, Vanish rows' v ↔ Vanish rows v := by
  unfold remapForwardStep at h
  simp only [Option.bind_eq_bind, Option.bind_eq_some_iff] at h
  obtain ⟨r1, h1, piv, h2, h3⟩ := h
  obtain rfl := Option.some.inj h3
  obtain ⟨hE1, hd, hv⟩ := remapPivot_some hE hi h1
  have hi' : i < r1.length := by rw [hE1.len]; exact hi
  rw [List.getElem?_eq_getElem hi'] at h2
  have hpiv : r1[i] = piv := Option.some.inj h2
  rw [getD_of_lt hi', hpiv] at hd
  have hlow : ∀ k (hk : k < r1.length), i ≤ k → ∀ j < i, coef r1[k] j = 0 := by
    intro k hk hik j hj
    have := hE1.low j hj k (by omega)
    rwa [getD_of_lt hk] at this
  have hsp : ∀ k (hk : k < r1.length), i < k → _ := fun k hk hik =>
    remapElim_spec i i piv r1[k] hd (by rw [← hpiv, hE1.wid _ (List.getElem_mem hi'), hE1.wid _ (List.getElem_mem hk)])
      (by rw [hE1.wid _ (List.getElem_mem hk)]; exact hw)
      (fun j hj => ⟨by rw [← hpiv]; exact hlow i hi' (le_refl _) j hj, hlow k hk (by omega) j hj⟩)
  have hg : ∀ k (hk : k < r1.length), ((r1.mapIdx (fun k row => if k ≤ i then row else remapElim i i piv row))[k]?).getD [] =
      if k ≤ i then r1[k] else remapElim i i piv r1[k] := by
    intro k hk
    simp [hk]
  refine ⟨⟨by simp [hE1.len], ?_, ?_, ?_⟩, ?_⟩
  · intro r hr
    obtain ⟨k, hk, rfl⟩ := List.mem_mapIdx.mp hr
    split_ifs
    · exact hE1.wid _ (List.getElem_mem hk)
    · rw [remapElim_length]; exact hE1.wid _ (List.getElem_mem hk)
  · intro j hj
    have hj' : j < r1.length := by omega
    rw [hg j hj', if_pos (by omega)]
    by_cases e : j = i
    · subst e; rw [hpiv]; exact hd
    · have := hE1.diag j (by omega)
      rwa [getD_of_lt hj'] at this
  · intro j hj k hk
    by_cases hkl : k < r1.length
    · rw [hg k hkl]
      by_cases c : k ≤ i
      · rw [if_pos c]
        have := hE1.low j (by omega) k hk
        rwa [getD_of_lt hkl] at this
      · rw [if_neg c]
        obtain ⟨f, g, -, hc, hz, -⟩ := hsp k hkl (by omega)
        by_cases e : j = i
        · subst e; exact hz
        · rw [hc, hlow k hkl (by omega) j (by omega), ← hpiv, hlow i hi' (le_refl _) j (by omega)]; ring
    · simp [hkl, coef]
  · intro v
    rw [← hv v]
    apply vanish_mapIdx r1 _ i hi'
    · rw [if_pos (le_refl _)]
    · intro k hk
      by_cases c : k ≤ i
      · exact ⟨1, 0, by norm_num, fun v => by rw [if_pos c]; ring⟩
      · obtain ⟨f, g, hf, -, -, hd⟩ := hsp k hk (by omega)
        exact ⟨f, g, hf, fun v => by rw [if_neg c, hd v, hpiv]⟩

theorem remapForwardStep_none {rows : List (List Int)} {i w n : Nat} (hE : Ech w n i rows) (hi : i < n)
    (h : remapForwardStep rows i = none) :
    ∀ k, i ≤ k → coef ((rows[k]?).getD []) i = 0 := by
  apply remapPivot_none (by rw [hE.len]; exact hi)
  cases h1 : remapPivot rows i with
  | none => rfl
  | some r1 =>
    obtain ⟨hE1, -, -⟩ := remapPivot_some hE hi h1
    unfold remapForwardStep at h
    rw [h1] at h
    have hi' : i < r1.length := by rw [hE1.len]; exact hi
    simp [List.getElem?_eq_getElem hi'] at h

/-- Forward elimination: either echelon form with non-zero diagonal, or a column without a pivot. -/
theorem remapForward_spec {w n : Nat} {rows : List (List Int)} (hl : rows.length = n)
    (hw : ∀ r ∈ rows, r.length = w) (dim : Nat) (hd : dim ≤ n) (hdw : dim ≤ w) :
    (∃ rows', remapForward dim rows = some rows' ∧ Ech w n dim rows' ∧
      ∀ v : List Int, Vanish rows' v ↔ Vanish rows v) ∨
    (remapForward dim rows = none ∧ ∃ i < dim, ∃ rows', Ech w n i rows' ∧
      (∀ v : List Int, Vanish rows' v ↔ Vanish rows v) ∧ ∀ k, i ≤ k → coef ((rows'[k]?).getD []) i = 0) := by
  induction dim with
  | zero =>
    left
    exact ⟨rows, rfl, ⟨hl, hw, fun j hj => by omega, fun j hj => by omega⟩, fun v => Iff.rfl⟩
  | succ i ih =>
    have e : remapForward (i + 1) rows = (remapForward i rows).bind (fun r => remapForwardStep r i) := by
      unfold remapForward
      rw [List.range_succ, List.foldlM_append]
      simp
    rcases ih (by omega) (by omega) with ⟨r1, h1, hE, hv⟩ | ⟨h1, j, hj, r1, hE, hv, hz⟩
    · rw [e, h1, Option.bind_some]
      cases hs : remapForwardStep r1 i with
      | some r2 =>
        left
        obtain ⟨hE2, hv2⟩ := remapForwardStep_some hE (by omega) (by omega) hs
        exact ⟨r2, rfl, hE2, fun v => (hv2 v).trans (hv v)⟩
      | none =>
        right
        exact ⟨rfl, i, by omega, r1, hE, hv, remapForwardStep_none hE (by omega) hs⟩
    · right
      rw [e, h1]
      exact ⟨rfl, j, by omega, r1, hE, hv, hz⟩

/-- Reduced form after backward elimination of the columns from `i` on. -/
structure Red (w n dim i : Nat) (rows : List (List Int)) : Prop extends Ech w n dim rows where
  up : ∀ j, i ≤ j → j < dim → ∀ k, k < j → coef ((rows[k]?).getD []) j = 0

theorem remapBackwardStep_spec {w n dim i : Nat} {rows : List (List Int)} (hR : Red w n dim (i + 1) rows)
    (hi : i < dim) (hd : dim ≤ n) (hw : dim ≤ w) :
    Red w n dim i (remapBackwardStep rows i) ∧ ∀ v : List Int, Vanish (remapBackwardStep rows i) v ↔ Vanish rows v := by
  have hi' : i < rows.length := by rw [hR.len]; omega
  unfold remapBackwardStep
  simp only
  have hpd : coef rows[i] i ≠ 0 := by
    have := hR.diag i hi
    rwa [getD_of_lt hi'] at this
  rw [getD_of_lt hi']
  have hsp : ∀ k (hk : k < rows.length), _ := fun k hk =>
    remapElim_spec 0 i rows[i] rows[k] hpd (by rw [hR.wid _ (List.getElem_mem hi'), hR.wid _ (List.getElem_mem hk)])
      (by rw [hR.wid _ (List.getElem_mem hk)]; omega) (fun j hj => by omega)
  have hlow : ∀ j < dim, ∀ k (hk : k < rows.length), j < k → coef rows[k] j = 0 := by
    intro j hj k hk hjk
    have := hR.low j hj k hjk
    rwa [getD_of_lt hk] at this
  have hup : ∀ j, i + 1 ≤ j → j < dim → ∀ k (hk : k < rows.length), k < j → coef rows[k] j = 0 := by
    intro j h1 h2 k hk hkj
    have := hR.up j h1 h2 k hkj
    rwa [getD_of_lt hk] at this
  have hg : ∀ k (hk : k < rows.length),
      ((rows.mapIdx (fun k row => if k < i then remapElim 0 i rows[i] row else row))[k]?).getD [] =
      if k < i then remapElim 0 i rows[i] rows[k] else rows[k] := by
    intro k hk
    simp [hk]
  refine ⟨⟨⟨by simp [hR.len], ?_, ?_, ?_⟩, ?_⟩, ?_⟩
  · intro r hr
    obtain ⟨k, hk, rfl⟩ := List.mem_mapIdx.mp hr
    split_ifs
    · rw [remapElim_length]; exact hR.wid _ (List.getElem_mem hk)
    · exact hR.wid _ (List.getElem_mem hk)
  · intro j hj
    have hj' : j < rows.length := by rw [hR.len]; omega
    have hdj := hR.diag j hj
    rw [getD_of_lt hj'] at hdj
    rw [hg j hj']
    by_cases c : j < i
    · rw [if_pos c]
      obtain ⟨f, g, hf, hc, -, -⟩ := hsp j hj'
      rw [hc, hlow j hj i hi' c]
      simpa using ⟨hf, hdj⟩
    · rw [if_neg c]; exact hdj
  · intro j hj k hk
    by_cases hkl : k < rows.length
    · rw [hg k hkl]
      by_cases c : k < i
      · rw [if_pos c]
        obtain ⟨f, g, hf, hc, -, -⟩ := hsp k hkl
        rw [hc, hlow j hj i hi' (by omega), hlow j hj k hkl hk]; ring
      · rw [if_neg c]; exact hlow j hj k hkl hk
    · simp [hkl, coef]
  · intro j hij hj k hkj
    have hkl : k < rows.length := by rw [hR.len]; omega
    rw [hg k hkl]
    by_cases c : k < i
    · rw [if_pos c]
      obtain ⟨f, g, hf, hc, hz, -⟩ := hsp k hkl
      by_cases e : j = i
      · subst e; exact hz
      · rw [hc, hup j (by omega) hj k hkl hkj, hup j (by omega) hj i hi' (by omega)]; ring
    · rw [if_neg c]
      exact hup j (by omega) hj k hkl hkj
  · intro v
    apply vanish_mapIdx rows _ i hi'
    · rw [if_neg (by omega)]
    · intro k hk
      by_cases c : k < i
      · obtain ⟨f, g, hf, -, -, hd⟩ := hsp k hk
        exact ⟨f, g, hf, fun v => by rw [if_pos c, hd v]⟩
      · exact ⟨1, 0, by norm_num, fun v => by rw [if_neg c]; ring⟩

theorem remapBackward_spec {w n dim : Nat} {rows : List (List Int)} (hE : Ech w n dim rows) (hd : dim ≤ n)
    (hw : dim ≤ w) :
    Red w n dim 0 (remapBackward dim rows) ∧ ∀ v : List Int, Vanish (remapBackward dim rows) v ↔ Vanish rows v := by
  have key : ∀ i ≤ dim, ∀ rs, Red w n dim i rs →
      Red w n dim 0 ((List.range i).reverse.foldl remapBackwardStep rs) ∧
      ∀ v : List Int, Vanish ((List.range i).reverse.foldl remapBackwardStep rs) v ↔ Vanish rs v := by
    intro i
    induction i with
    | zero => intro _ rs h; exact ⟨h, fun v => Iff.rfl⟩
    | succ i ih =>
      intro hi rs h
      rw [List.range_succ, List.reverse_append]
      simp only [List.reverse_cons, List.reverse_nil, List.nil_append, List.singleton_append, List.foldl_cons]
      obtain ⟨h1, h2⟩ := remapBackwardStep_spec h (by omega) hd hw
      obtain ⟨h3, h4⟩ := ih (by omega) _ h1
      exact ⟨h3, fun v => (h4 v).trans (h2 v)⟩
  exact key dim (le_refl _) rows ⟨hE, fun j h1 h2 => by omega⟩

/-- Fewer rows than columns: a non-zero integer vector on which all rows vanish. -/
theorem exists_kernel (rows : List (List Int)) (w : Nat) (h : rows.length < w) (hw : ∀ r ∈ rows, r.length = w) :
    ∃ v : List Int, v.length = w ∧ (∃ a ∈ v, a ≠ 0) ∧ Vanish rows v := by
  let M : Matrix (Fin w) (Fin w) ℤ := fun i j => coef ((rows[i.1]?).getD []) j.1
  have hdet : M.det = 0 := by
    apply Matrix.det_eq_zero_of_row_eq_zero ⟨rows.length, h⟩
    intro j
    simp [M, coef]
  obtain ⟨v, hv, hM⟩ := Matrix.exists_mulVec_eq_zero_iff.mpr hdet
  refine ⟨List.ofFn v, by simp, ?_, ?_⟩
  · obtain ⟨i, hi⟩ := Function.ne_iff.mp hv
    exact ⟨v i, by simp, hi⟩
  · intro r hr
    obtain ⟨k, hk, rfl⟩ := List.mem_iff_getElem.mp hr
    have := congrFun hM ⟨k, by omega⟩
    rw [dot_eq_sum _ _ w (hw _ hr)]
    simp only [Matrix.mulVec, dotProduct, M, Pi.zero_apply, getD_of_lt hk] at this
    rw [← this, Finset.sum_range]
    apply Finset.sum_congr rfl
    intro j _
    simp [List.getD_eq_getElem?_getD]

end Pluto
