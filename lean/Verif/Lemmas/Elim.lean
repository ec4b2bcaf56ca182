import Verif.Lemmas.Simplify
import Mathlib.Data.List.TakeWhile
import Mathlib.Tactic.FieldSimp
import Mathlib.Tactic.LinearCombination

/-! Helper lemmas for Fourier-Motzkin and Gaussian elimination. -/

namespace Pluto

theorem clcm_of_pos {a b : Int} (ha : 0 < a) (hb : 0 < b) : clcm a b = (Int.lcm a b : Int) := by
  have h1 := C01_lcm_natAbs a b
  have h2 := C01_lcm_sign a b
  rw [Int.sign_eq_one_of_pos (Int.mul_pos ha hb)] at h2
  have h3 : 0 < clcm a b := by
    by_contra h
    rcases Int.lt_or_eq_of_le (not_lt.mp h) with h | h
    · rw [Int.sign_eq_neg_one_of_neg h] at h2; omega
    · rw [h] at h2; simp at h2
  omega

/-- Multipliers: for positive `a`, `b` the two quotients `lcm/a`, `lcm/b` are positive and
`(lcm/a)*a = (lcm/b)*b`. -/
theorem lcm_mults {a b : Int} (ha : 0 < a) (hb : 0 < b) :
    0 < (clcm a b).tdiv a ∧ 0 < (clcm a b).tdiv b ∧
      (clcm a b).tdiv a * a = clcm a b ∧ (clcm a b).tdiv b * b = clcm a b ∧ 0 < clcm a b ∧
      clcm b a = clcm a b := by
  have e : clcm a b = (Int.lcm a b : Int) := clcm_of_pos ha hb
  have e' : clcm b a = (Int.lcm b a : Int) := clcm_of_pos hb ha
  have hp : 0 < clcm a b := by
    rw [e]
    have : 0 < Int.lcm a b := Int.lcm_pos (by omega) (by omega)
    omega
  have d1 : a ∣ clcm a b := by rw [e]; exact Int.dvd_lcm_left ..
  have d2 : b ∣ clcm a b := by rw [e]; exact Int.dvd_lcm_right ..
  have m1 := Int.tdiv_mul_cancel d1
  have m2 := Int.tdiv_mul_cancel d2
  refine ⟨?_, ?_, m1, m2, hp, ?_⟩
  · by_contra h
    have := Int.mul_nonpos_of_nonpos_of_nonneg (not_lt.mp h) ha.le
    omega
  · by_contra h
    have := Int.mul_nonpos_of_nonpos_of_nonneg (not_lt.mp h) hb.le
    omega
  · rw [e', e, Int.lcm_comm]

theorem eraseIdx_zipWith (f : Int → Int → Int) (a b : List Int) (i : Nat)
    (h : a.length = b.length) :
    (List.zipWith f a b).eraseIdx i = List.zipWith f (a.eraseIdx i) (b.eraseIdx i) := by
  induction i generalizing a b with
  | zero => cases a <;> cases b <;> simp_all
  | succ n ih => cases a with
    | nil => simp
    | cons p ps => cases b with
      | nil => simp at h
      | cons q qs => simp at h; simp [ih ps qs h]

theorem length_eraseIdx_of {a : List Int} {n pos : Nat} (h : a.length = n + 2) (hp : pos ≤ n) :
    (a.eraseIdx pos).length = n + 1 := by
  rw [List.length_eraseIdx]; split <;> omega

variable {R : Type*} [CommRing R] [LinearOrder R] [IsStrictOrderedRing R]

omit [LinearOrder R] [IsStrictOrderedRing R] in
theorem fmCombine_aff {u l : List Int} {pos : Nat} {x : List R}
    (hu : u.length = x.length + 2) (hl : l.length = x.length + 2)
    (hu0 : coef u pos < 0) (hl0 : 0 < coef l pos) :
    ∃ m1 m2 : Int, 0 < m1 ∧ 0 < m2 ∧ m1 * (-(coef u pos)) = m2 * coef l pos ∧
      aff (fmCombine pos u l) x =
        (m1 : R) * aff (u.eraseIdx pos) x + (m2 : R) * aff (l.eraseIdx pos) x := by
  have hu' : 0 < -(coef u pos) := by omega
  obtain ⟨h1, h2, h3, h4, h5, h6⟩ := lcm_mults hl0 hu'
  refine ⟨(clcm (coef l pos) (-(coef u pos))).tdiv (-(coef u pos)),
    (clcm (-(coef u pos)) (coef l pos)).tdiv (coef l pos), h2, ?_, ?_, ?_⟩
  · rw [h6]; exact h1
  · rw [h4, h6, h3]
  · unfold fmCombine aff
    rw [eraseIdx_zipWith _ _ _ _ (by rw [hu, hl])]
    rw [dot_zipWith_lin]
    rw [List.length_eraseIdx, List.length_eraseIdx, hu, hl]

theorem fmCombine_length {u l : List Int} {pos n : Nat} (hu : u.length = n + 2)
    (hl : l.length = n + 2) (hp : pos ≤ n) : (fmCombine pos u l).length = n + 1 := by
  unfold fmCombine
  exact length_eraseIdx_of (by simp [hu, hl]) hp

theorem removeDim_wf (c : Cst) (pos : Nat) (h : c.WF) (hp : pos + 1 < c.ncols) :
    (removeDim c pos).WF := by
  refine ⟨by simp [removeDim]; omega, ?_⟩
  intro q hq
  obtain ⟨r, hr, rfl⟩ := List.mem_map.mp hq
  have := h.2 r hr
  simp only [removeDim]
  rw [List.length_eraseIdx, if_pos (by omega)]; omega

theorem fmRows_length (k : Bool) (c : Cst) (pos : Nat) (h : c.WF) (hp : pos + 1 < c.ncols) :
    ∀ r ∈ fmRows k pos c.rows, r.val.length = c.ncols - 1 := by
  obtain ⟨n, hn⟩ : ∃ n, c.ncols = n + 2 := ⟨c.ncols - 2, by omega⟩
  intro q hq
  unfold fmRows at hq
  obtain ⟨u, hu, hq⟩ := List.mem_flatMap.mp hq
  have hul : u.val.length = n + 2 := by rw [h.2 u hu, hn]
  split at hq
  · obtain ⟨l, hl, rfl⟩ := List.mem_map.mp hq
    have hll : l.val.length = n + 2 := by rw [h.2 l (List.mem_of_mem_filter hl), hn]
    simp only [fmCombine_length hul hll (by omega : pos ≤ n)]; omega
  · split at hq
    · simp at hq; subst hq
      simp only [length_eraseIdx_of hul (by omega : pos ≤ n)]; omega
    · simp at hq

/-- The hypothesis under which the elimination loop is applied: rows with a non-zero coefficient at
`pos` are inequalities. -/
def IneqAt (pos : Nat) (rows : List Row) : Prop := ∀ r ∈ rows, coef r.val pos ≠ 0 → r.eq = false

/-- A row evaluated at a point with coordinate `pos` set to `v`. -/
theorem Row.sat_insert (r : Row) (x : List R) (pos : Nat) (v : R)
    (h : r.val.length = x.length + 2) (hp : pos ≤ x.length) :
    r.Sat (x.insertIdx pos v) ↔
      if r.eq then ((coef r.val pos : Int) : R) * v + aff (r.val.eraseIdx pos) x = 0
      else 0 ≤ ((coef r.val pos : Int) : R) * v + aff (r.val.eraseIdx pos) x := by
  unfold Row.Sat coef
  rw [aff_insertIdx _ _ _ _ h hp]

/-- Soundness of the elimination loop over any ordered ring. -/
theorem fmRows_sound (k : Bool) (rows : List Row) (pos : Nat) (x : List R) (v : R)
    (hl : ∀ r ∈ rows, r.val.length = x.length + 2) (hp : pos ≤ x.length)
    (hi : IneqAt pos rows) (hk : k = true ∨ ∀ r ∈ rows, r.eq = false)
    (hs : ∀ r ∈ rows, r.Sat (x.insertIdx pos v)) :
    ∀ r ∈ fmRows k pos rows, r.Sat x := by
  intro q hq
  unfold fmRows at hq
  obtain ⟨u, hu, hq⟩ := List.mem_flatMap.mp hq
  have su := (Row.sat_insert u x pos v (hl u hu) hp).mp (hs u hu)
  split at hq
  · rename_i hneg
    obtain ⟨l, hlm, rfl⟩ := List.mem_map.mp hq
    obtain ⟨hlr, hpos⟩ := List.mem_filter.mp hlm
    simp only [decide_eq_true_eq] at hpos
    have sl := (Row.sat_insert l x pos v (hl l hlr) hp).mp (hs l hlr)
    rw [hi u hu (by omega)] at su
    rw [hi l hlr (by omega)] at sl
    simp only [Bool.false_eq_true, if_false] at su sl
    obtain ⟨m1, m2, h1, h2, h3, h4⟩ := fmCombine_aff (x := x) (hl u hu) (hl l hlr) hneg hpos
    simp only [Row.Sat, Bool.false_eq_true, if_false, h4]
    have h1R : (0 : R) ≤ m1 := by exact_mod_cast h1.le
    have h2R : (0 : R) ≤ m2 := by exact_mod_cast h2.le
    have h3R : (m1 : R) * (-(coef u.val pos : R)) = m2 * (coef l.val pos : R) := by exact_mod_cast h3
    have e1 := mul_nonneg h1R su
    have e2 := mul_nonneg h2R sl
    have : (m1 : R) * ((coef u.val pos : R) * v) + m2 * ((coef l.val pos : R) * v) = 0 := by
      have : (m1 : R) * ((coef u.val pos : R) * v) = -(m2 * (coef l.val pos : R)) * v := by
        rw [← h3R]; ring
      rw [this]; ring
    nlinarith
  · split at hq
    · rename_i hz
      simp at hq; subst hq
      simp only [hz, Int.cast_zero, zero_mul, zero_add] at su
      unfold Row.Sat
      rcases hk with hk | hk
      · subst hk; simpa using su
      · have := hk u hu
        simp only [this] at su ⊢
        simpa using su
    · simp at hq

theorem exists_between {K : Type*} [LinearOrder K] [Nonempty K] (L U : List K)
    (h : ∀ l ∈ L, ∀ u ∈ U, l ≤ u) : ∃ v, (∀ l ∈ L, l ≤ v) ∧ ∀ u ∈ U, v ≤ u := by
  induction L with
  | nil =>
    induction U with
    | nil => exact ⟨Classical.arbitrary K, by simp, by simp⟩
    | cons a U ih =>
      obtain ⟨v, -, h2⟩ := ih (by simp)
      refine ⟨min v a, by simp, ?_⟩
      intro u hu
      rcases List.mem_cons.mp hu with rfl | hu
      · exact min_le_right _ _
      · exact (min_le_left _ _).trans (h2 u hu)
  | cons a L ih =>
    obtain ⟨v, h1, h2⟩ := ih (fun l hl => h l (by simp [hl]))
    refine ⟨max v a, ?_, ?_⟩
    · intro l hl
      rcases List.mem_cons.mp hl with rfl | hl
      · exact le_max_right _ _
      · exact (h1 l hl).trans (le_max_left _ _)
    · intro u hu
      exact max_le (h2 u hu) (h a (by simp) u hu)

/-- Completeness of the elimination loop over an ordered field: a value for the eliminated
variable exists. -/
theorem fmRows_complete {K : Type*} [Field K] [LinearOrder K] [IsStrictOrderedRing K]
    (k : Bool) (rows : List Row) (pos : Nat) (x : List K)
    (hl : ∀ r ∈ rows, r.val.length = x.length + 2) (hp : pos ≤ x.length)
    (hi : IneqAt pos rows) (hk : k = true ∨ ∀ r ∈ rows, r.eq = false)
    (hs : ∀ r ∈ fmRows k pos rows, r.Sat x) :
    ∃ v : K, ∀ r ∈ rows, r.Sat (x.insertIdx pos v) := by
  let L := (rows.filter (fun l => decide (0 < coef l.val pos))).map
    (fun l => -(aff (l.val.eraseIdx pos) x) / (coef l.val pos : K))
  let U := (rows.filter (fun l => decide (coef l.val pos < 0))).map
    (fun l => aff (l.val.eraseIdx pos) x / (-(coef l.val pos : K)))
  have hLU : ∀ l ∈ L, ∀ u ∈ U, l ≤ u := by
    intro a ha b hb
    obtain ⟨l, hlm, rfl⟩ := List.mem_map.mp ha
    obtain ⟨u, hum, rfl⟩ := List.mem_map.mp hb
    obtain ⟨hlr, hpos⟩ := List.mem_filter.mp hlm
    obtain ⟨hur, hneg⟩ := List.mem_filter.mp hum
    simp only [decide_eq_true_eq] at hpos hneg
    have hq := hs ⟨false, fmCombine pos u.val l.val⟩ (by
      unfold fmRows
      refine List.mem_flatMap.mpr ⟨u, hur, ?_⟩
      rw [if_pos hneg]
      exact List.mem_map.mpr ⟨l, hlm, rfl⟩)
    obtain ⟨m1, m2, h1, h2, h3, h4⟩ := fmCombine_aff (x := x) (hl u hur) (hl l hlr) hneg hpos
    simp only [Row.Sat, Bool.false_eq_true, if_false, h4] at hq
    have h1R : (0 : K) < m1 := by exact_mod_cast h1
    have h2R : (0 : K) < m2 := by exact_mod_cast h2
    have h3R : (m1 : K) * (-(coef u.val pos : K)) = m2 * (coef l.val pos : K) := by exact_mod_cast h3
    have hnR : (0 : K) < -(coef u.val pos : K) := by
      have : (coef u.val pos : K) < 0 := by exact_mod_cast hneg
      linarith
    have hpR : (0 : K) < (coef l.val pos : K) := by exact_mod_cast hpos
    rw [div_le_div_iff₀ hpR hnR]
    have : (m1 : K) * (-(aff (l.val.eraseIdx pos) x) * -(coef u.val pos : K)) ≤
        m1 * (aff (u.val.eraseIdx pos) x * (coef l.val pos : K)) := by
      have e : (m1 : K) * (-(aff (l.val.eraseIdx pos) x) * -(coef u.val pos : K)) =
          -(m2 * aff (l.val.eraseIdx pos) x) * (coef l.val pos : K) := by
        calc _ = -(aff (l.val.eraseIdx pos) x) * (m1 * -(coef u.val pos : K)) := by ring
          _ = _ := by rw [h3R]; ring
      rw [e]
      have : -(m2 * aff (l.val.eraseIdx pos) x) ≤ m1 * aff (u.val.eraseIdx pos) x := by linarith
      calc _ ≤ (m1 * aff (u.val.eraseIdx pos) x) * (coef l.val pos : K) :=
            mul_le_mul_of_nonneg_right this hpR.le
        _ = _ := by ring
    exact le_of_mul_le_mul_left this h1R
  obtain ⟨v, hv1, hv2⟩ := exists_between L U hLU
  refine ⟨v, ?_⟩
  intro r hr
  rw [Row.sat_insert r x pos v (hl r hr) hp]
  rcases lt_trichotomy (coef r.val pos) 0 with hc | hc | hc
  · rw [hi r hr (by omega)]
    simp only [Bool.false_eq_true, if_false]
    have := hv2 _ (List.mem_map.mpr ⟨r, List.mem_filter.mpr ⟨hr, by simpa using hc⟩, rfl⟩)
    have hnR : (0 : K) < -(coef r.val pos : K) := by
      have : (coef r.val pos : K) < 0 := by exact_mod_cast hc
      linarith
    rw [le_div_iff₀ hnR] at this
    linarith
  · have hq := hs ⟨k && r.eq, r.val.eraseIdx pos⟩ (by
      unfold fmRows
      refine List.mem_flatMap.mpr ⟨r, hr, ?_⟩
      rw [if_neg (by omega), if_pos hc]; simp)
    simp only [hc, Int.cast_zero, zero_mul, zero_add]
    unfold Row.Sat at hq
    rcases hk with hk | hk
    · subst hk; simpa using hq
    · have := hk r hr
      simp only [this] at hq ⊢
      simpa using hq
  · rw [hi r hr (by omega)]
    simp only [Bool.false_eq_true, if_false]
    have := hv1 _ (List.mem_map.mpr ⟨r, List.mem_filter.mpr ⟨hr, by simpa using hc⟩, rfl⟩)
    have hpR : (0 : K) < (coef r.val pos : K) := by exact_mod_cast hc
    rw [div_le_iff₀ hpR] at this
    linarith

/-- Dropping a column in which all entries are zero. -/
theorem removeDim_zero_sat (c : Cst) (pos : Nat) (x : List R) (v : R)
    (hl : ∀ r ∈ c.rows, r.val.length = x.length + 2) (hp : pos ≤ x.length)
    (hz : ∀ r ∈ c.rows, coef r.val pos = 0) :
    (removeDim c pos).Sat x ↔ c.Sat (x.insertIdx pos v) := by
  unfold Cst.Sat removeDim
  simp only [List.mem_map, forall_exists_index, and_imp, forall_apply_eq_imp_iff₂]
  refine forall₂_congr fun r hr => ?_
  rw [Row.sat_insert r x pos v (hl r hr) hp, hz r hr]
  simp [Row.Sat]

/-- The first step of `fmEliminate`. -/
def pureOf (c : Cst) : Cst := if c.rows.any (·.eq) then toPureIneq c else c

/-- The second step of `fmEliminate`. -/
def fmCore (c1 : Cst) (pos : Nat) : Cst :=
  if c1.rows.all (fun r => decide (coef r.val pos = 0)) then removeDim c1 pos
    else ⟨c1.ncols - 1, fmRows false pos c1.rows⟩

theorem fmEliminate_eq (c : Cst) (pos : Nat) :
    fmEliminate c pos = simplify (fmCore (pureOf c) pos) := rfl

theorem pureOf_wf (c : Cst) (h : c.WF) : (pureOf c).WF := by
  unfold pureOf; split
  · exact toPureIneq_wf c h
  · exact h

theorem pureOf_ncols (c : Cst) : (pureOf c).ncols = c.ncols := by
  unfold pureOf; split <;> rfl

theorem pureOf_pure (c : Cst) : ∀ r ∈ (pureOf c).rows, r.eq = false := by
  intro r hr
  unfold pureOf at hr
  split at hr
  · exact toPureIneq_pure c r hr
  · rename_i hh
    simp only [List.any_eq_true, not_exists, not_and, Bool.not_eq_true] at hh
    exact hh r hr

theorem pureOf_sat (c : Cst) (h : c.WF) (y : List R) : (pureOf c).Sat y ↔ c.Sat y := by
  unfold pureOf; split
  · exact toPureIneq_sat c h y
  · rfl

/-- WF of the elimination result. -/
theorem fmEliminate_wf (c : Cst) (pos : Nat) (h : c.WF) (hp : pos + 1 < c.ncols) :
    (fmEliminate c pos).WF := by
  rw [fmEliminate_eq]
  apply simplify_wf
  have h1 := pureOf_wf c h
  have hn := pureOf_ncols c
  unfold fmCore
  split
  · exact removeDim_wf _ _ h1 (by rw [hn]; exact hp)
  · refine ⟨by simp only [hn]; omega, ?_⟩
    exact fmRows_length _ _ _ h1 (by rw [hn]; exact hp)

theorem fmEliminate_ncols (c : Cst) (pos : Nat) : (fmEliminate c pos).ncols = c.ncols - 1 := by
  rw [fmEliminate_eq, simplify_ncols]
  have hn := pureOf_ncols c
  unfold fmCore
  split
  · simp only [removeDim, hn]
  · simp only [hn]

theorem fmEliminate_sound (c : Cst) (pos : Nat) (x : List R) (v : R) (h : c.WF)
    (hx : x.length + 2 = c.ncols) (hp : pos ≤ x.length) (hs : c.Sat (x.insertIdx pos v)) :
    (fmEliminate c pos).Sat x := by
  rw [fmEliminate_eq, simplify_sat]
  have hpure := pureOf_pure c
  have hsat := (pureOf_sat c h (x.insertIdx pos v)).mpr hs
  have hwf := pureOf_wf c h
  have hl : ∀ r ∈ (pureOf c).rows, r.val.length = x.length + 2 :=
    fun r hr => by rw [hwf.2 r hr, pureOf_ncols, hx]
  unfold fmCore
  split
  · rename_i hz
    exact (removeDim_zero_sat _ pos x v hl hp (by simpa using hz)).mpr hsat
  · exact fmRows_sound false _ pos x v hl hp (fun r hr _ => hpure r hr) (Or.inr hpure) hsat

theorem fmEliminate_complete {K : Type*} [Field K] [LinearOrder K] [IsStrictOrderedRing K]
    (c : Cst) (pos : Nat) (x : List K) (h : c.WF)
    (hx : x.length + 2 = c.ncols) (hp : pos ≤ x.length) (hs : (fmEliminate c pos).Sat x) :
    ∃ v : K, c.Sat (x.insertIdx pos v) := by
  rw [fmEliminate_eq, simplify_sat] at hs
  have hpure := pureOf_pure c
  have hsat := fun v : K => (pureOf_sat c h (x.insertIdx pos v))
  have hwf := pureOf_wf c h
  have hl : ∀ r ∈ (pureOf c).rows, r.val.length = x.length + 2 :=
    fun r hr => by rw [hwf.2 r hr, pureOf_ncols, hx]
  unfold fmCore at hs
  split at hs
  · rename_i hz
    exact ⟨0, (hsat 0).mp ((removeDim_zero_sat _ pos x 0 hl hp (by simpa using hz)).mp hs)⟩
  · obtain ⟨v, hv⟩ := fmRows_complete false _ pos x hl hp (fun r hr _ => hpure r hr)
      (Or.inr hpure) hs
    exact ⟨v, (hsat v).mp hv⟩

/-! ### Gaussian elimination -/

/-- Multipliers of one Gaussian row operation. -/
theorem gauss_mults {p q : Int} (hp : p ≠ 0) (hq : q ≠ 0) :
    ∃ f1 f2 : Int, 0 < f1 ∧ f1 * q = f2 * p ∧
      (if 1 ≤ q then (clcm (llabs p) (llabs q)).tdiv q else (-(clcm (llabs p) (llabs q))).tdiv q) = f1 ∧
      (if 1 ≤ q then (clcm (llabs p) (llabs q)).tdiv p else (-(clcm (llabs p) (llabs q))).tdiv p) = f2 := by
  have hp' : 0 < llabs p := by unfold llabs; split <;> omega
  have hq' : 0 < llabs q := by unfold llabs; split <;> omega
  obtain ⟨h1, h2, h3, h4, h5, h6⟩ := lcm_mults hp' hq'
  have dq : q ∣ clcm (llabs p) (llabs q) := by
    have : llabs q ∣ clcm (llabs p) (llabs q) := ⟨_, by rw [mul_comm]; exact h4.symm⟩
    rw [llabs_natAbs q] at this ⊢
    exact (Int.natAbs_dvd.mp this)
  have dp : p ∣ clcm (llabs p) (llabs q) := by
    have : llabs p ∣ clcm (llabs p) (llabs q) := ⟨_, by rw [mul_comm]; exact h3.symm⟩
    rw [llabs_natAbs p] at this ⊢
    exact (Int.natAbs_dvd.mp this)
  generalize clcm (llabs p) (llabs q) = L at *
  by_cases h : 1 ≤ q
  · rw [if_pos h, if_pos h]
    refine ⟨_, _, ?_, ?_, rfl, rfl⟩
    · have := Int.tdiv_mul_cancel dq
      by_contra hn
      have := Int.mul_nonpos_of_nonpos_of_nonneg (not_lt.mp hn) (by omega : 0 ≤ q)
      omega
    · rw [Int.tdiv_mul_cancel dq, Int.tdiv_mul_cancel dp]
  · rw [if_neg h, if_neg h]
    have dq' : q ∣ -L := (dvd_neg).mpr dq
    have dp' : p ∣ -L := (dvd_neg).mpr dp
    refine ⟨_, _, ?_, ?_, rfl, rfl⟩
    · have := Int.tdiv_mul_cancel dq'
      by_contra hn
      have := Int.mul_nonneg_of_nonpos_of_nonpos (not_lt.mp hn) (by omega : q ≤ 0)
      omega
    · rw [Int.tdiv_mul_cancel dq', Int.tdiv_mul_cancel dp']

theorem gaussRow_spec (pos : Nat) (piv r : List Int) (hlen : r.length = piv.length)
    (hp : coef piv pos ≠ 0) :
    ∃ f1 f2 : Int, 0 < f1 ∧ f1 * coef r pos = f2 * coef piv pos ∧
      (gaussRow pos piv r).length = r.length ∧
      ∀ x : List R, aff (gaussRow pos piv r) x = (f1 : R) * aff r x - (f2 : R) * aff piv x := by
  unfold gaussRow
  by_cases hq : coef r pos = 0
  · simp only [hq, if_true]
    exact ⟨1, 0, by omega, by simp, trivial, fun x => by simp⟩
  · simp only [hq, if_false]
    obtain ⟨f1, f2, h1, h2, h3, h4⟩ := gauss_mults hp hq
    rw [h3, h4]
    refine ⟨f1, f2, h1, h2, by simp [hlen], ?_⟩
    intro x
    have := dot_zipWith_lin f1 (-f2) r piv (x ++ [(1 : R)]) hlen
    unfold aff
    simp only [mul_neg, Int.cast_neg, neg_mul, ← sub_eq_add_neg] at this
    exact this

theorem coef_of_aff {r : List Int} {pos n : Nat} (h : r.length = n + 2) (hp : pos ≤ n) :
    ∀ v : Int, aff r ((List.replicate n (0 : Int)).insertIdx pos v) -
      aff r ((List.replicate n (0 : Int)).insertIdx pos 0) = coef r pos * v := by
  intro v
  rw [aff_insertIdx _ _ _ _ (by simp [h]) (by simpa using hp),
    aff_insertIdx _ _ _ _ (by simp [h]) (by simpa using hp)]
  unfold coef; simp

theorem gaussRow_coef (pos : Nat) (piv r : List Int) (hlen : r.length = piv.length)
    (hp : coef piv pos ≠ 0) (n : Nat) (hn : r.length = n + 2) (hpos : pos ≤ n) :
    coef (gaussRow pos piv r) pos = 0 := by
  obtain ⟨f1, f2, h1, h2, h3, h4⟩ := gaussRow_spec (R := Int) pos piv r hlen hp
  have e := coef_of_aff (r := gaussRow pos piv r) (n := n) (pos := pos) (by rw [h3, hn]) hpos 1
  rw [h4, h4] at e
  have e1 := coef_of_aff (r := r) (n := n) (pos := pos) hn hpos 1
  have e2 := coef_of_aff (r := piv) (n := n) (pos := pos) (by rw [← hlen, hn]) hpos 1
  simp only [mul_one] at e e1 e2
  rw [← e]
  simp only [Int.cast_id]
  linear_combination f1 * e1 - f2 * e2 + h2

/-- Solutions after Gaussian elimination, given the pivot equation holds. -/
theorem gaussRow_sat (pos : Nat) (piv : List Int) (r : Row) (hlen : r.val.length = piv.length)
    (hp : coef piv pos ≠ 0) (y : List R) (hy : aff piv y = 0) :
    Row.Sat { r with val := gaussRow pos piv r.val } y ↔ r.Sat y := by
  obtain ⟨f1, f2, h1, h2, h3, h4⟩ := gaussRow_spec (R := R) pos piv r.val hlen hp
  have h1R : (0 : R) < f1 := by exact_mod_cast h1
  unfold Row.Sat
  simp only [h4, hy, mul_zero, sub_zero]
  split
  · constructor
    · intro h; exact (mul_eq_zero.mp h).resolve_left h1R.ne'
    · intro h; rw [h, mul_zero]
  · constructor
    · intro h; exact nonneg_of_mul_nonneg_right h h1R
    · intro h; exact mul_nonneg h1R.le h

theorem gaussEliminate_spec (c : Cst) (pos : Nat) (c' : Cst) (hg : gaussEliminate c pos = some c') :
    ∃ pre piv post, c.rows = pre ++ piv :: post ∧ piv.eq = true ∧ coef piv.val pos ≠ 0 ∧
      c' = removeDim ⟨c.ncols, (pre ++ post).map
        (fun r => { r with val := gaussRow pos piv.val r.val })⟩ pos := by
  unfold gaussEliminate at hg
  simp only at hg
  split at hg
  · cases hg
  · rename_i piv post hd
    refine ⟨c.rows.takeWhile (fun r => !isPivot pos r), piv, post, ?_, ?_⟩
    · rw [← hd]; exact (List.takeWhile_append_dropWhile).symm
    · have hne : c.rows.dropWhile (fun r => !isPivot pos r) ≠ [] := by rw [hd]; simp
      have := List.head_dropWhile_not (fun r => !isPivot pos r) hne
      have e : (c.rows.dropWhile (fun r => !isPivot pos r)).head hne = piv := by
        simp only [hd, List.head_cons]
      rw [e] at this
      simp [isPivot] at this
      refine ⟨this.1, this.2, ?_⟩
      simp only [Option.some.injEq] at hg
      exact hg.symm

theorem gaussEliminate_none (c : Cst) (pos : Nat) (hg : gaussEliminate c pos = none) :
    IneqAt pos c.rows := by
  unfold gaussEliminate at hg
  simp only at hg
  split at hg
  · rename_i hd
    intro r hr hne
    have := List.dropWhile_eq_nil_iff.mp hd r hr
    simp [isPivot] at this
    by_contra he
    simp at he
    simp [he] at this
    exact hne this
  · cases hg

theorem gaussEliminate_wf (c : Cst) (pos : Nat) (c' : Cst) (h : c.WF) (hp : pos + 1 < c.ncols)
    (hg : gaussEliminate c pos = some c') : c'.WF ∧ c'.ncols = c.ncols - 1 := by
  obtain ⟨pre, piv, post, hr, he, hc, rfl⟩ := gaussEliminate_spec c pos c' hg
  refine ⟨removeDim_wf _ _ ⟨h.1, ?_⟩ hp, rfl⟩
  intro q hq
  obtain ⟨r, hr', rfl⟩ := List.mem_map.mp hq
  have hpivl : piv.val.length = c.ncols := h.2 piv (by rw [hr]; simp)
  have hrl : r.val.length = c.ncols := h.2 r (by
    rw [hr]; rcases List.mem_append.mp hr' with h | h
    · simp [h]
    · simp [h])
  obtain ⟨f1, f2, h1, h2, h3, h4⟩ := gaussRow_spec (R := Int) pos piv.val r.val (by omega) hc
  simp only [h3, hrl]

theorem gaussEliminate_iff (c : Cst) (pos : Nat) (c' : Cst) (x : List R) (v : R) (h : c.WF)
    (hx : x.length + 2 = c.ncols) (hp : pos ≤ x.length) (hg : gaussEliminate c pos = some c') :
    ∃ piv ∈ c.rows, piv.eq = true ∧ coef piv.val pos ≠ 0 ∧
      (aff piv.val (x.insertIdx pos v) = 0 → (c'.Sat x ↔ c.Sat (x.insertIdx pos v))) := by
  obtain ⟨pre, piv, post, hr, he, hc, rfl⟩ := gaussEliminate_spec c pos c' hg
  have hpivl : piv.val.length = c.ncols := h.2 piv (by rw [hr]; simp)
  have hrl : ∀ r ∈ pre ++ post, r.val.length = c.ncols := fun r hr' => h.2 r (by
    rw [hr]; rcases List.mem_append.mp hr' with h | h
    · simp [h]
    · simp [h])
  refine ⟨piv, by rw [hr]; simp, he, hc, fun h0 => ?_⟩
  rw [removeDim_zero_sat _ pos x v _ hp]
  · unfold Cst.Sat
    simp only [List.mem_map, forall_exists_index, and_imp, forall_apply_eq_imp_iff₂]
    constructor
    · intro hs r hr'
      rw [hr] at hr'
      have : r = piv ∨ r ∈ pre ++ post := by
        simp at hr' ⊢; tauto
      rcases this with rfl | hm
      · unfold Row.Sat; rw [he]; simpa using h0
      · exact (gaussRow_sat pos piv.val r (by rw [hrl r hm, hpivl]) hc _ h0).mp (hs r hm)
    · intro hs r hm
      refine (gaussRow_sat pos piv.val r (by rw [hrl r hm, hpivl]) hc _ h0).mpr (hs r ?_)
      rw [hr]; simp at hm ⊢; tauto
  · intro q hq
    obtain ⟨r, hm, rfl⟩ := List.mem_map.mp hq
    exact gaussRow_coef pos piv.val r.val (by rw [hrl r hm, hpivl]) hc x.length
      (by rw [hrl r hm]; omega) hp
  · intro q hq
    obtain ⟨r, hm, rfl⟩ := List.mem_map.mp hq
    obtain ⟨f1, f2, h1, h2, h3, h4⟩ := gaussRow_spec (R := R) pos piv.val r.val
      (by rw [hrl r hm, hpivl]) hc
    simp only [h3, hrl r hm]; omega

theorem gaussEliminate_sound (c : Cst) (pos : Nat) (c' : Cst) (x : List R) (v : R) (h : c.WF)
    (hx : x.length + 2 = c.ncols) (hp : pos ≤ x.length) (hg : gaussEliminate c pos = some c')
    (hs : c.Sat (x.insertIdx pos v)) : c'.Sat x := by
  obtain ⟨piv, hm, he, hc, hh⟩ := gaussEliminate_iff c pos c' x v h hx hp hg
  refine (hh ?_).mpr hs
  have := hs piv hm
  simpa [Row.Sat, he] using this

theorem gaussEliminate_complete {K : Type*} [Field K] [LinearOrder K] [IsStrictOrderedRing K]
    (c : Cst) (pos : Nat) (c' : Cst) (x : List K) (h : c.WF)
    (hx : x.length + 2 = c.ncols) (hp : pos ≤ x.length) (hg : gaussEliminate c pos = some c')
    (hs : c'.Sat x) : ∃ v : K, c.Sat (x.insertIdx pos v) := by
  obtain ⟨pre, piv, post, hr, he, hc, hc'⟩ := gaussEliminate_spec c pos c' hg
  have hpivl : piv.val.length = x.length + 2 := by rw [hx]; exact h.2 piv (by rw [hr]; simp)
  have hcK : (coef piv.val pos : K) ≠ 0 := by exact_mod_cast hc
  -- choose the pivot of the same occurrence by re-deriving the equivalence
  let v : K := -(aff (piv.val.eraseIdx pos) x) / (coef piv.val pos : K)
  have hv : aff piv.val (x.insertIdx pos v) = 0 := by
    rw [aff_insertIdx _ _ _ _ hpivl hp]
    change (coef piv.val pos : K) * v + _ = 0
    simp only [v]
    field_simp
    ring
  refine ⟨v, ?_⟩
  have hrl : ∀ r ∈ pre ++ post, r.val.length = x.length + 2 := fun r hr' => by
    rw [hx]
    refine h.2 r ?_
    rw [hr]; rcases List.mem_append.mp hr' with h | h
    · simp [h]
    · simp [h]
  rw [hc'] at hs
  rw [removeDim_zero_sat _ pos x v _ hp] at hs
  · intro r hr'
    rw [hr] at hr'
    have : r = piv ∨ r ∈ pre ++ post := by simp at hr' ⊢; tauto
    rcases this with rfl | hm
    · unfold Row.Sat; rw [he]; simpa using hv
    · exact (gaussRow_sat pos piv.val r (by rw [hrl r hm, hpivl]) hc _ hv).mp
        (hs _ (List.mem_map.mpr ⟨r, hm, rfl⟩))
  · intro q hq
    obtain ⟨r, hm, rfl⟩ := List.mem_map.mp hq
    exact gaussRow_coef pos piv.val r.val (by rw [hrl r hm, hpivl]) hc x.length
      (by rw [hrl r hm]) hp
  · intro q hq
    obtain ⟨r, hm, rfl⟩ := List.mem_map.mp hq
    obtain ⟨f1, f2, h1, h2, h3, h4⟩ := gaussRow_spec (R := K) pos piv.val r.val
      (by rw [hrl r hm, hpivl]) hc
    simp only [h3, hrl r hm]

/-! ### fmSmart -/

theorem fmSmart_wf (c : Cst) (pos : Nat) (h : c.WF) (hp : pos + 1 < c.ncols) :
    (fmSmart c pos).WF ∧ (fmSmart c pos).ncols = c.ncols - 1 := by
  unfold fmSmart
  split
  · rename_i c' hg
    obtain ⟨h1, h2⟩ := gaussEliminate_wf c pos c' h hp hg
    exact ⟨simplify_wf _ h1, by rw [simplify_ncols, h2]⟩
  · refine ⟨simplify_wf _ ?_, ?_⟩
    · split
      · exact removeDim_wf _ _ h hp
      · exact ⟨by simp only; omega, fmRows_length _ _ _ h hp⟩
    · rw [simplify_ncols]; split <;> rfl

theorem fmSmart_sound (c : Cst) (pos : Nat) (x : List R) (v : R) (h : c.WF)
    (hx : x.length + 2 = c.ncols) (hp : pos ≤ x.length) (hs : c.Sat (x.insertIdx pos v)) :
    (fmSmart c pos).Sat x := by
  have hl : ∀ r ∈ c.rows, r.val.length = x.length + 2 := fun r hr => by rw [h.2 r hr, hx]
  unfold fmSmart
  split
  · rename_i c' hg
    rw [simplify_sat]
    exact gaussEliminate_sound c pos c' x v h hx hp hg hs
  · rename_i hg
    rw [simplify_sat]
    split
    · rename_i hz
      exact (removeDim_zero_sat c pos x v hl hp (by simpa using hz)).mpr hs
    · exact fmRows_sound true c.rows pos x v hl hp (gaussEliminate_none c pos hg) (Or.inl rfl) hs

theorem fmSmart_complete {K : Type*} [Field K] [LinearOrder K] [IsStrictOrderedRing K]
    (c : Cst) (pos : Nat) (x : List K) (h : c.WF)
    (hx : x.length + 2 = c.ncols) (hp : pos ≤ x.length) (hs : (fmSmart c pos).Sat x) :
    ∃ v : K, c.Sat (x.insertIdx pos v) := by
  have hl : ∀ r ∈ c.rows, r.val.length = x.length + 2 := fun r hr => by rw [h.2 r hr, hx]
  unfold fmSmart at hs
  split at hs
  · rename_i c' hg
    rw [simplify_sat] at hs
    exact gaussEliminate_complete c pos c' x h hx hp hg hs
  · rename_i hg
    rw [simplify_sat] at hs
    split at hs
    · rename_i hz
      exact ⟨0, (removeDim_zero_sat c pos x 0 hl hp (by simpa using hz)).mp hs⟩
    · exact fmRows_complete true c.rows pos x hl hp (gaussEliminate_none c pos hg) (Or.inl rfl) hs

end Pluto
