import Verif.Lemmas.Footprint
import Verif.Lemmas.SatFold
import Mathlib.Tactic.Linarith

/-! C85: tile volumes. -/

namespace Pluto

/-- For an access whose subscripts are one loop each, all different, the coefficient and the degree give the number of elements that
a tile touches. Missing: subscripts with negative coefficients or several loops, a first subscript along the parallel dimension, and
levels with several loops, for which it is false. -/
theorem C85_footprint_partial (c : FootCfg) (loops : List Nat) (m : Mat) (ls : List Nat) (T : Nat) (base : Nat → Int)
    (h : SimpleSubscripts loops m ls) (hn : loops.Nodup) (hl : ∀ l ∈ loops, l < m.ncols)
    (hr : ∀ l ∈ loops, l - c.depth < c.reuse.length) (hp : ∀ l ∈ loops, 0 < tileLen c T l)
    (hs : ∃ l t, ls = l :: t ∧ StartsProduct c l) :
    ∃ g d, footprint c loops m = some (g, d) ∧ (tileElems loops (tileLen c T) base m.rows).ncard = g * T ^ d := by
  obtain ⟨l, t, rfl, hs⟩ := hs
  have hrows := h.rows
  have ind := independentRows_full m h.wf (simple_rank h hl)
  have hbox := tileElems_box loops (tileLen c T) base m.ncols hl hp m.rows (l :: t) h.rows h.wf h.distinct
  have hlen := zipWith_lens (tileLen c T) base m.rows (l :: t) h.rows.length_eq
  have hw := h.wf
  unfold Mat.WF at hw
  rw [hbox, ncard_box, hlen]
  unfold footprint
  rw [ind]
  generalize m.rows = rows at hrows hw
  cases hrows with
  | @cons r _ rs _ h1 h2 =>
    rw [if_neg (by simp)]
    obtain ⟨g1, e1, p1, q1⟩ := footRow_one c loops T r l (0, 0) hn (by rw [hw r (by simp)]; exact hl) h1.1 h1.2.1 h1.2.2 (hr l h1.1)
      (hp l h1.1) (.inr ⟨rfl, hs⟩)
    obtain ⟨g2, e2, p2, q2⟩ := footRows_prod c loops T m.ncols hn hl hp hr rs t h2 (fun r hr => hw r (by simp [hr])) g1 p1
    refine ⟨g2.1, g2.2, ?_, ?_⟩
    · rw [List.foldlM_cons, e1]; exact e2
    · rw [q2, q1, if_pos rfl, List.map_cons, List.prod_cons]; ring

-- `A[i][j]` in a band `i, j, k` with `j` the vector dimension: 512 * 2 T elements.
example : SimpleSubscripts [0, 1, 2] ⟨5, [[1, 0, 0, 0, 0], [0, 1, 0, 1, -1]]⟩ [0, 1] ∧
    footprint ⟨[2, 1, 1], 1, 3, false, 0⟩ [0, 1, 2] ⟨5, [[1, 0, 0, 0, 0], [0, 1, 0, 1, -1]]⟩ = some (1024, 1) ∧
    StartsProduct ⟨[2, 1, 1], 1, 3, false, 0⟩ 0 ∧ (∀ l ∈ [0, 1, 2], 0 < tileLen ⟨[2, 1, 1], 1, 3, false, 0⟩ 7 l) := by
  refine ⟨⟨?_, by decide, by decide⟩, by decide +kernel, by decide, by decide⟩
  exact .cons (by decide) (.cons (by decide) .nil)

theorem evalPoly_add (a b : List Int) (t : Int) : evalPoly (a ++ b) t = evalPoly a t + t ^ a.length * evalPoly b t := by
  unfold evalPoly
  induction a with
  | nil => simp
  | cons x a ih =>
    rw [List.cons_append, List.foldr_cons, List.foldr_cons, ih, List.length_cons]; ring

theorem evalPoly_zero (n : Nat) (t : Int) : evalPoly (List.replicate n 0) t = 0 := by
  unfold evalPoly
  induction n with
  | zero => rfl
  | succ n ih => rw [List.replicate_succ, List.foldr_cons, ih]; ring

theorem evalPoly_set (q : List Int) (d : Nat) (x t : Int) (h : d < q.length) :
    evalPoly (q.set d (q.getD d 0 + x)) t = evalPoly q t + x * t ^ d := by
  unfold evalPoly
  induction q generalizing d with
  | nil => simp at h
  | cons a q ih =>
    cases d with
    | zero => simp; ring
    | succ d =>
      rw [List.set_cons_succ, List.foldr_cons, List.foldr_cons, List.getD_cons_succ, ih d (by simpa using h)]; ring

theorem evalPoly_addCoeff (poly : List Int) (f : Nat × Nat) (t : Int) : evalPoly (addCoeff poly f) t = evalPoly poly t + f.1 * t ^ f.2 := by
  unfold addCoeff
  simp only
  rw [evalPoly_set _ _ _ _ (by rw [List.length_append, List.length_replicate]; omega), evalPoly_add, evalPoly_zero]; ring

theorem evalPoly_fold (fs : List (Nat × Nat)) (poly : List Int) (t : Int) :
    evalPoly (fs.foldl addCoeff poly) t = evalPoly poly t + (fs.map (fun f => (f.1 : Int) * t ^ f.2)).sum := by
  induction fs generalizing poly with
  | nil => simp
  | cons f fs ih => rw [List.foldl_cons, ih, evalPoly_addCoeff, List.map_cons, List.sum_cons]; ring

/-- The polynomial is the sum of the footprints less the size of the cache. -/
theorem C85_volume (c : FootCfg) (loops : List Nat) (ms : List Mat) (cache : Nat) (poly : List Int)
    (h : volumePoly c loops ms cache = some poly) (t : Int) :
    ∃ fs, List.Forall₂ (fun m f => footprint c loops m = some f) (ms.filter (fun m => decide (m.getRank ≠ 0))) fs ∧
      evalPoly poly t = (fs.map (fun f => (f.1 : Int) * t ^ f.2)).sum - cache := by
  unfold volumePoly at h
  obtain ⟨fs, hfs, h⟩ := Option.bind_eq_some_iff.mp h
  refine ⟨fs, mapM_forall₂ _ _ _ hfs, ?_⟩
  have e := evalPoly_fold fs [] t
  cases hq : fs.foldl addCoeff [] with
  | nil => rw [hq] at h; simp at h
  | cons a q =>
    rw [hq] at h e
    simp only [Option.some.injEq, Option.pure_def] at h
    subst h
    unfold evalPoly at e ⊢
    rw [List.foldr_cons] at e ⊢
    simp only [List.foldr_nil] at e
    omega

example : volumePoly ⟨[2, 1, 1], 1, 3, false, 0⟩ [0, 1, 2]
    [⟨5, [[1, 0, 0, 0, 0], [0, 1, 0, 1, -1]]⟩, ⟨5, [[1, 0, 0, 0, 0], [0, 0, 1, 0, 0]]⟩, ⟨5, []⟩] 65536 = some [-65536, 1024, 2] := by decide +kernel

theorem powRoot_spec (n lead k : Nat) (hl : 0 < lead) (hk : 0 < k) :
    lead * powRoot n lead k ^ k ≤ n ∧ n < lead * (powRoot n lead k + 1) ^ k := by
  unfold powRoot
  have h0 : lead * 0 ^ k ≤ n := by rw [Nat.zero_pow hk]; omega
  have h1 := Nat.findGreatest_spec (P := fun r => lead * r ^ k ≤ n) (Nat.zero_le n) h0
  refine ⟨h1, ?_⟩
  by_contra hc
  rw [Nat.not_lt] at hc
  by_cases hle : Nat.findGreatest (fun r => lead * r ^ k ≤ n) n + 1 ≤ n
  · exact Nat.findGreatest_is_greatest (P := fun r => lead * r ^ k ≤ n) (Nat.lt_succ_self _) hle hc
  · have : Nat.findGreatest (fun r => lead * r ^ k ≤ n) n + 1 ≤ (Nat.findGreatest (fun r => lead * r ^ k ≤ n) n + 1) ^ k :=
      Nat.le_self_pow (by omega) _
    have : (Nat.findGreatest (fun r => lead * r ^ k ≤ n) n + 1) ^ k ≤ lead * (Nat.findGreatest (fun r => lead * r ^ k ≤ n) n + 1) ^ k :=
      Nat.le_mul_of_pos_left _ hl
    omega

theorem quadRoot_spec (c b a : Int) (hb : 0 ≤ b) (r : Nat) (h : quadRoot c b a = some r) :
    a * r * r + b * r + c ≤ 0 ∧ 0 < a * (r + 1) * (r + 1) + b * (r + 1) + c := by
  unfold quadRoot at h
  by_cases hd : b * b - 4 * a * c < 0 ∨ a ≤ 0
  · rw [if_pos hd] at h; simp at h
  · rw [if_neg hd] at h
    rw [not_or, Int.not_lt, Int.not_le] at hd
    obtain ⟨hD, ha⟩ := hd
    simp only at h
    generalize hDn : (b * b - 4 * a * c).toNat = D at h
    have hD' : (D : Int) = b * b - 4 * a * c := by omega
    have s1 := Nat.sqrt_le D
    have s2 := Nat.lt_succ_sqrt D
    generalize Nat.sqrt D = s at *
    by_cases hr : ((s : Int) - b) / (2 * a) < 0
    · rw [if_pos hr] at h; simp at h
    · rw [if_neg hr] at h
      simp only [Option.some.injEq] at h
      have hq : ((s : Int) - b) / (2 * a) = r := by omega
      have h2a : 0 < 2 * a := by omega
      have e1 : (r : Int) * (2 * a) ≤ s - b := by rw [← hq]; exact Int.ediv_mul_le _ (by omega)
      have e2 : (s : Int) - b < (r + 1) * (2 * a) := by rw [← hq]; exact Int.lt_ediv_add_one_mul_self _ h2a
      have t1 : (s : Int) * s ≤ D := by exact_mod_cast s1
      have t2 : (D : Int) < (s + 1) * (s + 1) := by exact_mod_cast s2
      have hr0 : (0 : Int) ≤ r := by omega
      constructor
      · have u1 : (2 * a * r + b) * (2 * a * r + b) ≤ s * s := by
          have : 2 * a * r + b ≤ (s : Int) := by linarith
          have p0 : 0 ≤ 2 * a * r + b := by positivity
          exact mul_self_le_mul_self p0 this
        have u2 : 4 * a * (a * r * r + b * r + c) ≤ 0 := by nlinarith
        by_contra hn
        rw [Int.not_le] at hn
        have : 0 < 4 * a * (a * r * r + b * r + c) := by positivity
        omega
      · have u1 : ((s : Int) + 1) * (s + 1) ≤ (2 * a * (r + 1) + b) * (2 * a * (r + 1) + b) := by
          have : (s : Int) + 1 ≤ 2 * a * (r + 1) + b := by linarith
          exact mul_self_le_mul_self (by omega) this
        have u2 : 0 < 4 * a * (a * (r + 1) * (r + 1) + b * (r + 1) + c) := by nlinarith
        exact pos_of_mul_pos_right u2 (by omega)

/-- Up to degree 2 the root is the largest number for which the volume fits: the polynomial is not positive there, and positive at the
next number. -/
theorem C85_root_partial (poly : List Int) (r : Nat) (h : solvePoly poly = some r) (h2 : 2 ≤ poly.length) (h3 : poly.length ≤ 3)
    (hb : poly.length = 3 → 0 ≤ poly.getD 1 0) : evalPoly poly r ≤ 0 ∧ 0 < evalPoly poly (r + 1) := by
  unfold solvePoly at h
  rw [if_neg (by omega)] at h
  by_cases h0 : 0 ≤ poly.getD 0 0
  · rw [if_pos h0] at h; simp at h
  · rw [if_neg h0] at h
    match poly, h2, h3 with
    | [c, b], _, _ =>
      rw [if_neg (by simp)] at h
      simp only [List.length_cons, List.length_nil, List.getD_cons_zero, List.getD_cons_succ, Nat.add_one_sub_one, Nat.zero_add] at h h0
      by_cases hl : b ≤ 0
      · rw [if_pos hl] at h; simp at h
      · rw [if_neg hl] at h
        simp only [Option.some.injEq] at h
        obtain ⟨p1, p2⟩ := powRoot_spec (-c).toNat b.toNat 1 (by omega) (by omega)
        rw [h, pow_one] at p1 p2
        have q1 : (b : Int) * r ≤ -c := by
          have : ((b.toNat * r : Nat) : Int) ≤ ((-c).toNat : Int) := by exact_mod_cast p1
          rw [Nat.cast_mul, Int.toNat_of_nonneg (by omega), Int.toNat_of_nonneg (by omega)] at this
          exact this
        have q2 : -c < (b : Int) * (r + 1) := by
          have : ((-c).toNat : Int) < ((b.toNat * (r + 1) : Nat) : Int) := by exact_mod_cast p2
          rw [Nat.cast_mul, Int.toNat_of_nonneg (by omega), Int.toNat_of_nonneg (by omega)] at this
          exact_mod_cast this
        unfold evalPoly
        simp only [List.foldr_cons, List.foldr_nil]
        constructor <;> linarith
    | [c, b, a], _, _ =>
      rw [if_pos (by simp)] at h
      simp only [List.getD_cons_zero, List.getD_cons_succ] at h h0
      have := quadRoot_spec c b a (hb rfl) r h
      unfold evalPoly
      simp only [List.foldr_cons, List.foldr_nil]
      constructor
      · linarith [this.1]
      · linarith [this.2]

example : solvePoly [-65536, 1024, 2] = some 57 ∧ evalPoly [-65536, 1024, 2] 57 = -670 ∧ evalPoly [-65536, 1024, 2] 58 = 584 := by
  decide +kernel

/-- For higher degrees only the leading term is fitted to the cache. -/
theorem C85_high_partial (poly : List Int) (r : Nat) (h : solvePoly poly = some r) (h4 : 4 ≤ poly.length) :
    poly.getD (poly.length - 1) 0 * (r : Int) ^ (poly.length - 1) ≤ -poly.getD 0 0 ∧
    -poly.getD 0 0 < poly.getD (poly.length - 1) 0 * ((r : Int) + 1) ^ (poly.length - 1) := by
  unfold solvePoly at h
  rw [if_neg (by omega)] at h
  by_cases h0 : 0 ≤ poly.getD 0 0
  · rw [if_pos h0] at h; simp at h
  · rw [if_neg h0, if_neg (by omega)] at h
    by_cases hl : poly.getD (poly.length - 1) 0 ≤ 0
    · rw [if_pos hl] at h; simp at h
    · rw [if_neg hl] at h
      simp only [Option.some.injEq] at h
      generalize poly.getD (poly.length - 1) 0 = a at *
      generalize poly.getD 0 0 = c at *
      obtain ⟨p1, p2⟩ := powRoot_spec (-c).toNat a.toNat (poly.length - 1) (by omega) (by omega)
      rw [h] at p1 p2
      constructor
      · have : ((a.toNat * r ^ (poly.length - 1) : Nat) : Int) ≤ ((-c).toNat : Int) := by exact_mod_cast p1
        rw [Nat.cast_mul, Int.toNat_of_nonneg (by omega), Int.toNat_of_nonneg (by omega), Nat.cast_pow] at this
        exact this
      · have : ((-c).toNat : Int) < ((a.toNat * (r + 1) ^ (poly.length - 1) : Nat) : Int) := by exact_mod_cast p2
        rw [Nat.cast_mul, Int.toNat_of_nonneg (by omega), Int.toNat_of_nonneg (by omega), Nat.cast_pow] at this
        exact_mod_cast this

example : solvePoly [-65536, 0, 0, 1] = some 40 := by decide +kernel

theorem addCoeff_nonneg (poly : List Int) (f : Nat × Nat) (h : ∀ a ∈ poly, 0 ≤ a) : ∀ a ∈ addCoeff poly f, 0 ≤ a := by
  have hq : ∀ a ∈ poly ++ List.replicate (f.2 + 1 - poly.length) (0 : Int), 0 ≤ a := by
    intro a ha
    rcases List.mem_append.mp ha with ha | ha
    · exact h a ha
    · rw [(List.mem_replicate.mp ha).2]
  intro a ha
  unfold addCoeff at ha
  simp only at ha
  generalize poly ++ List.replicate (f.2 + 1 - poly.length) (0 : Int) = q at ha hq
  rcases List.mem_or_eq_of_mem_set ha with ha | rfl
  · exact hq a ha
  · have : 0 ≤ q.getD f.2 0 := by
      rw [List.getD_eq_getElem?_getD]
      cases hg : q[f.2]? with
      | none => simp
      | some x => exact hq x (List.mem_of_getElem? hg)
    omega

theorem foldCoeff_nonneg (fs : List (Nat × Nat)) (poly : List Int) (h : ∀ a ∈ poly, 0 ≤ a) : ∀ a ∈ fs.foldl addCoeff poly, 0 ≤ a := by
  induction fs generalizing poly with
  | nil => exact h
  | cons f fs ih => exact ih _ (addCoeff_nonneg poly f h)

theorem volumePoly_nonneg (c : FootCfg) (loops : List Nat) (ms : List Mat) (cache : Nat) (poly : List Int)
    (h : volumePoly c loops ms cache = some poly) : 0 ≤ poly.getD 1 0 := by
  unfold volumePoly at h
  obtain ⟨fs, hfs, h⟩ := Option.bind_eq_some_iff.mp h
  have hn := foldCoeff_nonneg fs [] (by simp)
  cases hq : fs.foldl addCoeff [] with
  | nil => rw [hq] at h; simp at h
  | cons a q =>
    rw [hq] at h hn
    simp only [Option.some.injEq, Option.pure_def] at h
    subst h
    cases q with
    | nil => simp
    | cons b q => exact hn b (by simp)

theorem simple_rank_pos {loops : List Nat} {m : Mat} {ls : List Nat} (h : SimpleSubscripts loops m ls) (hl : ∀ l ∈ loops, l < m.ncols)
    (hne : ls ≠ []) : m.getRank ≠ 0 := by
  have h1 := simple_rank h hl
  have h2 := C25_lower_partial m h.wf
  have h3 := h.rows.length_eq
  have : 0 < ls.length := List.length_pos_iff.mpr hne
  omega

theorem tileLen_mono (c : FootCfg) (T l : Nat) (h : 0 < tileLen c T l) : 0 < tileLen c (T + 1) l := by
  unfold tileLen at h ⊢
  split
  · omega
  · split
    · omega
    · split
      · omega
      · rename_i h1 h2 h3
        rw [if_neg h1, if_neg h2, if_neg h3] at h
        exact Nat.mul_pos (Nat.pos_of_mul_pos_right h) (by omega)

/-- For such accesses and up to degree 2, the sizes that belong to the root are the largest for which all that a tile touches fits
into the cache. -/
theorem C85_fits_partial (c : FootCfg) (loops : List Nat) (ms : List Mat) (cache : Nat) (poly : List Int) (r : Nat) (base : Nat → Int)
    (hv : volumePoly c loops ms cache = some poly) (hs : solvePoly poly = some r) (h2 : 2 ≤ poly.length) (h3 : poly.length ≤ 3)
    (hm : ∀ m ∈ ms, ∃ l t, SimpleSubscripts loops m (l :: t) ∧ StartsProduct c l ∧ ∀ l ∈ loops, l < m.ncols)
    (hn : loops.Nodup) (hr : ∀ l ∈ loops, l - c.depth < c.reuse.length) (hp : ∀ l ∈ loops, 0 < tileLen c r l) :
    (ms.map (fun m => (tileElems loops (tileLen c r) base m.rows).ncard)).sum ≤ cache ∧
    cache < (ms.map (fun m => (tileElems loops (tileLen c (r + 1)) base m.rows).ncard)).sum := by
  obtain ⟨r1, r2⟩ := C85_root_partial poly r hs h2 h3 (fun _ => volumePoly_nonneg c loops ms cache poly hv)
  have hfil : ms.filter (fun m => decide (m.getRank ≠ 0)) = ms := by
    rw [List.filter_eq_self]
    intro m h
    obtain ⟨l, t, hs, _, hl⟩ := hm m h
    exact decide_eq_true (simple_rank_pos hs hl (by simp))
  have sum : ∀ T : Nat, (∀ l ∈ loops, 0 < tileLen c T l) →
      evalPoly poly T = ((ms.map (fun m => (tileElems loops (tileLen c T) base m.rows).ncard)).sum : Nat) - cache := by
    intro T hT
    obtain ⟨fs, hf, e⟩ := C85_volume c loops ms cache poly hv T
    rw [hfil] at hf
    rw [e]
    congr 1
    clear e hv hfil r1 r2 hs
    induction hf with
    | nil => rfl
    | @cons m f ms fs h1 _ ih =>
      obtain ⟨l, t, hs, hst, hl⟩ := hm m (by simp)
      obtain ⟨g, d, e1, e2⟩ := C85_footprint_partial c loops m (l :: t) T base hs hn hl hr hT ⟨l, t, rfl, hst⟩
      rw [h1] at e1
      cases e1
      rw [List.map_cons, List.sum_cons, List.map_cons, List.sum_cons, ih (fun m h => hm m (by simp [h])), e2]
      push_cast
      rfl
  have e1 := sum r hp
  have e2 := sum (r + 1) (fun l h => tileLen_mono c r l (hp l h))
  rw [Nat.cast_add, Nat.cast_one] at e2
  constructor <;> omega

-- `A[i][j] = B[i][k]` in a band `i, j, k`, `j` the vector dimension.
example : ∃ poly, volumePoly ⟨[2, 1, 1], 1, 3, false, 0⟩ [0, 1, 2]
      [⟨5, [[1, 0, 0, 0, 0], [0, 1, 0, 1, -1]]⟩, ⟨5, [[1, 0, 0, 0, 0], [0, 0, 1, 0, 0]]⟩] 65536 = some poly ∧ solvePoly poly = some 57 ∧
    poly.length = 3 ∧ (∀ l ∈ [0, 1, 2], 0 < tileLen ⟨[2, 1, 1], 1, 3, false, 0⟩ 57 l) ∧
    SimpleSubscripts [0, 1, 2] ⟨5, [[1, 0, 0, 0, 0], [0, 0, 1, 0, 0]]⟩ [0, 2] := by
  refine ⟨[-65536, 1024, 2], by decide +kernel, by decide +kernel, rfl, by decide, ⟨?_, by decide, by decide⟩⟩
  exact .cons (by decide) (.cons (by decide) .nil)

/-- What is kept of a matrix are its first rows, and all of them if they are independent. -/
theorem C85_rows_partial (m : Mat) (hm : m.WF) : (∃ k, (independentRows m).rows = m.rows.take k) ∧
    (rowRank m.ncols m.rows = m.rows.length → independentRows m = m) := by
  refine ⟨?_, independentRows_full m hm⟩
  unfold independentRows
  split
  · exact ⟨m.rows.length, by rw [List.take_length]⟩
  · exact ⟨_, rfl⟩

/-- `A[i][2i][j]`: after the dependent second row the third, independent one is not looked at, so that the loop `j` is missing in the
footprint: `2 T` instead of `1024 T` elements. -/
theorem C85_violated_rows : (independentRows ⟨5, [[1, 0, 0, 0, 0], [2, 0, 0, 0, 0], [0, 1, 0, 0, 0]]⟩).rows = [[1, 0, 0, 0, 0]] ∧
    (⟨5, [[1, 0, 0, 0, 0], [2, 0, 0, 0, 0], [0, 1, 0, 0, 0]]⟩ : Mat).getRank = 2 ∧
    footprint ⟨[2, 1, 1], 1, 2, false, 0⟩ [0, 1, 2] ⟨5, [[1, 0, 0, 0, 0], [2, 0, 0, 0, 0], [0, 1, 0, 0, 0]]⟩ = some (2, 1) ∧
    footprint ⟨[2, 1, 1], 1, 2, false, 0⟩ [0, 1, 2] ⟨5, [[1, 0, 0, 0, 0], [0, 1, 0, 0, 0]]⟩ = some (1024, 1) := by decide +kernel

/-- `A[k][j]` with `k` parallel and `j` vectorised: 512 elements instead of 32 * 512, which are found for `A[j][k]`; and no elements at
all for `A[k]`. -/
theorem C85_violated_parallel :
    footprint ⟨[2, 1, 1], 1, 2, false, 0⟩ [0, 1, 2] ⟨5, [[0, 0, 1, 0, 0], [0, 1, 0, 0, 0]]⟩ = some (512, 0) ∧
    footprint ⟨[2, 1, 1], 1, 2, false, 0⟩ [0, 1, 2] ⟨5, [[0, 1, 0, 0, 0], [0, 0, 1, 0, 0]]⟩ = some (32 * 512, 0) ∧
    footprint ⟨[2, 1, 1], 1, 2, false, 0⟩ [0, 1, 2] ⟨5, [[0, 0, 1, 0, 0]]⟩ = some (0, 0) := by decide +kernel

/-- `A[N - i]`: no elements; `A[N + i]`: `2 T` elements. -/
theorem C85_violated_negative :
    footprint ⟨[2, 1, 1], 1, 2, false, 0⟩ [0, 1, 2] ⟨5, [[-1, 0, 0, 1, 0]]⟩ = some (0, 0) ∧
    footprint ⟨[2, 1, 1], 1, 2, false, 0⟩ [0, 1, 2] ⟨5, [[1, 0, 0, 1, 0]]⟩ = some (2, 1) := by decide +kernel

/-- A level with two loops (of different statements) is counted twice. -/
theorem C85_violated_twice :
    footprint ⟨[2, 1, 1], 1, 2, false, 0⟩ [0, 0, 1, 2] ⟨5, [[1, 0, 0, 1, 0]]⟩ = some (4, 1) := by decide +kernel

/-- Only scalars: the polynomial is empty, and its element 0 is written. -/
theorem C85_violated_empty (c : FootCfg) (loops : List Nat) (ms : List Mat) (cache : Nat) (h : ∀ m ∈ ms, m.getRank = 0) :
    volumePoly c loops ms cache = none := by
  have : ms.filter (fun m => decide (m.getRank ≠ 0)) = [] := by
    rw [List.filter_eq_nil_iff]
    intro m hm
    simp [h m hm]
  unfold volumePoly
  rw [this]
  rfl

/-- `A[i]` with no reuse along `i`: the leading coefficient is 0, and there is no root to be converted. -/
theorem C85_violated_zero : volumePoly ⟨[0, 1, 1], 1, 2, false, 0⟩ [0, 1, 2] [⟨5, [[1, 0, 0, 0, 0]]⟩] 65536 = some [-65536, 0] ∧
    solvePoly [-65536, 0] = none := by decide +kernel

/-- One vector tile as large as the cache: an assertion fails. -/
theorem C85_violated_assert : volumePoly ⟨[2, 1, 1], 1, 2, false, 0⟩ [0, 1, 2] [⟨5, [[0, 1, 0, 0, 0]]⟩, ⟨5, [[1, 0, 0, 0, 0]]⟩] 512 =
    some [0, 2] ∧ solvePoly [0, 2] = none := by decide +kernel

/-- Degree 3: `A[i][j][k]` and, 50 times, `B[i][j]`: the volume at the root is six times the cache. -/
theorem C85_violated_high :
    volumePoly ⟨[1, 1, 1], 3, 4, false, 0⟩ [0, 1, 2]
      (⟨5, [[1, 0, 0, 0, 0], [0, 1, 0, 0, 0], [0, 0, 1, 0, 0]]⟩ :: List.replicate 50 ⟨5, [[1, 0, 0, 0, 0], [0, 1, 0, 0, 0]]⟩) 1000 =
      some [-1000, 0, 50, 1] ∧
    solvePoly [-1000, 0, 50, 1] = some 10 ∧ evalPoly [-1000, 0, 50, 1] 10 + 1000 = 6 * 1000 := by decide +kernel

end Pluto
