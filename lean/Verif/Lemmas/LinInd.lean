import Verif.Lemmas.Lexmin
import Verif.Lemmas.Rank
import Verif.Lemmas.MatSum
import Verif.Lemmas.Framework
import Verif.Props.Rank
import Mathlib.LinearAlgebra.Dual.Lemmas

namespace Pluto

/-! ### Number of independent hyperplanes -/

theorem removeCols_fold (n d k : Nat) (rows : List (List Int)) (hr : ∀ r ∈ rows, r.length = n)
    (hk : d + k ≤ n) :
    (List.range k).foldl (fun (m : Mat) (_ : Nat) => (m.removeCol d).getD m) ⟨n, rows⟩ =
      ⟨n - k, rows.map (fun r => r.take d ++ r.drop (d + k))⟩ := by
  induction k with
  | zero => simp [List.take_append_drop]
  | succ k ih =>
    rw [List.range_succ, List.foldl_append, ih (by omega)]
    simp only [List.foldl_cons, List.foldl_nil, Mat.removeCol]
    rw [if_pos (by omega)]
    simp only [Option.getD_some, List.map_map]
    congr 1
    apply List.map_congr_left
    intro r hr'
    have hl := hr r hr'
    simp only [Function.comp]
    rw [shiftLeft_eq _ _ (by simp; omega)]
    apply List.ext_getElem?
    intro i
    simp only [List.getElem?_eraseIdx, List.getElem?_append, List.length_take, List.getElem?_take,
      List.getElem?_drop, hl]
    ifs_idx

theorem numIndHyps_eq (p : Prog) (st : Stmt) (hd : st.dimOrig ≤ st.dim + p.npar + 1)
    (hr : ∀ r ∈ st.trans, r.length = st.dim + p.npar + 1) :
    numIndHyps p st = (⟨st.dimOrig, st.trans.map (·.take st.dimOrig)⟩ : Mat).getRank := by
  unfold numIndHyps
  simp only
  rw [removeCols_fold _ _ _ _ hr (by omega)]
  congr 2
  · omega
  · apply List.map_congr_left
    intro r hr'
    rw [List.drop_of_length_le (by rw [hr r hr']; omega), List.append_nil]

theorem getRank_le_nrows (m : Mat) (hm : m.WF) : m.getRank ≤ m.rows.length := by
  have inv := echelon_inv m hm (min m.ncols m.rows.length) (Nat.min_le_right _ _)
  have := inv.len
  unfold Mat.getRank
  simp only [Mat.toRowEchelon]
  omega

theorem rowRank_le_length (n : Nat) (rows : List (List Int)) : rowRank n rows ≤ rows.length := by
  have hspan : rowSpace n rows = Submodule.span ℚ (↑(rows.map (qvec n)).toFinset : Set (Fin n → ℚ)) := by
    unfold rowSpace
    congr 1
    ext v
    simp only [List.coe_toFinset, Set.mem_ofPred_eq, List.mem_map]
    constructor
    · rintro ⟨r, h, rfl⟩; exact ⟨r, h, rfl⟩
    · rintro ⟨r, h, rfl⟩; exact ⟨r, h, rfl⟩
  unfold rowRank
  rw [hspan]
  refine (finrank_span_finset_le_card _).trans ((List.toFinset_card_le _).trans ?_)
  rw [List.length_map]

/-- The code's count decides exactly whether a statement still needs loops. -/
theorem needsLoops_iff (p : Prog) (st : Stmt) (hd : st.dimOrig ≤ st.dim + p.npar + 1)
    (hr : ∀ r ∈ st.trans, r.length = st.dim + p.npar + 1) :
    numIndHyps p st < st.dimOrig ↔ NeedsLoops st := by
  rw [numIndHyps_eq p st hd hr]
  set m : Mat := ⟨st.dimOrig, st.trans.map (·.take st.dimOrig)⟩ with hm
  have hw : m.WF := by
    intro r hr'
    obtain ⟨r0, h0, rfl⟩ := List.mem_map.mp hr'
    simp [hm, hr r0 h0]; omega
  unfold NeedsLoops
  change m.getRank < st.dimOrig ↔ rowRank m.ncols m.rows < st.dimOrig
  by_cases h : m.ncols ≤ m.rows.length
  · rw [C25_rank_partial m hw h]
  · have h1 := getRank_le_nrows m hw
    have h2 := rowRank_le_length m.ncols m.rows
    have : m.ncols = st.dimOrig := rfl
    omega

/-! ### Orthogonality -/

theorem gcdFold_dvd (l : List Int) (g : Int) :
    l.foldl (fun g a => cgcd g (llabs a)) g ∣ g ∧ ∀ a ∈ l, l.foldl (fun g a => cgcd g (llabs a)) g ∣ a := by
  induction l generalizing g with
  | nil => simp
  | cons b l ih =>
    rw [List.foldl_cons]
    obtain ⟨h1, h2⟩ := ih (cgcd g (llabs b))
    have e : cgcd g (llabs b) = (Int.gcd g b : Int) := by
      rw [C01_gcd_correct, llabs_natAbs]; rfl
    rw [e] at h1 h2 ⊢
    refine ⟨h1.trans (Int.gcd_dvd_left ..), ?_⟩
    intro a ha
    rcases List.mem_cons.mp ha with rfl | ha
    · exact h1.trans (Int.gcd_dvd_right ..)
    · exact h2 a ha

theorem dot_mul_right (r v : List Int) (g : Int) : dot r (v.map (fun a => g * a)) = g * dot r v := by
  induction r generalizing v with
  | nil => simp
  | cons a r ih =>
    cases v with
    | nil => simp
    | cons b v => simp [ih]; ring

theorem normalizeCol_spec (v : List Int) :
    (normalizeCol v).length = v.length ∧ ∃ g : Int, g ≠ 0 ∧ v = (normalizeCol v).map (fun a => g * a) := by
  unfold normalizeCol
  split
  · simp only
    split
    · rename_i _ hg
      refine ⟨by simp, _, ne_of_gt (lt_trans (by norm_num) hg), ?_⟩
      rw [List.map_map]
      conv_lhs => rw [← List.map_id v]
      apply List.map_congr_left
      intro a ha
      simp only [id, Function.comp]
      refine (Int.mul_tdiv_cancel' ?_).symm
      cases v with
      | nil => simp at ha
      | cons b v =>
        obtain ⟨h1, h2⟩ := gcdFold_dvd v (llabs b)
        rcases List.mem_cons.mp ha with rfl | ha
        · refine dvd_trans h1 ?_
          simp only [llabs]; split
          · exact dvd_rfl
          · exact (neg_dvd.mpr dvd_rfl)
        · exact h2 a ha
    · exact ⟨rfl, 1, one_ne_zero, by simp⟩
  · exact ⟨rfl, 1, one_ne_zero, by simp⟩

theorem normalizeCol_orth (v r : List Int) (h : dot r v = 0) : dot r (normalizeCol v) = 0 := by
  obtain ⟨_, g, hg, e⟩ := normalizeCol_spec v
  rw [e, dot_mul_right] at h
  exact (mul_eq_zero.mp h).resolve_left hg

theorem dot_qvec (n : Nat) (r v : List Int) (hr : r.length = n) :
    ((dot r v : Int) : ℚ) = ∑ j, qvec n r j * qvec n v j := by
  rw [dot_eq_sum r v n hr]
  simp only [Int.cast_id]
  rw [← Fin.sum_univ_eq_sum_range (fun j => coef r j * v.getD j 0)]
  push_cast
  rfl

theorem dot_comm_int (a b : List Int) : dot a b = dot b a := by
  induction a generalizing b with
  | nil => simp
  | cons x a ih => cases b with
    | nil => simp
    | cons y b => simp [ih b, mul_comm]

/-- Anything in the span of vectors orthogonal to `v` is orthogonal to `v`. -/
theorem span_orth (n : Nat) (S : Set (Fin n → ℚ)) (v : Fin n → ℚ) (h : ∀ u ∈ S, ∑ j, u j * v j = 0)
    (w : Fin n → ℚ) (hw : w ∈ Submodule.span ℚ S) : ∑ j, w j * v j = 0 := by
  induction hw using Submodule.span_induction with
  | mem u hu => exact h u hu
  | zero => simp
  | add a b _ _ ha hb => simp [add_mul, Finset.sum_add_distrib, ha, hb]
  | smul c a _ ha => simp [mul_assoc, ← Finset.mul_sum, ha]

/-- A proper subspace has a non-zero vector orthogonal to it. -/
theorem exists_orth (n : Nat) (rows : List (List Int)) (h : rowRank n rows < n) :
    ∃ w : Fin n → ℚ, w ≠ 0 ∧ ∀ r ∈ rows, ∑ j, qvec n r j * w j = 0 := by
  have hlt : rowSpace n rows < ⊤ := by
    rw [lt_top_iff_ne_top]
    intro e
    unfold rowRank at h
    rw [e, finrank_top, Module.finrank_fin_fun] at h
    omega
  obtain ⟨f, hf, hle⟩ := Submodule.exists_le_ker_of_lt_top _ hlt
  refine ⟨fun j => f (Pi.single j 1), ?_, ?_⟩
  · intro h0
    apply hf
    apply LinearMap.pi_ext'
    intro j
    ext
    simpa using congrFun h0 j
  · intro r hr
    have : f (qvec n r) = 0 := hle (Submodule.subset_span ⟨r, hr, rfl⟩)
    rw [← this]
    conv_rhs => rw [LinearMap.pi_apply_eq_sum_univ f (qvec n r)]
    apply Finset.sum_congr rfl
    intro j _
    simp only [smul_eq_mul]
    congr 2
    funext i
    simp [Pi.single_apply, eq_comm]

/-! ### The rows of the constraint -/

theorem aff_set_last (row : List Int) (k : Int) (x : List Int) (w : Nat) (hw : row.length = w + 1)
    (hx : x.length = w) (h0 : coef row w = 0) : aff (row.set w k) x = aff row x + k := by
  unfold aff
  rw [dot_set_eq _ _ _ _ (by omega), h0]
  have : (x ++ [1]).getD w 0 = (1 : Int) := by
    simp [List.getD_eq_getElem?_getD, List.getElem?_append_right, hx]
  rw [this]; simp

theorem padded_orig {p : Prog} (hp : p.Padded) : p.OrigOK := by
  intro st hst
  obtain ⟨h1, h2, h3, _⟩ := hp st hst
  rw [h3]
  refine ⟨by simp; omega, ?_⟩
  rw [List.countP_append, List.countP_replicate, List.countP_replicate]
  simp

theorem keepMask_prefix {α : Type} (d k : Nat) (v : List α) (h : d + k ≤ v.length) :
    keepMask (List.replicate d true ++ List.replicate k false) v = v.take d := by
  induction d generalizing v with
  | zero =>
    simp only [List.replicate_zero, List.nil_append, List.take_zero]
    induction k generalizing v with
    | zero => simp [keepMask]
    | succ k ih =>
      cases v with
      | nil => simp at h
      | cons a v => simp only [List.replicate_succ, keepMask]; exact ih v (by simp at h; omega)
  | succ d ih =>
    cases v with
    | nil => simp at h
    | cons a v =>
      simp only [List.replicate_succ, List.cons_append, keepMask, List.take_succ_cons]
      rw [ih v (by simp at h; omega)]

theorem orthRow_spec {p : Prog} (hp : p.Padded) (i : Nat) (st : Stmt) (hi : p.stmts[i]? = some st)
    (v : List Int) (hv : v.length = st.dimOrig) (k : Int) (sol : List Int) (hs : SolLen p sol) :
    (orthRow p i st v k).length = cstWidth p.nvar p.npar p.stmts.length ∧
    coef (orthRow p i st v 0) (cstWidth p.nvar p.npar p.stmts.length - 1) = 0 ∧
    aff (orthRow p i st v k) sol = dot v (stmtCoeffs p i st sol) + k := by
  have hlt : i < p.stmts.length := (List.getElem?_eq_some_iff.mp hi).1
  obtain ⟨h1, h2, h3, _⟩ := hp st (List.mem_of_getElem? hi)
  have hb := stmtOffset_bound p.nvar p.npar p.stmts.length i hlt
  set w := cstWidth p.nvar p.npar p.stmts.length with hw
  have hsol : sol.length + 1 = w := by rw [hs]; rfl
  set off := stmtOffset p.nvar p.npar i with hoff
  have hol : st.isOrig.length = p.nvar := by rw [h3]; simp; omega
  have htake : st.isOrig.take p.nvar = st.isOrig := List.take_of_length_le (by omega)
  have hspl : (spreadMask st.isOrig v).length = p.nvar := by rw [spreadMask_length, hol]
  have hzl : (zrow w).length = w := by simp [zrow]
  have hwl : (writeSlice (zrow w) off (spreadMask st.isOrig v)).length = w := by
    rw [writeSlice_length _ _ _ (by omega), hzl]
  have hc0 : coef (writeSlice (zrow w) off (spreadMask st.isOrig v)) (w - 1) = 0 := by
    unfold writeSlice coef
    rw [List.getD_eq_getElem?_getD, List.getElem?_append_right (by simp [hspl, hzl]; omega)]
    simp [zrow, List.getElem?_replicate, List.getElem?_drop]
    split <;> rfl
  have e : orthRow p i st v k = (writeSlice (zrow w) off (spreadMask st.isOrig v)).set (w - 1) k := by
    unfold orthRow; rw [htake]
  have e0 : orthRow p i st v 0 = (writeSlice (zrow w) off (spreadMask st.isOrig v)).set (w - 1) 0 := by
    unfold orthRow; rw [htake]
  refine ⟨by rw [e, List.length_set, hwl], ?_, ?_⟩
  · rw [e0, coef_set _ _ _ _ (by omega), if_pos rfl]
  · rw [e, aff_set_last _ _ _ (w - 1) (by omega) (by omega) hc0]
    congr 1
    unfold aff
    rw [dot_writeSlice _ _ _ _ (by omega) (by simp; omega), dot_zrow, dot_zero_slice, zero_add, sub_zero,
      List.drop_append_of_le_length (by omega)]
    have hdl : off + p.nvar ≤ sol.length := by omega
    rw [← dot_take_left _ _ p.nvar (by omega), List.take_append_of_le_length (by simp; omega),
      dot_spread_swap _ _ _ (by simp; omega) (by rw [hv, (padded_orig hp st (List.mem_of_getElem? hi)).2]), h3,
      keepMask_prefix _ _ _ (by simp; omega), List.take_take]
    congr 1
    unfold stmtCoeffs
    rw [Nat.min_eq_left h1]
    rfl

theorem aff_set_last' (row : List Int) (k : Int) (x : List Int) (w : Nat) (hw : row.length = w + 1)
    (hx : x.length = w) : aff (row.set w k) x = aff row x - coef row w + k := by
  unfold aff
  rw [dot_set_eq _ _ _ _ (by omega)]
  have : (x ++ [1]).getD w 0 = (1 : Int) := by
    simp [List.getD_eq_getElem?_getD, List.getElem?_append_right, hx]
  rw [this]; simp; ring

theorem sumRows_spec (w : Nat) (rows : List (List Int)) (hr : ∀ r ∈ rows, r.length = w) (acc : List Int)
    (ha : acc.length = w) (x : List Int) (j : Nat) :
    (rows.foldl (fun s r => List.zipWith (fun a b => a + b) s r) acc).length = w ∧
    aff (rows.foldl (fun s r => List.zipWith (fun a b => a + b) s r) acc) x =
      aff acc x + (rows.map (fun r => aff r x)).sum ∧
    coef (rows.foldl (fun s r => List.zipWith (fun a b => a + b) s r) acc) j =
      coef acc j + (rows.map (fun r => coef r j)).sum := by
  induction rows generalizing acc with
  | nil => simp [ha]
  | cons r rows ih =>
    have hrl := hr r (by simp)
    rw [List.foldl_cons]
    obtain ⟨h1, h2, h3⟩ := ih (fun r' h' => hr r' (List.mem_cons_of_mem _ h'))
      (List.zipWith (fun a b => a + b) acc r) (by simp [ha, hrl])
    refine ⟨h1, ?_, ?_⟩
    · rw [h2]
      unfold aff
      rw [dot_zipWith_add _ _ _ (by omega)]
      simp [add_assoc]
    · rw [h3]
      have : coef (List.zipWith (fun a b => a + b) acc r) j = coef acc j + coef r j := by
        unfold coef
        simp only [List.getD_eq_getElem?_getD, List.getElem?_zipWith]
        by_cases hj : j < w
        · simp [ha, hrl, hj]
        · simp [ha, hrl, Nat.le_of_not_lt hj]
      rw [this]
      simp [add_assoc]

/-- Sum of rows with the constant replaced by -1. -/
theorem sumRows_set (w : Nat) (rows : List (List Int)) (hr : ∀ r ∈ rows, r.length = w) (x : List Int)
    (hx : x.length + 1 = w) :
    let s := (rows.foldl (fun s r => List.zipWith (fun a b => a + b) s r) (zrow w)).set (w - 1) (-1)
    s.length = w ∧ coef s (w - 1) = -1 ∧
      aff s x = (rows.map (fun r => aff r x - coef r (w - 1))).sum - 1 := by
  obtain ⟨h1, h2, h3⟩ := sumRows_spec w rows hr (zrow w) (by simp [zrow]) x (w - 1)
  refine ⟨by rw [List.length_set, h1], by rw [coef_set _ _ _ _ (by omega), if_pos rfl], ?_⟩
  rw [aff_set_last' _ _ _ (w - 1) (by omega) (by omega), h2, h3]
  have e1 : aff (zrow w) x = 0 := dot_zrow _ _
  have e2 : coef (zrow w) (w - 1) = 0 := by
    simp [coef, zrow, List.getD_eq_getElem?_getD, List.getElem?_replicate]; split <;> rfl
  rw [e1, e2]
  have : ∀ l : List (List Int), (l.map (fun r => aff r x - coef r (w - 1))).sum =
      (l.map (fun r => aff r x)).sum - (l.map (fun r => coef r (w - 1))).sum := by
    intro l
    induction l with
    | nil => simp
    | cons r l ih => simp [ih]; ring
  rw [this]; ring

theorem loopRows_spec {p : Prog} (hp : p.Padded) (st : Stmt) (hst : st ∈ p.stmts) :
    (∀ r ∈ loopRows p st, r.length = st.dimOrig) ∧
    loopSpan p st = rowSpace st.dimOrig (loopRows p st) ∧
    ∀ r ∈ loopRows p st, r ∈ st.trans.map (·.take st.dimOrig) := by
  obtain ⟨h1, h2, h3, h4, h5⟩ := hp st hst
  have hol : st.isOrig.length = p.nvar := by rw [h3]; simp; omega
  have htake : st.isOrig.take p.nvar = st.isOrig := List.take_of_length_le (by omega)
  have hk : ∀ r ∈ st.trans, keepMask (st.isOrig.take p.nvar) r = r.take st.dimOrig := by
    intro r hr
    rw [htake, h3, keepMask_prefix _ _ _ (by rw [h4 r hr]; omega)]
  have hmem : ∀ u, u ∈ loopRows p st ↔ ∃ (l : Nat) (r : List Int) (t : HypType),
      st.trans[l]? = some r ∧ p.hProps[l]? = some t ∧ t ≠ HypType.scalar ∧ u = r.take st.dimOrig := by
    intro u
    unfold loopRows
    rw [List.mem_filterMap]
    constructor
    · rintro ⟨⟨r, t⟩, hz, hu⟩
      obtain ⟨l, hl⟩ := List.getElem?_of_mem hz
      rw [List.getElem?_zip_eq_some] at hl
      simp only at hu hl
      split at hu
      · cases hu
      · rename_i hne
        injection hu with hu
        exact ⟨l, r, t, hl.1, hl.2, hne, by rw [← hu, hk r (List.mem_of_getElem? hl.1)]⟩
    · rintro ⟨l, r, t, hr, ht, hne, rfl⟩
      refine ⟨(r, t), List.mem_of_getElem? (i := l) (List.getElem?_zip_eq_some.mpr ⟨hr, ht⟩), ?_⟩
      simp only [hne, if_false]
      rw [hk r (List.mem_of_getElem? hr)]
  refine ⟨?_, ?_, ?_⟩
  · intro u hu
    obtain ⟨l, r, t, hr, _, _, rfl⟩ := (hmem u).mp hu
    rw [List.length_take, h4 r (List.mem_of_getElem? hr)]; omega
  · unfold loopSpan rowSpace
    congr 1
    ext v
    simp only [Set.mem_ofPred_eq, hmem]
    constructor
    · rintro ⟨l, r, t, a, b, c, rfl⟩; exact ⟨_, ⟨l, r, t, a, b, c, rfl⟩, rfl⟩
    · rintro ⟨u, ⟨l, r, t, a, b, c, rfl⟩, rfl⟩; exact ⟨l, r, t, a, b, c, rfl⟩
  · intro u hu
    obtain ⟨l, r, t, hr, _, _, rfl⟩ := (hmem u).mp hu
    exact List.mem_map_of_mem (List.mem_of_getElem? hr)

theorem list_sum_zero (l : List Int) (h : ∀ a ∈ l, a = 0) : l.sum = 0 := by
  induction l with
  | nil => rfl
  | cons a l ih =>
    rw [List.sum_cons, h a (by simp), ih (fun b hb => h b (List.mem_cons_of_mem _ hb)), add_zero]

/-- The linear independence row of an unfinished statement: it exists, and its value at coefficient
vectors whose row is in the span of the previous loops is -1. -/
theorem stmtLinInd_last (o : SearchOpts) (L : Libs) (hK : KernelOracle L.kernel) {p : Prog} (hp : p.Padded)
    (i : Nat) (st : Stmt) (hi : p.stmts[i]? = some st) (hn : NeedsLoops st) (curr : Cst) :
    ∃ r, (stmtLinInd o L p i st curr).getLast? = some r ∧
      r.length = cstWidth p.nvar p.npar p.stmts.length ∧
      coef r (cstWidth p.nvar p.npar p.stmts.length - 1) = -1 ∧
      ∀ sol, SolLen p sol → qvec st.dimOrig (stmtCoeffs p i st sol) ∈ loopSpan p st → aff r sol = -1 := by
  have hst := List.mem_of_getElem? hi
  obtain ⟨h1, h2, h3, h4, h5⟩ := hp st hst
  obtain ⟨hlr, hls, hlt⟩ := loopRows_spec hp st hst
  set w := cstWidth p.nvar p.npar p.stmts.length with hw
  have hnot : ¬ numIndHyps p st ≥ st.dimOrig := by
    have := (needsLoops_iff p st (by omega) (by intro r hr; rw [h4 r hr]; omega)).mpr hn
    omega
  obtain ⟨ho1, ho2⟩ := hK st.dimOrig (loopRows p st) hlr
  have hcnt : (st.isOrig.take p.nvar).countP id = st.dimOrig := by
    rw [List.take_of_length_le (by rw [(padded_orig hp st hst).1])]
    exact (padded_orig hp st hst).2
  -- the null space is not trivial
  have hrank : rowRank st.dimOrig (loopRows p st) < st.dimOrig := by
    refine lt_of_le_of_lt ?_ hn
    unfold rowRank
    apply Submodule.finrank_mono
    apply Submodule.span_mono
    rintro _ ⟨r, hr, rfl⟩
    exact ⟨r, hlt r hr, rfl⟩
  obtain ⟨z, hz0, hz⟩ := exists_orth _ _ hrank
  have hker : L.kernel st.dimOrig (loopRows p st) ≠ [] := by
    intro e
    have := ho2 z hz
    rw [e] at this
    simp only [List.not_mem_nil, false_and, exists_false] at this
    have e2 : ({u : Fin st.dimOrig → ℚ | False}) = (∅ : Set (Fin st.dimOrig → ℚ)) := rfl
    rw [e2, Submodule.span_empty, Submodule.mem_bot] at this
    exact hz0 this
  -- unfold the rows
  set ortho := (L.kernel st.dimOrig (loopRows p st)).map normalizeCol with hortho
  set g : List Int → List Int := fun v =>
    if o.flic = false ∧ L.isEmpty (addCst ⟨w, [⟨false, orthRow p i st v (-1)⟩]⟩ curr) = true then
      (orthRow p i st v 0).map (fun a => -a) else orthRow p i st v 0 with hg
  have e : stmtLinInd o L p i st curr = ortho.map g ++
      [((ortho.map g).foldl (fun s r => List.zipWith (fun a b => a + b) s r) (zrow w)).set (w - 1) (-1)] := by
    unfold stmtLinInd
    rw [if_neg hnot]
    simp only [hcnt]
    rw [if_neg]
    · simpa [hortho] using hker
  have hov : ∀ v ∈ ortho, v.length = st.dimOrig ∧ ∀ r ∈ loopRows p st, dot r v = 0 := by
    intro v hv
    obtain ⟨v0, hv0, rfl⟩ := List.mem_map.mp hv
    obtain ⟨a, b⟩ := ho1 v0 hv0
    refine ⟨by rw [(normalizeCol_spec v0).1, a], fun r hr => normalizeCol_orth _ _ (b r hr)⟩
  have hgl : ∀ r ∈ ortho.map g, r.length = w := by
    intro r hr
    obtain ⟨v, hv, rfl⟩ := List.mem_map.mp hr
    have hsol : SolLen p (List.replicate (p.npar + 1 + p.stmts.length * (p.nvar + 1)) (0 : Int)) := by
      show _ = _; simp
    have hh := (orthRow_spec hp i st hi v (hov v hv).1 0 _ hsol).1
    rw [hg]
    dsimp only
    split
    · rw [List.length_map]; exact hh
    · exact hh
  refine ⟨_, by rw [e, List.getLast?_append, List.getLast?_singleton]; rfl, ?_, ?_, ?_⟩
  · obtain ⟨a, _, _⟩ := sumRows_set w (ortho.map g) hgl
      (List.replicate (w - 1) 0) (by simp [hw, cstWidth])
    exact a
  · obtain ⟨_, b, _⟩ := sumRows_set w (ortho.map g) hgl
      (List.replicate (w - 1) 0) (by simp [hw, cstWidth])
    exact b
  · intro sol hsol hmem
    obtain ⟨_, _, c⟩ := sumRows_set w (ortho.map g) hgl sol (by rw [hsol]; rfl)
    rw [c, list_sum_zero, zero_sub]
    intro a ha
    rw [List.mem_map] at ha
    obtain ⟨r, hr, rfl⟩ := ha
    obtain ⟨v, hv, rfl⟩ := List.mem_map.mp hr
    obtain ⟨s1, s2, s3⟩ := orthRow_spec hp i st hi v (hov v hv).1 0 sol hsol
    have hzero : dot v (stmtCoeffs p i st sol) = 0 := by
      have hlen : (stmtCoeffs p i st sol).length = st.dimOrig := by
        have hlt' : i < p.stmts.length := (List.getElem?_eq_some_iff.mp hi).1
        have hb := stmtOffset_bound p.nvar p.npar p.stmts.length i hlt'
        unfold stmtCoeffs
        have : sol.length = w - 1 := by rw [hsol]; rfl
        have hoff : stmtOffset p.nvar p.npar i = p.npar + 1 + i * (p.nvar + 1) := rfl
        rw [List.length_take, List.length_drop]
        omega
      rw [hls] at hmem
      have := span_orth st.dimOrig _ (qvec st.dimOrig v) ?_ _ hmem
      · rw [← dot_qvec _ _ _ hlen] at this
        rw [dot_comm_int]
        exact_mod_cast this
      · rintro _ ⟨r, hr, rfl⟩
        rw [← dot_qvec _ _ _ (hlr r hr), (hov v hv).2 r hr]; simp
    rw [hzero] at s3
    have s2' : coef ((orthRow p i st v 0).map (fun a => -a)) (w - 1) = 0 := by
      have : coef ((orthRow p i st v 0).map (fun a => -a)) (w - 1) = - coef (orthRow p i st v 0) (w - 1) := by
        simp only [coef, List.getD_eq_getElem?_getD, List.getElem?_map]
        cases (orthRow p i st v 0)[w - 1]? <;> simp
      rw [this, s2]; rfl
    have s3' : aff ((orthRow p i st v 0).map (fun a => -a)) sol = 0 := by
      have : aff ((orthRow p i st v 0).map (fun a => -a)) sol = - aff (orthRow p i st v 0) sol := dot_map_neg _ _
      rw [this, s3]; rfl
    rw [hg]
    dsimp only
    split
    · rw [s2', s3']; rfl
    · rw [s2, s3]; rfl

end Pluto
