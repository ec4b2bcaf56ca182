import Verif.Lemmas.Farkas

/-! Helper lemmas connecting the model of `farkas_lemma_affine` with multipliers. -/

namespace Pluto

theorem bestElimCandidate_range (c : Cst) (m : Nat) (hm : 1 ≤ m) (hc : m + 1 ≤ c.ncols) :
    c.ncols - 1 - m ≤ bestElimCandidate c m ∧ bestElimCandidate c m ≤ c.ncols - 2 := by
  unfold bestElimCandidate
  simp only
  set js := (if c.ncols - 1 ≤ m then ([] : List Nat) else (List.range m).map (fun k => c.ncols - 2 - k))
    with hjs
  have hj : ∀ j ∈ js, c.ncols - 1 - m ≤ j ∧ j ≤ c.ncols - 2 := by
    intro j hj
    rw [hjs] at hj
    split at hj
    · simp at hj
    · obtain ⟨k, hk, rfl⟩ := List.mem_map.mp hj
      rw [List.mem_range] at hk; omega
  clear hjs
  clear_value js
  have : ∀ (b : Nat × Nat), (c.ncols - 1 - m ≤ b.2 ∧ b.2 ≤ c.ncols - 2) →
      c.ncols - 1 - m ≤ (js.foldl (fun (best : Nat × Nat) j =>
        if elimCost c j < best.1 then (elimCost c j, j) else best) b).2 ∧
      (js.foldl (fun (best : Nat × Nat) j =>
        if elimCost c j < best.1 then (elimCost c j, j) else best) b).2 ≤ c.ncols - 2 := by
    induction js with
    | nil => intro b hb; simpa using hb
    | cons j js ih =>
      intro b hb
      simp only [List.foldl_cons]
      apply ih (fun j' hj' => hj j' (by simp [hj']))
      split
      · exact hj j (by simp)
      · exact hb
  apply this
  simp only; omega

theorem insertIdx_append_right {α} (a b : List α) (pos : Nat) (v : α) (h : a.length ≤ pos) :
    (a ++ b).insertIdx pos v = a ++ b.insertIdx (pos - a.length) v := by
  induction a generalizing pos with
  | nil => simp
  | cons x xs ih =>
    simp at h
    obtain ⟨q, rfl⟩ : ∃ q, pos = q + 1 := ⟨pos - 1, by omega⟩
    simp only [List.cons_append, List.insertIdx_succ_cons, List.length_cons, Nat.add_sub_add_right]
    rw [ih q (by omega)]

theorem insertIdx_eraseIdx_getElem {α} (a : List α) (i : Nat) (h : i < a.length) :
    (a.eraseIdx i).insertIdx i a[i] = a := by
  induction a generalizing i with
  | nil => simp at h
  | cons x xs ih => cases i with
    | zero => simp
    | succ i => simp at h ⊢; exact ih i h

theorem elimMultipliers_shape (n : Nat) (s : Cst) (p : Nat) (hp : 1 ≤ p) (h : s.WF)
    (hn : s.ncols = p + n) : (elimMultipliers n s).WF ∧ (elimMultipliers n s).ncols = p := by
  induction n generalizing s with
  | zero => exact ⟨h, by simpa [elimMultipliers] using hn⟩
  | succ n ih =>
    have hr := bestElimCandidate_range s (n + 1) (by omega) (by omega)
    have hw := fmSmart_wf s (bestElimCandidate s (n + 1)) h (by omega)
    exact ih _ hw.1 (by rw [hw.2]; omega)

variable {K : Type*} [Field K] [LinearOrder K] [IsStrictOrderedRing K]

theorem elimMultipliers_sat (n : Nat) (s : Cst) (c : List K) (h : s.WF)
    (hn : s.ncols = c.length + 1 + n) :
    (elimMultipliers n s).Sat c ↔ ∃ lam : List K, lam.length = n ∧ s.Sat (c ++ lam) := by
  induction n generalizing s with
  | zero =>
    simp only [elimMultipliers]
    constructor
    · intro hs; exact ⟨[], rfl, by simpa using hs⟩
    · rintro ⟨l, hl, hs⟩
      rw [List.length_eq_zero_iff] at hl; subst hl; simpa using hs
  | succ n ih =>
    have hr := bestElimCandidate_range s (n + 1) (by omega) (by omega)
    simp only [elimMultipliers]
    generalize hpos : bestElimCandidate s (n + 1) = pos at *
    have hw := fmSmart_wf s pos h (by omega)
    rw [ih _ hw.1 (by rw [hw.2]; omega)]
    constructor
    · rintro ⟨lam, hl, hs⟩
      obtain ⟨v, hv⟩ := fmSmart_complete s pos (c ++ lam) h (by simp; omega) (by simp; omega) hs
      refine ⟨lam.insertIdx (pos - c.length) v, ?_, ?_⟩
      · rw [List.length_insertIdx, if_pos (by omega)]; omega
      · rw [insertIdx_append_right _ _ _ _ (by omega)] at hv
        exact hv
    · rintro ⟨lam, hl, hs⟩
      have hq : pos - c.length < lam.length := by omega
      refine ⟨lam.eraseIdx (pos - c.length), ?_, ?_⟩
      · rw [List.length_eraseIdx, if_pos hq]; omega
      · have hll : (lam.eraseIdx (pos - c.length)).length = n := by
          rw [List.length_eraseIdx, if_pos hq]; omega
        refine fmSmart_sound s pos (c ++ lam.eraseIdx (pos - c.length)) lam[pos - c.length] h
          (by simp [hll]; omega) (by simp [hll]; omega) ?_
        rw [insertIdx_append_right _ _ _ _ (by omega)]
        rw [insertIdx_eraseIdx_getElem _ _ hq]
        exact hs

/-- The pure-inequality domain extended by `1 >= 0`, as in `farkasSystem`. -/
def idomOf (dom : Cst) : Cst :=
  addCst (toPureIneq dom) ⟨dom.ncols, [⟨false, (List.replicate dom.ncols 0).set (dom.ncols - 1) 1⟩]⟩

theorem farkasSystem_eq (dom : Cst) (p : Nat) (phi : List (List Int)) :
    farkasSystem dom p phi =
      { ncols := p + (idomOf dom).rows.length
        rows :=
          phi.mapIdx (fun i f => (⟨true, f.take (p - 1) ++
            (idomOf dom).rows.map (fun r => -(coef r.val i)) ++ [coef f (p - 1)]⟩ : Row)) ++
          (List.range (idomOf dom).rows.length).map (fun j =>
            (⟨false, (List.replicate (p + (idomOf dom).rows.length) 0).set (p - 1 + j) 1⟩ : Row)) } := rfl

theorem idomOf_wf (dom : Cst) (h : dom.WF) : (idomOf dom).WF := by
  have := toPureIneq_wf dom h
  refine ⟨this.1, ?_⟩
  intro r hr
  unfold idomOf addCst at hr
  rcases List.mem_append.mp hr with hr | hr
  · exact this.2 r hr
  · simp at hr; subst hr; simp [idomOf, addCst, toPureIneq]

theorem farkasSystem_wf (dom : Cst) (p : Nat) (phi : List (List Int)) (hp : 1 ≤ p)
    (hphi : ∀ f ∈ phi, f.length = p) : (farkasSystem dom p phi).WF := by
  rw [farkasSystem_eq]
  refine ⟨by simp only; omega, ?_⟩
  intro r hr
  rcases List.mem_append.mp hr with hr | hr
  · obtain ⟨i, hi, rfl⟩ := List.mem_mapIdx.mp hr
    have := hphi _ (List.getElem_mem hi)
    simp [this]; omega
  · obtain ⟨j, hj, rfl⟩ := List.mem_map.mp hr
    simp

omit [LinearOrder K] [IsStrictOrderedRing K] in
theorem dot_unit (n j : Nat) (y : List K) :
    dot ((List.replicate n (0 : Int)).set j 1) y = if j < n then y.getD j 0 else 0 := by
  rw [dot_eq_ldot, List.map_set, List.map_replicate]
  simpa using ldot_unit n j y

omit [LinearOrder K] [IsStrictOrderedRing K] in
theorem dot_map_neg_coef (rows : List Row) (i : Nat) (lam : List K) :
    dot (rows.map (fun r => -(coef r.val i))) lam =
      - ldot lam (rows.map (fun r => ((coef r.val i : Int) : K))) := by
  induction rows generalizing lam with
  | nil => simp
  | cons r rs ih => cases lam with
    | nil => simp
    | cons l ls => simp [ih ls]; ring

/-- The multiplier system in words. -/
theorem farkasSystem_sat (dom : Cst) (p : Nat) (phi : List (List Int)) (c lam : List K)
    (hphi : ∀ f ∈ phi, f.length = p) (hc : c.length + 1 = p)
    (hl : lam.length = (idomOf dom).rows.length) :
    (farkasSystem dom p phi).Sat (c ++ lam) ↔
      (∀ i (hi : i < phi.length), aff phi[i] c =
        ldot lam ((idomOf dom).rows.map (fun r => ((coef r.val i : Int) : K)))) ∧
      ∀ l ∈ lam, 0 ≤ l := by
  rw [farkasSystem_eq]
  unfold Cst.Sat
  simp only [List.mem_append, or_imp, forall_and]
  refine and_congr ?_ ?_
  · constructor
    · intro hs i hi
      have := hs _ (List.mem_mapIdx.mpr ⟨i, hi, rfl⟩)
      simp only [Row.Sat, if_true] at this
      have hfl := hphi _ (List.getElem_mem hi)
      generalize phi[i] = f at *
      have hf : f = f.take (p - 1) ++ [coef f (p - 1)] := by
        have hn : p - 1 < f.length := by omega
        conv_lhs => rw [← List.take_append_drop (p - 1) f]
        congr 1
        rw [List.drop_eq_getElem_cons hn, List.drop_of_length_le (by omega)]
        simp [coef, List.getD_eq_getElem?_getD, hn]
      unfold aff at this ⊢
      rw [List.append_assoc, List.append_assoc, dot_append _ _ _ _ (by simp; omega),
        dot_append _ _ _ _ (by simp [hl]), dot_map_neg_coef] at this
      rw [hf, dot_append _ _ _ _ (by simp; omega)]
      simp only [dot_cons, mul_one, dot_nil_left, add_zero] at this ⊢
      linear_combination this
    · intro hs r hr
      obtain ⟨i, hi, rfl⟩ := List.mem_mapIdx.mp hr
      have := hs i hi
      simp only [Row.Sat, if_true]
      have hfl := hphi _ (List.getElem_mem hi)
      generalize phi[i] = f at *
      have hf : f = f.take (p - 1) ++ [coef f (p - 1)] := by
        have hn : p - 1 < f.length := by omega
        conv_lhs => rw [← List.take_append_drop (p - 1) f]
        congr 1
        rw [List.drop_eq_getElem_cons hn, List.drop_of_length_le (by omega)]
        simp [coef, List.getD_eq_getElem?_getD, hn]
      unfold aff at this ⊢
      rw [List.append_assoc, List.append_assoc, dot_append _ _ _ _ (by simp; omega),
        dot_append _ _ _ _ (by simp [hl]), dot_map_neg_coef]
      rw [hf, dot_append _ _ _ _ (by simp; omega)] at this
      simp only [dot_cons, mul_one, dot_nil_left, add_zero] at this ⊢
      linear_combination this
  · have key : ∀ j, j < lam.length →
        aff ((List.replicate (p + (idomOf dom).rows.length) 0).set (p - 1 + j) 1) (c ++ lam) =
          lam.getD j 0 := by
      intro j hj
      unfold aff
      rw [dot_unit, if_pos (by omega)]
      have : p - 1 + j = c.length + j := by omega
      rw [this, List.append_assoc]
      simp [List.getD_eq_getElem?_getD, List.getElem?_append_right, List.getElem?_append_left hj]
    constructor
    · intro hs l hlm
      obtain ⟨j, hj, rfl⟩ := List.getElem_of_mem hlm
      have := hs _ (List.mem_map.mpr ⟨j, List.mem_range.mpr (by omega), rfl⟩)
      simp only [Row.Sat, Bool.false_eq_true, if_false] at this
      rw [key j hj] at this
      simpa [List.getD_eq_getElem?_getD, hj] using this
    · intro hs r hr
      obtain ⟨j, hj, rfl⟩ := List.mem_map.mp hr
      rw [List.mem_range] at hj
      simp only [Row.Sat, Bool.false_eq_true, if_false]
      rw [key j (by omega)]
      have hj' : j < lam.length := by omega
      simpa [List.getD_eq_getElem?_getD, hj'] using hs _ (List.getElem_mem hj')

/-- weighted sum of rows -/
def wsum (n : Nat) : List K → List (List K) → List K
  | l :: ls, f :: fs => List.zipWith (· + ·) (f.map (l * ·)) (wsum n ls fs)
  | _, _ => List.replicate n 0

omit [LinearOrder K] [IsStrictOrderedRing K] in
theorem wsum_length (n : Nat) (lam : List K) (F : List (List K)) (h : ∀ f ∈ F, f.length = n) :
    (wsum n lam F).length = n := by
  induction lam generalizing F with
  | nil => simp [wsum]
  | cons l ls ih => cases F with
    | nil => simp [wsum]
    | cons f fs =>
      simp [wsum, h f (by simp), ih fs (fun f hf => h f (by simp [hf]))]

omit [LinearOrder K] [IsStrictOrderedRing K] in
theorem wsum_ldot (n : Nat) (lam : List K) (F : List (List K)) (h : ∀ f ∈ F, f.length = n)
    (y : List K) : ldot (wsum n lam F) y = ldot lam (F.map (fun f => ldot f y)) := by
  induction lam generalizing F with
  | nil => simp [wsum, ldot_zero_replicate]
  | cons l ls ih => cases F with
    | nil => simp [wsum, ldot_zero_replicate]
    | cons f fs =>
      have h' := fun g hg => h g (List.mem_cons_of_mem f hg)
      simp only [wsum]
      rw [ldot_zipWith_add _ _ _ (by simp [h f (by simp), wsum_length n ls fs h']), ldot_map_mul,
        ih fs h']
      simp

omit [LinearOrder K] [IsStrictOrderedRing K] in
theorem wsum_getD (n : Nat) (lam : List K) (F : List (List K)) (h : ∀ f ∈ F, f.length = n)
    (i : Nat) (hi : i < n) : (wsum n lam F).getD i 0 = ldot lam (F.map (fun f => f.getD i 0)) := by
  have e := wsum_ldot n lam F h ((List.replicate n 0).set i 1)
  rw [ldot_comm, ldot_unit, if_pos hi] at e
  rw [e]
  congr 1
  apply List.map_congr_left
  intro f hf
  rw [ldot_comm, ldot_unit, if_pos hi]

end Pluto
