import Verif.Spec.Rank
import Verif.Lemmas.MatSum
import Verif.Lemmas.Elim
import Mathlib.LinearAlgebra.LinearIndependent.Lemmas
import Mathlib.LinearAlgebra.Dimension.StrongRankCondition

namespace Pluto

theorem mem_swapAt {α : Type} [Inhabited α] (l : List α) (i j : Nat) (hi : i < l.length)
    (hj : j < l.length) (v : α) : v ∈ swapAt l i j ↔ v ∈ l := by
  simp only [List.mem_iff_getElem?, swapAt_getElem? l i j hi hj]
  constructor
  · rintro ⟨n, h⟩
    split_ifs at h
    · exact ⟨_, h⟩
    · exact ⟨_, h⟩
    · exact ⟨_, h⟩
  · rintro ⟨n, h⟩
    by_cases h1 : n = i
    · exact ⟨j, by simp [← h1, h]⟩
    · by_cases h2 : n = j
      · by_cases h3 : i = j
        · exact ⟨n, by simp [h2, h3, ← h]⟩
        · exact ⟨i, by rw [if_neg h3, if_pos rfl, ← h2, h]⟩
      · exact ⟨n, by simp [h1, h2, h]⟩

theorem swapAt_append {α : Type} [Inhabited α] (a b : List α) (k : Nat) (h0 : 0 < b.length)
    (hk : k < b.length) :
    swapAt (a ++ b) a.length (a.length + k) = a ++ swapAt b 0 k := by
  apply List.ext_getElem?
  intro n
  rw [swapAt_getElem? _ _ _ (by simp; omega) (by simp; omega)]
  simp only [List.getElem?_append, swapAt_getElem? b 0 k h0 hk]
  ifs_idx

theorem mapIdx_append_gt {α : Type} (a b : List α) (x : α) (f : α → α) :
    (a ++ x :: b).mapIdx (fun k v => if a.length < k then f v else v) = a ++ x :: b.map f := by
  apply List.ext_getElem?
  intro n
  simp only [List.getElem?_mapIdx, List.getElem?_append]
  by_cases h : n < a.length
  · rw [if_pos h, if_pos h]
    rcases hn : a[n]? with _ | v
    · rfl
    · simp only [Option.map_some]; rw [if_neg (by omega)]
  · rw [if_neg h, if_neg h]
    rcases Nat.lt_or_ge a.length n with h2 | h2
    · obtain ⟨m, rfl⟩ : ∃ m, n = a.length + (m + 1) := ⟨n - a.length - 1, by omega⟩
      simp
    · have : n = a.length := by omega
      subst this; simp

/-- What one outer iteration does to the rows below the pivots found so far. -/
theorem echelonStep_spec (done : List (List Int)) (v : List Int) (tl : List (List Int)) (i : Nat) :
    (∃ piv tl', (∀ w, w ∈ piv :: tl' ↔ w ∈ v :: tl) ∧ tl'.length = tl.length ∧ coef piv i ≠ 0 ∧
      echelonStep (done ++ v :: tl, done.length) i =
        (done ++ piv :: tl'.map (echelonRow piv i), done.length + 1)) ∨
    ((∀ w ∈ v :: tl, coef w i = 0) ∧
      echelonStep (done ++ v :: tl, done.length) i = (done ++ v :: tl, done.length)) := by
  unfold echelonStep
  have e0 : (done ++ v :: tl)[done.length]?.getD default = v := by simp
  have e1 : (done ++ v :: tl).drop (done.length + 1) = tl := by simp
  simp only [e0, e1]
  by_cases hv : coef v i = 0
  · simp only [hv, if_true]
    rcases hf : tl.findIdx? (fun v => decide (coef v i ≠ 0)) with _ | k
    · right
      simp only [e0, hv, ne_eq, not_true_eq_false, if_false, and_true]
      rw [List.findIdx?_eq_none_iff] at hf
      intro w hw
      rcases List.mem_cons.mp hw with rfl | hw
      · exact hv
      · simpa using hf w hw
    · left
      rw [List.findIdx?_eq_some_iff_getElem] at hf
      obtain ⟨hk, hne, _⟩ := hf
      have hsw : swapAt (done ++ v :: tl) done.length (done.length + 1 + k) =
          done ++ swapAt (v :: tl) 0 (k + 1) := by
        have := swapAt_append done (v :: tl) (k + 1) (by simp) (by simp; omega)
        rw [← this]; congr 1; omega
      have hcons : ∃ tl', swapAt (v :: tl) 0 (k + 1) = tl[k] :: tl' := by
        rcases hs : swapAt (v :: tl) 0 (k + 1) with _ | ⟨a, tl'⟩
        · have := swapAt_length (v :: tl) 0 (k + 1)
          rw [hs] at this; simp at this
        · have := swapAt_getElem? (v :: tl) 0 (k + 1) (by simp) (by simp; omega) 0
          rw [hs] at this
          simp [hk] at this
          exact ⟨tl', by rw [this]⟩
      obtain ⟨tl', htl⟩ := hcons
      have hlen := swapAt_length (v :: tl) 0 (k + 1)
      refine ⟨tl[k], tl', ?_, ?_, by simpa using hne, ?_⟩
      · intro w
        rw [← htl]
        exact mem_swapAt _ _ _ (by simp) (by simp; omega) w
      · rw [htl] at hlen; simpa using hlen
      · simp only [hsw, htl]
        have e2 : (done ++ tl[k] :: tl')[done.length]?.getD default = tl[k] := by simp
        simp only [e2]
        rw [if_pos (by simpa using hne), mapIdx_append_gt]
  · left
    simp only [hv, if_false]
    refine ⟨v, tl, fun w => Iff.rfl, rfl, hv, ?_⟩
    simp only [e0]
    rw [if_pos hv, mapIdx_append_gt]

theorem clcm_div (a b : Int) (ha : a ≠ 0) (hb : b ≠ 0) :
    (clcm a b).tdiv a ≠ 0 ∧ (clcm a b).tdiv a * a = clcm a b ∧ (clcm a b).tdiv b * b = clcm a b := by
  have hab : a * b ≠ 0 := mul_ne_zero ha hb
  have e : (clcm a b).natAbs = Int.lcm a b := C01_lcm_natAbs a b
  have d1 : a ∣ clcm a b := by
    rw [← Int.natAbs_dvd_natAbs, e]; exact Nat.dvd_lcm_left _ _
  have d2 : b ∣ clcm a b := by
    rw [← Int.natAbs_dvd_natAbs, e]; exact Nat.dvd_lcm_right _ _
  have e1 := Int.tdiv_mul_cancel d1
  have e2 := Int.tdiv_mul_cancel d2
  refine ⟨?_, e1, e2⟩
  intro h0
  rw [h0, zero_mul] at e1
  rw [← e1] at e
  have h5 : Int.lcm a b ≠ 0 := by
    unfold Int.lcm
    exact Nat.lcm_ne_zero (by omega) (by omega)
  simp at e; omega

theorem coef_ge (v : List Int) (j : Nat) (h : v.length ≤ j) : coef v j = 0 := by
  simp [coef, List.getD_eq_getElem?_getD, List.getElem?_eq_none h]

theorem echelonRow_coef (piv v : List Int) (i : Nat) (hl : piv.length = v.length)
    (hz : ∀ j < i, coef piv j = 0) (hvz : ∀ j < i, coef v j = 0) (hi : coef piv i ≠ 0) :
    (echelonRow piv i v).length = v.length ∧ coef (echelonRow piv i v) i = 0 ∧
    ∃ f1 f2 : Int, f1 ≠ 0 ∧ ∀ j, coef (echelonRow piv i v) j = f1 * coef v j - f2 * coef piv j := by
  unfold echelonRow
  by_cases h : coef v i = 0
  · rw [if_pos h]
    exact ⟨rfl, h, 1, 0, by simp, by simp⟩
  · rw [if_neg h]
    obtain ⟨h1, h2, h3⟩ := clcm_div (coef v i) (coef piv i) h hi
    have key : ∀ j, coef (v.mapIdx (fun j a => if i ≤ j then
          a * (clcm (coef v i) (coef piv i)).tdiv (coef v i) -
            coef piv j * (clcm (coef v i) (coef piv i)).tdiv (coef piv i) else a)) j =
        (clcm (coef v i) (coef piv i)).tdiv (coef v i) * coef v j -
          (clcm (coef v i) (coef piv i)).tdiv (coef piv i) * coef piv j := by
      intro j
      by_cases hj : j < v.length
      · have e : coef v j = v[j] := by simp [coef, List.getD_eq_getElem?_getD, hj]
        have e' : ∀ w : List Int, coef w j = w[j]?.getD 0 := fun w => by
          simp [coef, List.getD_eq_getElem?_getD]
        rw [e' (List.mapIdx _ _), List.getElem?_mapIdx, List.getElem?_eq_getElem hj, Option.map_some,
          Option.getD_some]
        split
        · rw [e]; ring
        · rename_i hij
          rw [← e, hvz j (by omega), hz j (by omega)]; ring
      · rw [coef_ge v j (by omega), coef_ge piv j (by omega), coef_ge _ j (by simp; omega)]; ring
    refine ⟨by simp, ?_, _, _, h1, key⟩
    rw [key, h2, h3]; ring

theorem qvec_coef (n : Nat) (r : List Int) (j : Fin n) : qvec n r j = (coef r j : Int) := rfl

theorem rowSpace_congr (n : Nat) (a b : List (List Int)) (h : ∀ w, w ∈ a ↔ w ∈ b) :
    rowSpace n a = rowSpace n b := by
  unfold rowSpace
  congr 1
  ext v
  simp [h]

/-- Replacing rows by an invertible combination with the pivot row keeps the row space. -/
theorem rowSpace_elim (n : Nat) (done : List (List Int)) (piv : List Int) (tl : List (List Int))
    (f : List Int → List Int)
    (h : ∀ v ∈ tl, ∃ f1 f2 : Int, f1 ≠ 0 ∧ ∀ j, coef (f v) j = f1 * coef v j - f2 * coef piv j) :
    rowSpace n (done ++ piv :: tl.map f) = rowSpace n (done ++ piv :: tl) := by
  have hv : ∀ v ∈ tl, ∃ f1 f2 : ℚ, f1 ≠ 0 ∧ qvec n (f v) = f1 • qvec n v - f2 • qvec n piv := by
    intro v hv
    obtain ⟨f1, f2, h1, h2⟩ := h v hv
    refine ⟨f1, f2, by exact_mod_cast h1, ?_⟩
    funext j
    simp only [Pi.sub_apply, Pi.smul_apply, smul_eq_mul, qvec_coef, h2]
    push_cast; ring
  apply le_antisymm
  · apply Submodule.span_le.mpr
    rintro _ ⟨r, hr, rfl⟩
    rcases List.mem_append.mp hr with hr | hr
    · exact Submodule.subset_span ⟨r, List.mem_append_left _ hr, rfl⟩
    · rcases List.mem_cons.mp hr with rfl | hr
      · exact Submodule.subset_span ⟨r, by simp, rfl⟩
      · obtain ⟨v, hvm, rfl⟩ := List.mem_map.mp hr
        obtain ⟨f1, f2, _, e⟩ := hv v hvm
        rw [e]
        exact Submodule.sub_mem _
          (Submodule.smul_mem _ _ (Submodule.subset_span ⟨v, by simp [hvm], rfl⟩))
          (Submodule.smul_mem _ _ (Submodule.subset_span ⟨piv, by simp, rfl⟩))
  · apply Submodule.span_le.mpr
    rintro _ ⟨r, hr, rfl⟩
    rcases List.mem_append.mp hr with hr | hr
    · exact Submodule.subset_span ⟨r, List.mem_append_left _ hr, rfl⟩
    · rcases List.mem_cons.mp hr with rfl | hr
      · exact Submodule.subset_span ⟨r, by simp, rfl⟩
      · obtain ⟨f1, f2, hf, e⟩ := hv r hr
        have e' : qvec n r = f1⁻¹ • (qvec n (f r) + f2 • qvec n piv) := by
          rw [e, sub_add_cancel, smul_smul, inv_mul_cancel₀ hf, one_smul]
        rw [e']
        refine Submodule.smul_mem _ _ (Submodule.add_mem _ (Submodule.subset_span ⟨f r, ?_, rfl⟩)
          (Submodule.smul_mem _ _ (Submodule.subset_span ⟨piv, by simp, rfl⟩)))
        simp only [List.mem_append, List.mem_cons, List.mem_map]
        exact Or.inr (Or.inr ⟨r, hr, rfl⟩)

/-- Rows with strictly increasing leading positions. -/
def EchRows (rows : List (List Int)) (ps : List Nat) : Prop :=
  List.Forall₂ (fun r p => coef r p ≠ 0 ∧ ∀ j < p, coef r j = 0) rows ps ∧ ps.Pairwise (· < ·)

theorem EchRows.snoc {rows ps} (h : EchRows rows ps) (r : List Int) (p : Nat) (h1 : coef r p ≠ 0)
    (h2 : ∀ j < p, coef r j = 0) (h3 : ∀ q ∈ ps, q < p) : EchRows (rows ++ [r]) (ps ++ [p]) := by
  refine ⟨List.rel_append h.1 (by simp [h1]; exact h2), ?_⟩
  rw [List.pairwise_append]
  refine ⟨h.2, by simp, ?_⟩
  intro a ha b hb
  simp only [List.mem_singleton] at hb
  subst hb; exact h3 a ha

theorem EchRows.linInd (n : Nat) {rows ps} (h : EchRows rows ps) (hp : ∀ p ∈ ps, p < n) :
    LinearIndependent ℚ (fun i : Fin rows.length => qvec n rows[i]) := by
  obtain ⟨h1, h2⟩ := h
  induction h1 with
  | nil =>
    haveI : IsEmpty (Fin ([] : List (List Int)).length) := inferInstanceAs (IsEmpty (Fin 0))
    exact linearIndependent_empty_type
  | @cons r p rows ps hr hrest ih =>
    rw [List.pairwise_cons] at h2
    have ih' := ih (fun q hq => hp q (List.mem_cons_of_mem _ hq)) h2.2
    have e : (fun i : Fin (r :: rows).length => qvec n (r :: rows)[i]) =
        Fin.cons (qvec n r) (fun i : Fin rows.length => qvec n rows[i]) := by
      funext i
      refine Fin.cases ?_ (fun i => ?_) i
      · rfl
      · rfl
    rw [e]
    refine linearIndependent_finCons.mpr ⟨ih', ?_⟩
    intro hmem
    have hpn : p < n := hp p (by simp)
    have : ∀ w ∈ Submodule.span ℚ (Set.range (fun i : Fin rows.length => qvec n rows[i])),
        w ⟨p, hpn⟩ = 0 := by
      intro w hw
      induction hw using Submodule.span_induction with
      | mem x hx =>
        obtain ⟨i, rfl⟩ := hx
        have hlen := hrest.length_eq
        have hg := hrest.get i.isLt (by omega)
        simp only [qvec_coef, Int.cast_eq_zero]
        exact hg.2 p (h2.1 _ (List.get_mem _ _))
      | zero => rfl
      | add x y _ _ hx hy => simp [hx, hy]
      | smul a x _ hx => simp [hx]
    have h0 := this _ hmem
    rw [qvec_coef] at h0
    exact hr.1 (by exact_mod_cast h0)

theorem rowRank_ech (n : Nat) {rows ps} (zs : List (List Int)) (h : EchRows rows ps)
    (hp : ∀ p ∈ ps, p < n) (hz : ∀ v ∈ zs, ∀ a ∈ v, a = 0) : rowRank n (rows ++ zs) = rows.length := by
  have e : rowSpace n (rows ++ zs) =
      Submodule.span ℚ (Set.range (fun i : Fin rows.length => qvec n rows[i])) := by
    apply le_antisymm
    · apply Submodule.span_le.mpr
      rintro _ ⟨r, hr, rfl⟩
      rcases List.mem_append.mp hr with hr | hr
      · obtain ⟨i, hi, rfl⟩ := List.mem_iff_getElem.mp hr
        exact Submodule.subset_span ⟨⟨i, hi⟩, rfl⟩
      · have : qvec n r = 0 := by
          funext j
          rw [qvec_coef]
          by_cases hj : (j : Nat) < r.length
          · have := hz r hr _ (List.getElem_mem hj)
            simp [coef, List.getD_eq_getElem?_getD, hj, this]
          · simp [coef_ge r j (by omega)]
        rw [this]; exact Submodule.zero_mem _
    · apply Submodule.span_le.mpr
      rintro _ ⟨i, rfl⟩
      exact Submodule.subset_span ⟨rows[i], by simp, rfl⟩
  unfold rowRank
  rw [e, finrank_span_eq_card (h.linInd n hp)]
  simp

/-- Invariant of the outer loop before column `i`. -/
structure EchInv (n N : Nat) (rows0 : List (List Int)) (i : Nat) (st : List (List Int) × Nat) : Prop where
  len : st.1.length = N
  wf : ∀ r ∈ st.1, r.length = n
  space : rowSpace n st.1 = rowSpace n rows0
  le : st.2 ≤ i
  ech : ∃ done rest ps, st.1 = done ++ rest ∧ done.length = st.2 ∧ EchRows done ps ∧
    (∀ p ∈ ps, p < i) ∧ ∀ v ∈ rest, ∀ j < i, coef v j = 0

theorem EchInv.step {n N rows0 i st} (h : EchInv n N rows0 i st) (hi : i < N) :
    EchInv n N rows0 (i + 1) (echelonStep st i) := by
  obtain ⟨hl, hw, hs, hle, done, rest, ps, e1, e2, he, hps, hz⟩ := h
  obtain ⟨rows, r⟩ := st
  simp only at hl hw hs hle e1 e2
  subst e1 e2
  rcases rest with _ | ⟨v, tl⟩
  · simp at hl; omega
  · rcases echelonStep_spec done v tl i with ⟨piv, tl', hm, htl, hne, e⟩ | ⟨hall, e⟩
    · rw [e]
      have hpw : piv.length = n := hw _ (by
        have := (hm piv).mp (by simp); exact List.mem_append_right _ this)
      have hpz : ∀ j < i, coef piv j = 0 := hz _ ((hm piv).mp (by simp))
      have hrow : ∀ v ∈ tl', v.length = n ∧ ∀ j < i, coef v j = 0 := fun v hv => by
        have := (hm v).mp (List.mem_cons_of_mem _ hv)
        exact ⟨hw _ (List.mem_append_right _ this), hz _ this⟩
      have hc : ∀ v ∈ tl', _ := fun v hv => echelonRow_coef piv v i (by rw [hpw, (hrow v hv).1]) hpz
        (hrow v hv).2 hne
      refine ⟨?_, ?_, ?_, by simp only; omega, done ++ [piv], tl'.map (echelonRow piv i), ps ++ [i], by simp, by simp,
        he.snoc piv i hne hpz hps, ?_, ?_⟩
      · simp only [List.length_append, List.length_cons, List.length_map, htl] at hl ⊢; exact hl
      · intro r hr
        rcases List.mem_append.mp hr with hr | hr
        · exact hw r (List.mem_append_left _ hr)
        · rcases List.mem_cons.mp hr with rfl | hr
          · exact hpw
          · obtain ⟨v, hv, rfl⟩ := List.mem_map.mp hr
            rw [(hc v hv).1]; exact (hrow v hv).1
      · simp only
        rw [rowSpace_elim n done piv tl' _ (fun v hv => (hc v hv).2.2), ← hs]
        apply rowSpace_congr
        intro w
        simp only [List.mem_append, hm]
      · intro p hp
        rcases List.mem_append.mp hp with hp | hp
        · have := hps p hp; omega
        · simp at hp; omega
      · intro w hw j hj
        obtain ⟨v, hv, rfl⟩ := List.mem_map.mp hw
        rcases Nat.lt_or_ge j i with h' | h'
        · obtain ⟨f1, f2, _, hf⟩ := (hc v hv).2.2
          rw [hf, (hrow v hv).2 j h', hpz j h']; ring
        · have : j = i := by omega
          subst this; exact (hc v hv).2.1
    · rw [e]
      refine ⟨hl, hw, hs, by simp only; omega, done, v :: tl, ps, rfl, rfl, he, fun p hp => ?_, ?_⟩
      · have := hps p hp; omega
      · intro w hw' j hj
        rcases Nat.lt_or_ge j i with h' | h'
        · exact hz w hw' j h'
        · have : j = i := by omega
          subst this; exact hall w hw'

theorem echelon_inv (m : Mat) (hm : m.WF) (k : Nat) (hk : k ≤ m.rows.length) :
    EchInv m.ncols m.rows.length m.rows k ((List.range k).foldl echelonStep (m.rows, 0)) := by
  induction k with
  | zero =>
    exact ⟨rfl, hm, rfl, le_rfl, [], m.rows, [], rfl, rfl, ⟨List.Forall₂.nil, List.Pairwise.nil⟩,
      by simp, by intro v _ j hj; omega⟩
  | succ k ih =>
    rw [List.range_succ, List.foldl_append]
    exact (ih (by omega)).step (by omega)

/-- Number of non-zero rows, as counted by the C loop. -/
theorem nonzero_count (rows : List (List Int)) :
    rows.length - rows.countP (fun r => decide (r.foldl (fun s a => s + llabs a) 0 = 0)) =
      rows.countP (fun r => decide (∃ a ∈ r, a ≠ 0)) := by
  induction rows with
  | nil => rfl
  | cons r rows ih =>
    have hle := List.countP_le_length (p := fun r : List Int => decide (r.foldl (fun s a => s + llabs a) 0 = 0)) (l := rows)
    have := foldl_llabs_zero r 0 le_rfl
    simp only [true_and] at this
    rw [List.countP_cons, List.countP_cons, ← ih]
    by_cases h : ∀ a ∈ r, a = 0
    · have h' : ¬ ∃ a ∈ r, a ≠ 0 := by push Not; exact h
      simp only [this.mpr h, h', decide_true, decide_false, if_true, List.length_cons]
      simp
    · have h' : ∃ a ∈ r, a ≠ 0 := by push Not at h; exact h
      have h'' : ¬ r.foldl (fun s a => s + llabs a) 0 = 0 := fun hh => h (this.mp hh)
      simp only [h'', h', decide_true, decide_false, if_true, List.length_cons]
      simp
      omega

end Pluto
