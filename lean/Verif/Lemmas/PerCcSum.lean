import Verif.Lemmas.PerCcFind
import Verif.Lemmas.MatSum

/-! The constraint of the sum of the bounding functions, and the memory of `globcst`. -/

namespace Pluto

theorem setFold_coef (i : Nat) : ∀ (l : List Nat) (r : List Int) (k : Nat), k < r.length →
    (l.foldl (fun r j => r.set (j + i) (-1)) r).getD k 0 = if k - i ∈ l ∧ i ≤ k then -1 else r.getD k 0 := by
  intro l
  induction l with
  | nil => intro r k _; simp
  | cons j l ih =>
    intro r k hk
    rw [List.foldl_cons, ih _ k (by simpa using hk)]
    by_cases h : k - i ∈ l ∧ i ≤ k
    · rw [if_pos h, if_pos ⟨List.mem_cons_of_mem _ h.1, h.2⟩]
    · rw [if_neg h]
      by_cases h' : k = j + i
      · rw [if_pos ⟨by rw [h']; simp, by omega⟩, h', List.getD_eq_getElem?_getD, List.getElem?_set_self (by omega)]
        rfl
      · rw [if_neg, List.getD_eq_getElem?_getD, List.getElem?_set_ne (by omega), ← List.getD_eq_getElem?_getD]
        rintro ⟨h1, h2⟩
        rcases List.mem_cons.mp h1 with h1 | h1
        · omega
        · exact h ⟨h1, h2⟩

theorem objSum_aff (w ncc i : Nat) (x : List Int) (hx : x.length + 1 = w) (hw : i + ncc < x.length) :
    aff ((List.range' 1 ncc).foldl (fun r j => r.set (j + i) (-1)) ((zrow w).set i 1)) x =
      x.getD i 0 - ∑ j ∈ Finset.range ncc, x.getD (i + 1 + j) 0 := by
  have hl : ∀ (l : List Nat) (r : List Int), (l.foldl (fun r j => r.set (j + i) (-1)) r).length = r.length := by
    intro l
    induction l with
    | nil => intro r; rfl
    | cons j l ih => intro r; rw [List.foldl_cons, ih, List.length_set]
  have hz : (zrow w).length = w := by simp [zrow]
  unfold aff
  rw [dot_eq_sum _ _ w (by rw [hl, List.length_set, hz])]
  have hc : ∀ k < w, ((List.range' 1 ncc).foldl (fun r j => r.set (j + i) (-1)) ((zrow w).set i 1)).getD k 0 =
      if i < k ∧ k ≤ i + ncc then -1 else if k = i then 1 else 0 := by
    intro k hk
    rw [setFold_coef _ _ _ _ (by rw [List.length_set, hz]; exact hk)]
    have : (k - i ∈ List.range' 1 ncc ∧ i ≤ k) ↔ i < k ∧ k ≤ i + ncc := by
      rw [List.mem_range'_1]; omega
    simp only [this]
    split_ifs with h1 h2
    · rfl
    · rw [h2, List.getD_eq_getElem?_getD, List.getElem?_set_self (by omega)]; rfl
    · rw [List.getD_eq_getElem?_getD, List.getElem?_set_ne (by omega)]
      simp [zrow, List.getElem?_replicate, hk]
  have hs : ∑ k ∈ Finset.range w, ((coef ((List.range' 1 ncc).foldl (fun r j => r.set (j + i) (-1)) ((zrow w).set i 1)) k : Int) : Int) *
      (x ++ [1]).getD k 0 = ∑ k ∈ Finset.range w, (if i < k ∧ k ≤ i + ncc then -1 else if k = i then 1 else 0) * (x ++ [1]).getD k 0 := by
    refine Finset.sum_congr rfl fun k hk => ?_
    unfold coef
    rw [hc k (Finset.mem_range.mp hk)]
  refine hs.trans ?_
  obtain ⟨m, hm⟩ : ∃ m, w = i + 1 + ncc + m := ⟨w - (i + 1 + ncc), by omega⟩
  have hx' : ∀ k < x.length, (x ++ [1]).getD k 0 = x.getD k 0 := by
    intro k hk
    rw [List.getD_eq_getElem?_getD, List.getElem?_append_left hk, ← List.getD_eq_getElem?_getD]
  rw [hm, Finset.sum_range_add, Finset.sum_range_add, Finset.sum_range_succ]
  have e1 : ∑ k ∈ Finset.range i, (if i < k ∧ k ≤ i + ncc then (-1 : Int) else if k = i then 1 else 0) * (x ++ [1]).getD k 0 = 0 := by
    refine Finset.sum_eq_zero fun k hk => ?_
    have := Finset.mem_range.mp hk
    rw [if_neg (by omega), if_neg (by omega), zero_mul]
  have e2 : ∑ k ∈ Finset.range m, (if i < i + 1 + ncc + k ∧ i + 1 + ncc + k ≤ i + ncc then (-1 : Int) else if i + 1 + ncc + k = i then 1 else 0) *
      (x ++ [1]).getD (i + 1 + ncc + k) 0 = 0 := by
    refine Finset.sum_eq_zero fun k _ => ?_
    rw [if_neg (by omega), if_neg (by omega), zero_mul]
  have e3 : ∑ k ∈ Finset.range ncc, (if i < i + 1 + k ∧ i + 1 + k ≤ i + ncc then (-1 : Int) else if i + 1 + k = i then 1 else 0) *
      (x ++ [1]).getD (i + 1 + k) 0 = - ∑ j ∈ Finset.range ncc, x.getD (i + 1 + j) 0 := by
    rw [← Finset.sum_neg_distrib]
    refine Finset.sum_congr rfl fun k hk => ?_
    have := Finset.mem_range.mp hk
    rw [if_pos (by omega), hx' _ (by omega)]
    ring
  rw [e1, e2, e3, if_neg (by omega), if_pos rfl, hx' _ (by omega)]
  ring

/-- What the rows added by `get_per_cc_obj_sum_constraints` say. -/
theorem objSum_sat (p : Prog) (ncc : Nat) (sol : List Int) (hl : CcLen p ncc sol) (h1 : p.npar + 1 + ncc ≤ sol.length) :
    (objSumCst p ncc).Sat sol ↔ ∀ i ≤ p.npar, ∑ j ∈ Finset.range ncc, sol.getD (i + 1 + j) 0 ≤ sol.getD i 0 := by
  have hw : sol.length + 1 = ccExt p ncc + cstWidth p.nvar p.npar p.stmts.length := by
    rw [hl]; unfold ccExt cstWidth
    rw [Nat.mul_add]; omega
  unfold objSumCst Cst.Sat
  simp only [List.forall_mem_map, List.mem_range]
  refine forall_congr' fun i => ?_
  constructor
  · intro h hi
    have h2 : 0 ≤ aff _ sol := h (by omega)
    rw [objSum_aff _ _ _ _ hw (by omega)] at h2
    omega
  · intro h hi
    show 0 ≤ aff _ sol
    rw [objSum_aff _ _ _ _ hw (by omega)]
    have := h (by omega)
    omega

theorem addBuf_some {b : Nat × Nat} {g c : Cst} {w : Nat} (hg : Wid w g) (hc : Wid w c) (hb : w ≤ b.2) :
    ∃ b', addBuf b g c = some (b', addCst g c) ∧ w ≤ b'.2 := by
  unfold addBuf
  rw [if_neg (by rw [hg.1, hc.1]; simp)]
  split_ifs with h1 h2
  · exact ⟨_, rfl, by simp [hg.1]⟩
  · rw [hg.1] at h2; omega
  · exact ⟨_, rfl, hb⟩

/-- Enough columns are allocated: the constraints are built. -/
theorem permutabilityCc_some (rarOpt nodepbound : Bool) (p : Prog) {cc : Nat → Int} {ncc : Nat} (hcc : CcOK p cc ncc)
    (hd : ∀ d ∈ p.deps, d.src < p.stmts.length ∧ d.dest < p.stmts.length) (buf : Option (Nat × Nat))
    (hb : ∀ b, buf = some b → ccExt p ncc + cstWidth p.nvar p.npar p.stmts.length ≤ b.2) :
    ∃ b g, permutabilityCc rarOpt nodepbound p cc ncc buf = some (b, g) ∧
      ccExt p ncc + cstWidth p.nvar p.npar p.stmts.length ≤ b.2 := by
  have key : ∀ (ds : List Dep) (st : (Nat × Nat) × Cst × Nat), (∀ d ∈ ds, d.src < p.stmts.length ∧ d.dest < p.stmts.length) →
      Wid (ccExt p ncc + cstWidth p.nvar p.npar p.stmts.length) st.2.1 →
      ccExt p ncc + cstWidth p.nvar p.npar p.stmts.length ≤ st.1.2 →
      ∃ st', ds.foldlM (permStepCc rarOpt nodepbound p cc ncc) st = some st' ∧
        ccExt p ncc + cstWidth p.nvar p.npar p.stmts.length ≤ st'.1.2 := by
    intro ds
    induction ds with
    | nil => intro st _ _ hb; exact ⟨st, rfl, hb⟩
    | cons d ds ih =>
      intro st hd hw hb
      have hs : ∃ s1, permStepCc rarOpt nodepbound p cc ncc st d = some s1 ∧
          ccExt p ncc + cstWidth p.nvar p.npar p.stmts.length ≤ s1.1.2 := by
        unfold permStepCc
        by_cases hr : rarOpt = false ∧ d.rar = true
        · rw [if_pos hr]; exact ⟨st, rfl, hb⟩
        · rw [if_neg hr]
          cases d.satisfied with
          | true => exact ⟨st, rfl, hb⟩
          | false =>
            rw [if_neg (by simp)]
            obtain ⟨b', e, hb'⟩ := addBuf_some hw (depCstCc_wid nodepbound p hcc d (hd d (by simp)).1 (hd d (by simp)).2) hb
            simp only [e, Option.bind_eq_bind, Option.bind_some]
            split_ifs
            · exact ⟨_, rfl, hb'⟩
            · exact ⟨_, rfl, hb'⟩
      obtain ⟨s1, e1, b1⟩ := hs
      obtain ⟨s2, e2, b2⟩ := ih s1 (fun d' h' => hd d' (List.mem_cons_of_mem _ h'))
        (permStepCc_spec rarOpt nodepbound p hcc (hd d (by simp)).1 (hd d (by simp)).2 hw e1).1 b1
      exact ⟨s2, by rw [List.foldlM_cons, e1]; exact e2, b2⟩
  unfold permutabilityCc
  simp only
  generalize ((p.deps.filter (fun d => rarOpt || !d.rar)).map (fun d => (depCst nodepbound p d).rows.length)).sum = t
  have hb0 : ccExt p ncc + cstWidth p.nvar p.npar p.stmts.length ≤
      (buf.getD (t, ccExt p ncc + cstWidth p.nvar p.npar p.stmts.length)).2 := by
    cases h : buf with
    | none => exact Nat.le_refl _
    | some b => exact hb b h
  obtain ⟨st', e, hb'⟩ := key p.deps (buf.getD (t, ccExt p ncc + cstWidth p.nvar p.npar p.stmts.length), ⟨ccExt p ncc + cstWidth p.nvar p.npar p.stmts.length, []⟩, 0) hd ⟨rfl, by simp⟩ hb0
  rw [e]
  exact ⟨_, _, rfl, hb'⟩

end Pluto
