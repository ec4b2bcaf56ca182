import Verif.Spec.PerCc
import Verif.Lemmas.AutoFind
import Verif.Lemmas.CstEdit
import Verif.Lemmas.Dims

/-! Systems with the columns of `--per-cc-obj`. -/

namespace Pluto

/-! ### Exchange of blocks of columns -/

theorem swapIdx_length (l : List Int) (i j : Nat) : (swapIdx l i j).length = l.length := by simp [swapIdx]

/-- The columns `S + j` and `T + j`, `j < n`, exchanged. -/
def swapBlock (S T n : Nat) (l : List Int) : List Int :=
  (List.range n).foldl (fun l j => if S + j = T + j then l else swapIdx l (S + j) (T + j)) l

theorem swapBlock_succ (S T n : Nat) (l : List Int) : swapBlock S T (n + 1) l =
    if S + n = T + n then swapBlock S T n l else swapIdx (swapBlock S T n l) (S + n) (T + n) := by
  unfold swapBlock
  rw [List.range_succ, List.foldl_append]
  rfl

theorem swapBlock_length (S T n : Nat) (l : List Int) : (swapBlock S T n l).length = l.length := by
  induction n with
  | zero => rfl
  | succ n ih =>
    rw [swapBlock_succ]
    split_ifs
    · exact ih
    · rw [swapIdx_length, ih]

theorem swapBlock_same (S n : Nat) (l : List Int) : swapBlock S S n l = l := by
  induction n with
  | zero => rfl
  | succ n ih => rw [swapBlock_succ, if_pos rfl, ih]

theorem swapBlock_coef (S T : Nat) (l : List Int) (n : Nat) (h1 : T + n ≤ S) (h2 : S + n ≤ l.length) (k : Nat) :
    coef (swapBlock S T n l) k = coef l (if T ≤ k ∧ k < T + n then S + (k - T) else if S ≤ k ∧ k < S + n then T + (k - S) else k) := by
  induction n generalizing k with
  | zero =>
    have e1 : ¬ (T ≤ k ∧ k < T + 0) := by omega
    have e2 : ¬ (S ≤ k ∧ k < S + 0) := by omega
    rw [if_neg e1, if_neg e2]
    rfl
  | succ n ih =>
    have hlen := swapBlock_length S T n l
    rw [swapBlock_succ, if_neg (by omega), coef_swapIdx _ _ _ _ (by omega) (by omega)]
    by_cases hS : k = S + n
    · rw [if_pos hS, ih (by omega) (by omega), if_neg (by omega), if_neg (by omega), if_neg (by omega), if_pos (by omega)]
      congr 1; omega
    · rw [if_neg hS]
      by_cases hT : k = T + n
      · rw [if_pos hT, ih (by omega) (by omega), if_neg (by omega), if_neg (by omega), if_pos (by omega)]
        congr 1; omega
      · rw [if_neg hT, ih (by omega) (by omega)]
        congr 1
        split_ifs <;> omega

theorem ext_coef (a b : List Int) (hl : a.length = b.length) (h : ∀ k < a.length, coef a k = coef b k) : a = b := by
  apply List.ext_getElem hl
  intro k h1 h2
  have := h k h1
  unfold coef at this
  rw [List.getD_eq_getElem?_getD, List.getD_eq_getElem?_getD, List.getElem?_eq_getElem h1, List.getElem?_eq_getElem h2] at this
  exact this

theorem coef_append (a b : List Int) (k : Nat) : coef (a ++ b) k = if k < a.length then coef a k else coef b (k - a.length) := by
  unfold coef
  simp only [List.getD_eq_getElem?_getD]
  by_cases h : k < a.length
  · rw [if_pos h, List.getElem?_append_left h]
  · rw [if_neg h, List.getElem?_append_right (by omega)]

theorem coef_take (a : List Int) (n k : Nat) (h : k < n) : coef (a.take n) k = coef a k := by
  unfold coef
  simp only [List.getD_eq_getElem?_getD, List.getElem?_take, if_pos h]

theorem coef_drop (a : List Int) (n k : Nat) : coef (a.drop n) k = coef a (n + k) := by
  unfold coef
  simp only [List.getD_eq_getElem?_getD, List.getElem?_drop]

/-- The row of a dependence in the layout with components. -/
theorem swapBlock_row (n a b : Nat) (r : List Int) (hr : n ≤ r.length) :
    swapBlock (a + b) a n (zrow (a + b) ++ r) = if b = 0 then zrow a ++ r
      else if n ≤ b then zrow a ++ (r.take n ++ (zrow b ++ r.drop n)) else swapBlock (a + b) a n (zrow (a + b) ++ r) := by
  by_cases hb : b = 0
  · subst hb
    rw [if_pos rfl, Nat.add_zero, swapBlock_same]
  · rw [if_neg hb]
    split_ifs with hn
    · have hz : ∀ m, (zrow m).length = m := fun m => by simp [zrow]
      have e1 : (r.take n).length = n := by simp; omega
      have e2 : (r.drop n).length = r.length - n := by simp
      apply ext_coef
      · rw [swapBlock_length]
        simp only [List.length_append, hz, e1, e2]
        omega
      · intro k hk
        rw [swapBlock_length, List.length_append, hz] at hk
        rw [swapBlock_coef _ _ _ _ (by omega) (by rw [List.length_append, hz]; omega)]
        simp only [coef_append, hz, e1, coef_zrow, coef_drop]
        by_cases c1 : k < a
        · rw [if_neg (show ¬ (a ≤ k ∧ k < a + n) by omega), if_neg (show ¬ (a + b ≤ k ∧ k < a + b + n) by omega), if_pos (by omega),
            if_pos c1]
        · rw [if_neg c1]
          by_cases c2 : k < a + n
          · rw [if_pos (show a ≤ k ∧ k < a + n by omega), if_neg (by omega), if_pos (show k - a < n by omega), coef_take _ _ _ (by omega)]
            congr 1; omega
          · rw [if_neg (show ¬ (a ≤ k ∧ k < a + n) by omega), if_neg (show ¬ k - a < n by omega)]
            by_cases c3 : k < a + n + b
            · rw [if_pos (show k - a - n < b by omega)]
              by_cases c4 : a + b ≤ k ∧ k < a + b + n
              · rw [if_pos c4, if_pos (by omega)]
              · rw [if_neg c4, if_pos (by omega)]
            · rw [if_neg (show ¬ k - a - n < b by omega), if_neg (show ¬ (a + b ≤ k ∧ k < a + b + n) by omega), if_neg (by omega)]
              congr 1; omega
    · rfl

theorem addLeading_widen (c : Cst) (n : Nat) : addLeadingDims c n = widenCst n c := by
  induction n generalizing c with
  | zero =>
    simp [addLeadingDims, widenCst, mapRows, zrow]
  | succ n ih =>
    rw [addLeadingDims, ih]
    simp only [widenCst, mapRows, addDim, List.map_map, Cst.mk.injEq]
    refine ⟨by omega, ?_⟩
    apply List.map_congr_left
    intro r _
    simp only [Function.comp, List.insertIdx_zero, Row.mk.injEq, true_and]
    rw [zrow, zrow, List.replicate_succ', List.append_assoc]
    rfl

theorem interchange_block (c : Cst) (S T n : Nat) :
    (List.range n).foldl (fun c j => interchangeCols c (S + j) (T + j)) c =
      { c with rows := c.rows.map (fun r => { r with val := swapBlock S T n r.val }) } := by
  induction n with
  | zero => simp [swapBlock]
  | succ n ih =>
    rw [List.range_succ, List.foldl_append, ih]
    simp only [List.foldl_cons, List.foldl_nil, interchangeCols]
    split_ifs with h
    · simp only [swapBlock_succ, if_pos h]
    · simp only [swapBlock_succ, if_neg h, List.map_map]
      rfl

/-- The row `r` in the layout with components. -/
def ccRow (p : Prog) (ncc c : Nat) (r : List Int) : List Int :=
  zrow ((p.npar + 1) * (c + 1)) ++ (r.take (p.npar + 1) ++ (zrow ((p.npar + 1) * (ncc - 1 - c)) ++ r.drop (p.npar + 1)))

/-- The rows of a dependence in the layout with components. -/
theorem depCstCc_eq (nodepbound : Bool) (p : Prog) (cc : Nat → Int) (ncc c : Nat) (d : Dep) (h1 : d.src < p.stmts.length)
    (h2 : d.dest < p.stmts.length) (hc : cc d.src = c) (hlt : c < ncc) :
    depCstCc nodepbound p cc ncc d = ⟨ccExt p ncc + cstWidth p.nvar p.npar p.stmts.length,
      (depCst nodepbound p d).rows.map (fun r => { r with val := ccRow p ncc c r.val })⟩ := by
  obtain ⟨hw, hn⟩ := depCst_wf nodepbound p d h1 h2
  unfold depCstCc
  rw [addLeading_widen]
  have hT : p.npar + 1 + (p.npar + 1) * (cc d.src).toNat = (p.npar + 1) * (c + 1) := by
    rw [hc, Int.toNat_natCast]; ring
  rw [hT, interchange_block]
  have hS : ccExt p ncc = (p.npar + 1) * (c + 1) + (p.npar + 1) * (ncc - 1 - c) := by
    unfold ccExt
    rw [← Nat.mul_add]
    congr 1; omega
  simp only [widenCst, mapRows, List.map_map, Cst.mk.injEq]
  refine ⟨by rw [hn], ?_⟩
  apply List.map_congr_left
  intro r hr
  simp only [Function.comp, Row.mk.injEq, true_and]
  have hl : p.npar + 1 ≤ r.val.length := by
    rw [hw.2 r hr, hn]; unfold cstWidth; omega
  rw [hS, swapBlock_row _ _ _ _ hl]
  unfold ccRow
  by_cases hb : (p.npar + 1) * (ncc - 1 - c) = 0
  · rw [if_pos hb, hb]
    simp [zrow]
  · rw [if_neg hb, if_pos]
    rcases Nat.eq_zero_or_pos (ncc - 1 - c) with h0 | h0
    · rw [h0] at hb; simp at hb
    · exact Nat.le_mul_of_pos_right _ h0

theorem ccLen_ge {p : Prog} {ncc : Nat} {sol : List Int} (hl : CcLen p ncc sol) {c : Nat} (hc : c < ncc) :
    (p.npar + 1) * (c + 1) + (p.npar + 1) + (p.npar + 1) * (ncc - 1 - c) = (p.npar + 1) * (ncc + 1) ∧
      (p.npar + 1) * (ncc + 1) ≤ sol.length := by
  refine ⟨?_, by rw [hl]; omega⟩
  have : ncc = c + 1 + (ncc - 1 - c) := by omega
  generalize ncc - 1 - c = e at *
  subst this
  ring

theorem ccPart_len {p : Prog} {ncc : Nat} {sol : List Int} (hl : CcLen p ncc sol) {c : Nat} (hc : c < ncc) :
    SolLen p (ccPart p ncc c sol) := by
  obtain ⟨h1, h2⟩ := ccLen_ge hl hc
  show (ccPart p ncc c sol).length = _
  unfold ccPart
  rw [List.length_append, List.length_take, List.length_drop, List.length_drop, hl]
  rw [hl] at h2
  omega

theorem aff_blocks (n a b : Nat) (r x : List Int) (hr : n ≤ r.length) (hx : a + n + b ≤ x.length) :
    aff (zrow a ++ (r.take n ++ (zrow b ++ r.drop n))) x = aff r ((x.drop a).take n ++ x.drop (a + n + b)) := by
  have hz : ∀ m, (zrow m).length = m := fun m => by simp [zrow]
  have e : x = x.take a ++ ((x.drop a).take n ++ ((x.drop (a + n)).take b ++ x.drop (a + n + b))) := by
    conv_lhs => rw [← List.take_append_drop a x, ← List.take_append_drop n (x.drop a), List.drop_drop,
      ← List.take_append_drop b (x.drop (a + n)), List.drop_drop]
  have l1 : (x.take a).length = a := by simp; omega
  have l2 : ((x.drop a).take n).length = n := by simp; omega
  have l3 : ((x.drop (a + n)).take b).length = b := by simp; omega
  have l4 : (r.take n).length = n := by simp; omega
  conv_lhs => rw [e]
  conv_rhs => rw [← List.take_append_drop n r]
  unfold aff
  simp only [List.append_assoc]
  rw [dot_append _ _ _ _ (by rw [hz, l1]), dot_append _ _ _ _ (by rw [l4, l2]), dot_append _ _ _ _ (by rw [hz, l3]),
    dot_append _ _ _ _ (by rw [l4, l2]), dot_zrow, dot_zrow]
  simp

theorem depCstCc_sat (nodepbound : Bool) (p : Prog) (cc : Nat → Int) (ncc c : Nat) (d : Dep) (h1 : d.src < p.stmts.length)
    (h2 : d.dest < p.stmts.length) (hc : cc d.src = c) (hlt : c < ncc) (sol : List Int) (hl : CcLen p ncc sol) :
    (depCstCc nodepbound p cc ncc d).Sat sol ↔ (depCst nodepbound p d).Sat (ccPart p ncc c sol) := by
  obtain ⟨hw, hn⟩ := depCst_wf nodepbound p d h1 h2
  obtain ⟨g1, g2⟩ := ccLen_ge hl hlt
  rw [depCstCc_eq nodepbound p cc ncc c d h1 h2 hc hlt]
  unfold Cst.Sat
  rw [List.forall_mem_map]
  refine forall_congr' fun r => forall_congr' fun hr => ?_
  have hrl : p.npar + 1 ≤ r.val.length := by
    rw [hw.2 r hr, hn]; unfold cstWidth; omega
  have := aff_blocks (p.npar + 1) ((p.npar + 1) * (c + 1)) ((p.npar + 1) * (ncc - 1 - c)) r.val sol hrl (by omega)
  rw [g1] at this
  unfold Row.Sat
  show (if r.eq then aff (ccRow p ncc c r.val) sol = 0 else 0 ≤ aff (ccRow p ncc c r.val) sol) ↔ _
  rw [show aff (ccRow p ncc c r.val) sol = _ from this]
  rfl

end Pluto
