import Verif.Spec.Bounds
import Verif.Model.Bounds
import Verif.Props.Elim
import Verif.Lemmas.CstEdit
import Mathlib.Data.List.Nodup
import Mathlib.Order.Interval.Finset.Basic
import Mathlib.Data.Int.Interval

/-!
C30 (constant bounds of a dimension) and C31 (constant extent of a dimension).
-/

namespace Pluto

/-! A projection as required exists: Fourier-Motzkin elimination of one variable after the other. -/

def fmProj (c : Cst) (start : Nat) : Nat → Cst
  | 0 => c
  | n + 1 => fmProj (fmEliminate c start) start n

theorem fmProj_ok : ProjOracle fmProj := by
  intro c A B C hc hn
  induction B generalizing c with
  | nil => simp [fmProj, hc, hn]
  | cons b bs ih =>
    simp only [List.length_cons] at hn ⊢
    have hs := C03_fm_shape c A.length hc (by omega)
    have := ih (fmEliminate c A.length) hs.1 (by rw [hs.2]; omega)
    refine ⟨this.1, this.2.1, fun h => this.2.2 ?_⟩
    refine C03_fm_sound c A.length (A ++ bs ++ C) b hc (by simp; omega) (by simp) ?_
    have e : (A ++ bs ++ C).insertIdx A.length b = A ++ (b :: bs) ++ C := by
      rw [List.append_assoc, insertIdx_mid _ _ _ _ rfl]; simp
    rw [e]; exact h

/-! ### C30 -/

theorem project_to_one {proj : Cst → Nat → Nat → Cst} (hP : ProjOracle proj) (c : Cst) (hc : c.WF)
    (A C : List Int) (v : Int) (hn : c.ncols = A.length + 1 + C.length + 1) (hs : c.Sat (A ++ v :: C)) :
    ((projectOutSingle proj (projectOutSingle proj c 0 A.length) 1
      ((projectOutSingle proj c 0 A.length).ncols - 2))).WF ∧
    ((projectOutSingle proj (projectOutSingle proj c 0 A.length) 1
      ((projectOutSingle proj c 0 A.length).ncols - 2))).ncols = 2 ∧
    (projectOutSingle proj (projectOutSingle proj c 0 A.length) 1
      ((projectOutSingle proj c 0 A.length).ncols - 2)).Sat [v] := by
  have h1 : (projectOutSingle proj c 0 A.length).WF ∧
      (projectOutSingle proj c 0 A.length).ncols = C.length + 2 ∧
      (projectOutSingle proj c 0 A.length).Sat (v :: C) := by
    unfold projectOutSingle
    split_ifs with h
    · have := List.length_eq_zero_iff.mp h; subst this
      refine ⟨hc, by simp at hn; omega, by simpa using hs⟩
    · have := hP c [] A (v :: C) hc (by simp; omega)
      refine ⟨this.1, by rw [show (0 : Nat) = ([] : List Int).length from rfl, this.2.1]; simp, ?_⟩
      exact this.2.2 (by simpa using hs)
  generalize projectOutSingle proj c 0 A.length = c1 at h1 ⊢
  rw [h1.2.1, show C.length + 2 - 2 = C.length by omega]
  unfold projectOutSingle
  split_ifs with h
  · have := List.length_eq_zero_iff.mp h; subst this
    exact ⟨h1.1, by rw [h1.2.1]; rfl, h1.2.2⟩
  · have := hP c1 [v] C [] h1.1 (by rw [h1.2.1]; simp; omega)
    exact ⟨this.1, this.2.1, this.2.2 (by simpa using h1.2.2)⟩

/-- Row of a projected system for which the reported lower bound is right: an inequality whose
coefficient is 1 or, if larger, whose constant is not negative; and the bound does not fall below
`INT_MIN`. -/
def LbOK (r : Row) : Prop :=
  r.eq = false ∧ (1 ≤ coef r.val 0 → (coef r.val 0 = 1 ∨ 0 ≤ coef r.val 1) ∧ coef r.val 1 ≤ 2147483648)

/-- The same for upper bounds. -/
def UbOK (r : Row) : Prop :=
  r.eq = false ∧ (coef r.val 0 ≤ -1 → coef r.val 0 = -1 ∨ 0 ≤ coef r.val 1)

instance (r : Row) : Decidable (LbOK r) := by unfold LbOK; infer_instance
instance (r : Row) : Decidable (UbOK r) := by unfold UbOK; infer_instance

theorem row_two {r : List Int} (h : r.length = 2) : r = [coef r 0, coef r 1] ∧ r.getLastD 0 = coef r 1 := by
  match r, h with
  | [a, b], _ => simp [coef]

theorem lbLoop_le (rows : List Row) (v : Int) (hw : ∀ r ∈ rows, r.val.length = 2) (hok : ∀ r ∈ rows, LbOK r)
    (hs : ∀ r ∈ rows, r.Sat [v]) (lb lb' : Int) (ret : Bool)
    (hi : ret = true → lb ≤ v) (h0 : ret = false → lb = cIntMin)
    (h : lbLoop rows (lb, ret) = (lb', true)) : lb' ≤ v := by
  induction rows generalizing lb ret with
  | nil => simp only [lbLoop, Prod.mk.injEq] at h; obtain ⟨rfl, h⟩ := h; exact hi h
  | cons r rs ih =>
    have hr := hok r (by simp)
    have hv := hs r (by simp)
    have ih' := ih (fun q hq => hw q (by simp [hq])) (fun q hq => hok q (by simp [hq]))
      (fun q hq => hs q (by simp [hq]))
    have h2 := row_two (hw r (by simp))
    simp only [lbLoop, hr.1, Bool.false_eq_true, if_false] at h
    split_ifs at h with hc
    · have h3 := hr.2 hc
      have hx : 0 ≤ coef r.val 0 * v + coef r.val 1 := by
        simp only [Row.Sat, hr.1, Bool.false_eq_true, if_false] at hv
        rw [h2.1] at hv
        simp only [aff, dot, List.cons_append, List.nil_append, Int.cast_id] at hv
        linarith
      have hle : -(coef r.val 1) ≤ v := by
        rcases h3.1 with h4 | h4
        · rw [h4] at hx; linarith
        · by_contra hlt
          push Not at hlt
          have : coef r.val 0 * v ≤ 1 * v := by nlinarith
          linarith
      refine ih' _ true (fun _ => ?_) (by simp) h
      rw [h2.2]
      refine max_le ?_ hle
      cases ret with
      | true => exact hi rfl
      | false => rw [h0 rfl]; unfold cIntMin; linarith [h3.2]
    · exact ih' _ _ hi h0 h

theorem ubLoop_le (rows : List Row) (v : Int) (hw : ∀ r ∈ rows, r.val.length = 2)
    (hok : ∀ r ∈ rows, UbOK r) (hs : ∀ r ∈ rows, r.Sat [v]) (ub ub' : Int) (ret : Bool)
    (hi : v ≤ ub) (h : ubLoop rows (ub, ret) = (ub', true)) : v ≤ ub' := by
  induction rows generalizing ub ret with
  | nil => simp only [ubLoop, Prod.mk.injEq] at h; obtain ⟨rfl, h⟩ := h; exact hi
  | cons r rs ih =>
    have hr := hok r (by simp)
    have hv := hs r (by simp)
    have ih' := ih (fun q hq => hw q (by simp [hq])) (fun q hq => hok q (by simp [hq]))
      (fun q hq => hs q (by simp [hq]))
    have h2 := row_two (hw r (by simp))
    simp only [ubLoop, hr.1, Bool.false_eq_true, if_false] at h
    split_ifs at h with hc
    · have h3 := hr.2 hc
      have hx : 0 ≤ coef r.val 0 * v + coef r.val 1 := by
        simp only [Row.Sat, hr.1, Bool.false_eq_true, if_false] at hv
        rw [h2.1] at hv
        simp only [aff, dot, List.cons_append, List.nil_append, Int.cast_id] at hv
        linarith
      refine ih' _ true ?_ h
      rw [h2.2]
      refine le_min hi ?_
      rcases h3 with h4 | h4
      · rw [h4] at hx; linarith
      · by_contra hlt
        push Not at hlt
        have : coef r.val 0 * v ≤ -1 * v := by nlinarith
        linarith
    · exact ih' _ _ hi h

/-- The system whose rows the functions inspect. -/
def projected (proj : Cst → Nat → Nat → Cst) (pos : Nat) (c : Cst) : Cst :=
  let c1 := projectOutSingle proj c 0 pos
  projectOutSingle proj c1 1 (c1.ncols - 2)

/-- C30. A reported lower bound is valid on the whole union when the projections onto the dimension
consist of inequalities with coefficient 1 (or a non-negative constant). Missing for the full claim:
equalities, larger coefficients and bounds below `INT_MIN`, for which it is false. -/
theorem C30_lb_partial {proj : Cst → Nat → Nat → Cst} (hP : ProjOracle proj) (l : List Cst) (n pos : Nat)
    (lb : Int) (x : List Int) (hl : ∀ c ∈ l, c.WF ∧ c.ncols = n + 1) (hx : x.length = n) (hp : pos < n)
    (hok : ∀ c ∈ l, ∀ r ∈ (projected proj pos c).rows, LbOK r)
    (h : getConstLb proj pos l = some lb) (hs : SatUnion l x) : lb ≤ x.getD pos 0 := by
  induction l generalizing lb with
  | nil => simp [getConstLb] at h
  | cons c cs ih =>
    have hval : ∀ lb', lbLoop (projected proj pos c).rows (cIntMin, false) = (lb', true) → c.Sat x →
        lb' ≤ x.getD pos 0 := by
      intro lb' hlb hsx
      have e : x = x.take pos ++ x.getD pos 0 :: x.drop (pos + 1) := by
        rw [List.getD_eq_getElem?_getD, List.getElem?_eq_getElem (by omega)]; simp
      have hlen : (x.take pos).length = pos := by simp; omega
      have hq := project_to_one hP c (hl c (by simp)).1 (x.take pos) (x.drop (pos + 1)) (x.getD pos 0)
        (by rw [(hl c (by simp)).2]; simp; omega) (by rw [← e]; exact hsx)
      rw [hlen] at hq
      refine lbLoop_le _ _ (fun r hr => ?_) (hok c (by simp)) (fun r hr => hq.2.2 r hr) _ _ _
        (by simp) (fun _ => rfl) hlb
      have := hq.1.2 r hr
      rw [hq.2.1] at this; exact this
    unfold getConstLb at h
    change (match lbLoop (projected proj pos c).rows (cIntMin, false) with
      | (lb, true) => if cs = [] then some lb else match getConstLb proj pos cs with
        | some next => if lb ≠ next then none else some lb
        | none => none
      | _ => none) = some lb at h
    split at h
    · rename_i lb0 hb
      split_ifs at h with hcs
      · subst hcs
        cases h
        obtain ⟨c', hc', hs'⟩ := hs
        rw [List.mem_singleton] at hc'; subst hc'
        exact hval _ hb hs'
      · split at h
        · rename_i next hnext
          split_ifs at h with hne
          cases h
          push Not at hne
          subst hne
          obtain ⟨c', hc', hs'⟩ := hs
          rcases List.mem_cons.mp hc' with rfl | hc'
          · exact hval _ hb hs'
          · exact ih lb (fun c hc => hl c (by simp [hc])) (fun c hc => hok c (by simp [hc])) hnext ⟨c', hc', hs'⟩
        · cases h
    · cases h

/-- C30. The same for upper bounds; values are 64-bit. -/
theorem C30_ub_partial {proj : Cst → Nat → Nat → Cst} (hP : ProjOracle proj) (l : List Cst) (n pos : Nat)
    (ub : Int) (x : List Int) (hl : ∀ c ∈ l, c.WF ∧ c.ncols = n + 1) (hx : x.length = n) (hp : pos < n)
    (hok : ∀ c ∈ l, ∀ r ∈ (projected proj pos c).rows, UbOK r) (h64 : x.getD pos 0 < 2 ^ 63)
    (h : getConstUb proj pos l = some ub) (hs : SatUnion l x) : x.getD pos 0 ≤ ub := by
  induction l generalizing ub with
  | nil => simp [getConstUb] at h
  | cons c cs ih =>
    have hval : ∀ ub', ubLoop (projected proj pos c).rows (cLlongMax, false) = (ub', true) → c.Sat x →
        x.getD pos 0 ≤ ub' := by
      intro ub' hlb hsx
      have e : x = x.take pos ++ x.getD pos 0 :: x.drop (pos + 1) := by
        rw [List.getD_eq_getElem?_getD, List.getElem?_eq_getElem (by omega)]; simp
      have hlen : (x.take pos).length = pos := by simp; omega
      have hq := project_to_one hP c (hl c (by simp)).1 (x.take pos) (x.drop (pos + 1)) (x.getD pos 0)
        (by rw [(hl c (by simp)).2]; simp; omega) (by rw [← e]; exact hsx)
      rw [hlen] at hq
      have h6 : x.getD pos 0 ≤ cLlongMax := by rw [show (2 : Int) ^ 63 = 9223372036854775808 by norm_num] at h64; unfold cLlongMax; omega
      refine ubLoop_le _ _ (fun r hr => ?_) (hok c (by simp)) (fun r hr => hq.2.2 r hr) _ _ _ h6 hlb
      have := hq.1.2 r hr
      rw [hq.2.1] at this; exact this
    unfold getConstUb at h
    change (match ubLoop (projected proj pos c).rows (cLlongMax, false) with
      | (ub, true) => if cs = [] then some ub else match getConstUb proj pos cs with
        | some next => if ub ≠ next then none else some ub
        | none => none
      | _ => none) = some ub at h
    split at h
    · rename_i ub0 hb
      split_ifs at h with hcs
      · subst hcs
        cases h
        obtain ⟨c', hc', hs'⟩ := hs
        rw [List.mem_singleton] at hc'; subst hc'
        exact hval _ hb hs'
      · split at h
        · rename_i next hnext
          split_ifs at h with hne
          cases h
          push Not at hne
          subst hne
          obtain ⟨c', hc', hs'⟩ := hs
          rcases List.mem_cons.mp hc' with rfl | hc'
          · exact hval _ hb hs'
          · exact ih ub (fun c hc => hl c (by simp [hc])) (fun c hc => hok c (by simp [hc])) hnext ⟨c', hc', hs'⟩
        · cases h
    · cases h

/-- C30 fails for equalities: for `x - 5 = 0` the reported lower and upper bound is -5. -/
theorem C30_violated_eq (proj : Cst → Nat → Nat → Cst) :
    ∃ (c : Cst) (x : List Int) (ub : Int), c.WF ∧ x.length + 1 = c.ncols ∧ c.Sat x ∧
      getConstUb proj 0 [c] = some ub ∧ getConstLb proj 0 [c] = some ub ∧ ¬ x.getD 0 0 ≤ ub := by
  refine ⟨⟨2, [⟨true, [1, -5]⟩]⟩, [5], -5, by decide, rfl, ?_, rfl, rfl, by decide⟩
  simp [Cst.Sat, Row.Sat, aff, dot]

/-- C30 fails for coefficients above 1: for `2x - 5 >= 0` the reported lower bound is 5, although 3 is
a solution. -/
theorem C30_violated_coeff (proj : Cst → Nat → Nat → Cst) :
    ∃ (c : Cst) (x : List Int) (lb : Int), c.WF ∧ x.length + 1 = c.ncols ∧ c.Sat x ∧
      getConstLb proj 0 [c] = some lb ∧ ¬ lb ≤ x.getD 0 0 := by
  refine ⟨⟨2, [⟨false, [2, -5]⟩]⟩, [3], 5, by decide, rfl, ?_, rfl, by decide⟩
  simp [Cst.Sat, Row.Sat, aff, dot]

/-- C30 fails for bounds below `INT_MIN`, which the initial value of `*lb` cuts off. -/
theorem C30_violated_int_min (proj : Cst → Nat → Nat → Cst) :
    ∃ (c : Cst) (x : List Int) (lb : Int), c.WF ∧ x.length + 1 = c.ncols ∧ c.Sat x ∧
      getConstLb proj 0 [c] = some lb ∧ ¬ lb ≤ x.getD 0 0 := by
  refine ⟨⟨2, [⟨false, [1, 3000000000]⟩]⟩, [-3000000000], -2147483648, by decide, rfl, ?_, rfl, by decide⟩
  simp [Cst.Sat, Row.Sat, aff, dot]

/-- A union of two intervals `3 <= j <= N` in two variables, `pos = 1`: hypotheses met, bound 3. -/
example : (∀ c ∈ [(⟨3, [⟨false, [0, 1, -3]⟩, ⟨false, [1, -1, 0]⟩]⟩ : Cst), ⟨3, [⟨false, [1, 0, 2]⟩, ⟨false, [0, 1, -3]⟩]⟩],
      c.WF ∧ c.ncols = 3 ∧ ∀ r ∈ (projected fmProj 1 c).rows, LbOK r) ∧
    getConstLb fmProj 1 [⟨3, [⟨false, [0, 1, -3]⟩, ⟨false, [1, -1, 0]⟩]⟩, ⟨3, [⟨false, [1, 0, 2]⟩, ⟨false, [0, 1, -3]⟩]⟩] =
      some 3 := by decide +kernel

/-! ### C31 -/

theorem scaleRow_id (depth : Nat) (l : Int) (hl : 0 < l) (v : List Int)
    (h : coef v depth = 0 ∨ llabs (coef v depth) = l) : scaleRow depth l v = v := by
  unfold scaleRow
  split_ifs with h0
  · rfl
  · have h1 := h.resolve_left h0
    have : ∀ (cs : List Nat), cs.foldl (fun w c => w.set c (coef w c * (l.tdiv (llabs (coef w depth))))) v = v := by
      intro cs
      induction cs with
      | nil => rfl
      | cons c cs ih =>
        rw [List.foldl_cons, h1, Int.tdiv_self (by omega), mul_one]
        have : v.set c (coef v c) = v := by
          apply List.ext_getElem?; intro i
          rw [List.getElem?_set]
          split_ifs with h2 h3
          · subst h2; simp [coef, List.getElem?_eq_getElem h3]
          · subst h2; rw [List.getElem?_eq_none (by omega)]
          · rfl
        rw [this, ih]
    exact this _

theorem clcm_fold (k : Int) (hk : 0 < k) (depth : Nat) (rows : List Row)
    (h : ∀ r ∈ rows, coef r.val depth = 0 ∨ llabs (coef r.val depth) = k) (l : Int) (hl : l = 1 ∨ l = k) :
    rows.foldl (fun l r => if coef r.val depth ≠ 0 then clcm l (llabs (coef r.val depth)) else l) l =
      if rows.all (fun r => decide (coef r.val depth = 0)) then l else k := by
  induction rows generalizing l with
  | nil => simp
  | cons r rs ih =>
    have ih' := ih (fun q hq => h q (by simp [hq]))
    rw [List.foldl_cons]
    rcases h r (by simp) with h0 | h0
    · rw [if_neg (by simpa using h0), ih' l hl]
      simp [h0]
    · have hne : coef r.val depth ≠ 0 := by intro h1; rw [h1] at h0; simp [llabs] at h0; omega
      rw [if_pos hne, h0]
      have e : clcm l k = k := by
        rw [clcm_of_pos (by omega) hk]
        rcases hl with rfl | rfl
        · simp; omega
        · simp; omega
      rw [e, ih' k (.inr rfl)]
      simp [hne]

theorem foldl_min_le {α : Type*} (f : Int → α → Int) (hf : ∀ d a, f d a ≤ d) (l : List α) (d : Int) : l.foldl f d ≤ d := by
  induction l generalizing d with
  | nil => simp
  | cons a as ih => exact (ih _).trans (hf d a)

theorem foldl_reached {α : Type*} {l : List α} (f : Int → α → Int) (P : Int → Prop) (hf : ∀ d a, a ∈ l → P d → P (f d a)) (l' : List α)
    (hl : ∀ a ∈ l', a ∈ l) (d : Int) (hd : P d) : P (l'.foldl f d) := by
  induction l' generalizing d with
  | nil => exact hd
  | cons a as ih => exact ih (fun b hb => hl b (by simp [hb])) _ (hf d a (hl a (by simp)) hd)

/-- Counting: distinct integers in `[a, b]`. -/
theorem nodup_count (vs : List Int) (h : vs.Nodup) (a b : Int) (hm : ∀ v ∈ vs, a ≤ v ∧ v ≤ b) :
    (vs.length : Int) ≤ max 0 (b - a + 1) := by
  have h1 : vs.toFinset ⊆ Finset.Icc a b := fun v hv => Finset.mem_Icc.mpr (hm v (List.mem_toFinset.mp hv))
  have h2 := Finset.card_le_card h1
  rw [List.toFinset_card_of_nodup h, Int.card_Icc] at h2
  omega

theorem aff_split (v pre : List Int) (w : Int) (h : v.length = pre.length + 2) :
    aff v (pre ++ [w]) = dot (v.take pre.length) pre + coef v pre.length * w + v.getLastD 0 := by
  obtain ⟨a, b, c, rfl, ha⟩ : ∃ a b c, v = a ++ [b, c] ∧ a.length = pre.length := by
    refine ⟨v.take pre.length, coef v pre.length, coef v (pre.length + 1), ?_, by simp; omega⟩
    apply List.ext_getElem?; intro i
    rcases Nat.lt_or_ge i pre.length with hi | hi
    · rw [List.getElem?_append_left (by simp; omega)]; simp [hi]
    · rw [List.getElem?_append_right (by simp; omega)]
      have hl : (v.take pre.length).length = pre.length := by simp; omega
      rw [hl]
      rcases Nat.lt_or_ge i (pre.length + 2) with h2 | h2
      · have : i = pre.length ∨ i = pre.length + 1 := by omega
        rcases this with rfl | rfl
        · simp [coef, List.getElem?_eq_getElem (show pre.length < v.length by omega)]
        · simp [coef, List.getElem?_eq_getElem (show pre.length + 1 < v.length by omega)]
      · rw [List.getElem?_eq_none (by omega), List.getElem?_eq_none (by simp; omega)]
  unfold aff
  rw [List.append_assoc, dot_append _ _ _ _ ha, ← ha]
  simp [coef, dot]
  ring

/-- C31. A non-negative answer of `get_const_bound_difference` bounds the number of values of
dimension `depth` for every choice of the outer dimensions, when the dimension has the same
coefficient magnitude `k` in all rows of the projection (e.g. 1). Missing for the full claim: rows
with different magnitudes, for which it is false (`C31_violated`). -/
theorem C31_extent_partial {proj : Cst → Nat → Nat → Cst} (hP : ProjOracle proj) (c : Cst) (depth : Nat) (k : Int)
    (pre vs : List Int) (hc : c.WF) (hd : depth + 2 ≤ c.ncols) (hk : 0 < k)
    (heq : ∀ r ∈ (projectOutSingle proj c (depth + 1) (c.ncols - 1 - depth - 1)).rows,
      coef r.val depth = 0 ∨ coef r.val depth = k ∨ coef r.val depth = -k)
    (hpre : pre.length = depth) (hv : Values c pre vs) (hres : getConstBoundDifference proj c depth ≠ -1) :
    (vs.length : Int) ≤ getConstBoundDifference proj c depth := by
  set c1 := projectOutSingle proj c (depth + 1) (c.ncols - 1 - depth - 1) with hc1
  have habs : ∀ r ∈ c1.rows, coef r.val depth = 0 ∨ llabs (coef r.val depth) = k := by
    intro r hr
    rcases heq r hr with h | h | h
    · exact .inl h
    · right; rw [h]; unfold llabs; split <;> omega
    · right; rw [h]; unfold llabs; split <;> omega
  -- every value satisfies the projected system
  have hsat : ∀ v ∈ vs, (∀ r ∈ c1.rows, r.val.length = depth + 2) ∧ c1.Sat (pre ++ [v]) := by
    intro v hvm
    obtain ⟨rest, hrl, hrs⟩ := hv.2 v hvm
    rw [hc1]
    unfold projectOutSingle
    split_ifs with h0
    · have : rest = [] := List.length_eq_zero_iff.mp (by omega)
      subst this
      refine ⟨fun r hr => ?_, hrs⟩
      rw [hc.2 r hr]; simp at hrl; omega
    · have := hP c (pre ++ [v]) rest [] hc (by simp; omega)
      rw [show (pre ++ [v]).length = depth + 1 by simp [hpre], show rest.length = c.ncols - 1 - depth - 1 by omega] at this
      refine ⟨fun r hr => ?_, by simpa using this.2.2 (by simpa using hrs)⟩
      rw [this.1.2 r hr, this.2.1]; simp
  by_cases hvs : vs = []
  · subst hvs
    unfold getConstBoundDifference at hres ⊢
    simp only [← hc1] at hres ⊢
    split_ifs at hres ⊢ <;> simp_all <;> omega
  obtain ⟨v0, hv0⟩ := List.exists_mem_of_ne_nil vs hvs
  have hlen := (hsat v0 hv0).1
  unfold getConstBoundDifference at hres ⊢
  simp only [← hc1] at hres ⊢
  by_cases hall : c1.rows.all (fun r => decide (coef r.val depth = 0)) = true
  · rw [if_pos hall] at hres; exact absurd rfl hres
  rw [if_neg hall] at hres ⊢
  rw [clcm_fold k hk depth c1.rows habs 1 (.inl rfl), if_neg hall] at hres ⊢
  have hrows : c1.rows.map (fun r => ({ r with val := scaleRow depth k r.val } : Row)) = c1.rows := by
    conv_rhs => rw [← List.map_id c1.rows]
    apply List.map_congr_left
    intro r hr
    rw [scaleRow_id depth k hk r.val (habs r hr)]; rfl
  rw [hrows] at hres ⊢
  set d0 : Int := if c1.rows.any (fun r => r.eq && decide (coef r.val depth ≠ 0)) then 1 else cIntMax with hd0
  set ineqs := (c1.rows.filter (fun r => !r.eq)).map (·.val) with hineqs
  -- the invariant: either still INT_MAX or a valid bound
  have hP0 : d0 = cIntMax ∨ (vs.length : Int) ≤ max 0 d0 := by
    rw [hd0]
    split_ifs with h
    · right
      rw [List.any_eq_true] at h
      obtain ⟨r, hr, hre⟩ := h
      simp only [Bool.and_eq_true, decide_eq_true_eq] at hre
      have := nodup_count vs hv.1 v0 v0 (fun v hvm => by
        have h1 := (hsat v hvm).2 r hr
        have h2 := (hsat v0 hv0).2 r hr
        simp only [Row.Sat, hre.1, if_true] at h1 h2
        rw [aff_split _ _ _ (by rw [hlen r hr, hpre])] at h1 h2
        rw [hpre] at h1 h2
        have : coef r.val depth * (v - v0) = 0 := by linarith
        rcases mul_eq_zero.mp this with h | h
        · exact absurd h hre.2
        · constructor <;> omega)
      omega
    · left; rfl
  have hstep : ∀ (r r1 : List Int), r ∈ ineqs → r1 ∈ ineqs → ∀ q, pairDiff depth r r1 = some q → (vs.length : Int) ≤ max 0 q := by
    intro r r1 hr hr1 q hq
    obtain ⟨R, hR, rfl⟩ := List.mem_map.mp hr
    obtain ⟨R1, hR1, rfl⟩ := List.mem_map.mp hr1
    rw [List.mem_filter] at hR hR1
    have eR : R.eq = false := by simpa using hR.2
    have eR1 : R1.eq = false := by simpa using hR1.2
    unfold pairDiff at hq
    split_ifs at hq with hcond
    cases hq
    obtain ⟨hc0, hc1', hz⟩ := hcond
    have hkR : coef R.val depth = -k := by
      rcases heq R hR.1 with h | h | h <;> omega
    have hkR1 : coef R1.val depth = k := by
      rcases heq R1 hR1.1 with h | h | h <;> omega
    rw [hkR, hkR1, neg_neg]
    rw [hlen R hR.1, List.all_eq_true] at hz
    have hcancel : dot (R1.val.take depth) pre = - dot (R.val.take depth) pre := by
      rw [← hpre, ← dot_map_neg]
      congr 1
      apply List.ext_getElem?; intro i
      rw [List.getElem?_map]
      rcases Nat.lt_or_ge i depth with hi | hi
      · have h1 := hz i (List.mem_range.mpr (by omega))
        simp only [decide_eq_true_eq, coef, List.getD_eq_getElem?_getD] at h1
        rw [List.getElem?_take_of_lt (by omega), List.getElem?_take_of_lt (by omega)]
        have g1 := List.getElem?_eq_getElem (show i < R.val.length by rw [hlen R hR.1]; omega)
        have g2 := List.getElem?_eq_getElem (show i < R1.val.length by rw [hlen R1 hR1.1]; omega)
        rw [g1, g2] at h1 ⊢
        simp only [Option.getD_some, Option.map_some, Option.some.injEq] at h1 ⊢
        omega
      · rw [List.getElem?_take, List.getElem?_take, if_neg (by omega), if_neg (by omega)]; rfl
    set s := dot (R.val.take depth) pre with hs
    set u := R.val.getLastD 0
    set w := R1.val.getLastD 0
    have hb : ∀ v ∈ vs, k * v ≤ s + u ∧ s - w ≤ k * v := by
      intro v hvm
      have h1 := (hsat v hvm).2 R hR.1
      have h2 := (hsat v hvm).2 R1 hR1.1
      simp only [Row.Sat, eR, eR1, Bool.false_eq_true, if_false] at h1 h2
      rw [aff_split _ _ _ (by rw [hlen R hR.1, hpre]), hpre, hkR] at h1
      rw [aff_split _ _ _ (by rw [hlen R1 hR1.1, hpre]), hpre, hkR1, hcancel] at h2
      constructor <;> linarith
    have hcount := nodup_count vs hv.1 (-((w - s) / k)) ((s + u) / k) (fun v hvm => by
      obtain ⟨h1, h2⟩ := hb v hvm
      constructor
      · have : -v ≤ (w - s) / k := by
          rw [Int.le_ediv_iff_mul_le hk]; nlinarith
        linarith
      · rw [Int.le_ediv_iff_mul_le hk]; linarith)
    refine hcount.trans (max_le_max le_rfl ?_)
    -- floor((s+u)/k) + floor((w-s)/k) ≤ floor(u/k) + ceil(w/k)
    have e1 := Int.mul_ediv_add_emod (s + u) k
    have e2 := Int.mul_ediv_add_emod (w - s) k
    have e3 := Int.mul_ediv_add_emod u k
    have e4 := Int.mul_ediv_add_emod (-w) k
    have m1 := Int.emod_nonneg (s + u) (ne_of_gt hk)
    have m2 := Int.emod_nonneg (w - s) (ne_of_gt hk)
    have m3 := Int.emod_lt_of_pos u hk
    have m4 := Int.emod_nonneg (-w) (ne_of_gt hk)
    by_contra hlt
    push Not at hlt
    have : k * (u / k + -(-w / k) + 1) + k ≤ k * ((s + u) / k - -((w - s) / k) + 1) := by nlinarith
    nlinarith
  have hfin : (ineqs.foldl (fun d r => ineqs.foldl (fun d r1 =>
      match pairDiff depth r r1 with | some k => min d k | none => d) d) d0) = cIntMax ∨
      (vs.length : Int) ≤ max 0 (ineqs.foldl (fun d r => ineqs.foldl (fun d r1 =>
      match pairDiff depth r r1 with | some k => min d k | none => d) d) d0) := by
    refine foldl_reached (l := ineqs) _ (fun d => d = cIntMax ∨ (vs.length : Int) ≤ max 0 d) ?_ ineqs (fun a h => h) d0 hP0
    intro d r hr hdP
    refine foldl_reached (l := ineqs) _ (fun d => d = cIntMax ∨ (vs.length : Int) ≤ max 0 d) ?_ ineqs (fun a h => h) d hdP
    intro d r1 hr1 hdP
    show (match pairDiff depth r r1 with | some k => min d k | none => d) = cIntMax ∨ _ ≤ max 0 (match pairDiff depth r r1 with | some k => min d k | none => d)
    cases hpd : pairDiff depth r r1 with
    | none => exact hdP
    | some q =>
      have hq := hstep r r1 hr hr1 q hpd
      rcases hdP with rfl | hdP
      · by_cases hqm : q ≤ cIntMax
        · right; simp only; rw [min_eq_right hqm]; exact hq
        · left; simp only; rw [min_eq_left (by omega)]
      · right; simp only; omega
  generalize ineqs.foldl (fun d r => ineqs.foldl (fun d r1 =>
      match pairDiff depth r r1 with | some k => min d k | none => d) d) d0 = D at hfin hres ⊢
  split_ifs at hres ⊢ with h1 h2
  · exact absurd rfl hres
  · have := hfin.resolve_left h1; omega
  · have := hfin.resolve_left h1; omega

/-- C31 fails with different coefficients: `2x - 1 >= 0, -3x + 10 >= 0` has the solutions 1, 2, 3 but
the reported extent is 2 (the constants are not scaled with the coefficients). -/
theorem C31_violated (proj : Cst → Nat → Nat → Cst) : ∃ (c : Cst) (vs : List Int), c.WF ∧ Values c [] vs ∧
    getConstBoundDifference proj c 0 = 2 ∧ vs.length = 3 := by
  refine ⟨⟨2, [⟨false, [2, -1]⟩, ⟨false, [-3, 10]⟩]⟩, [1, 2, 3], by decide, ⟨by decide, ?_⟩, ?_, rfl⟩
  swap
  · have : getConstBoundDifference (fun c _ _ => c) ⟨2, [⟨false, [2, -1]⟩, ⟨false, [-3, 10]⟩]⟩ 0 = 2 := by
      decide +kernel
    exact this
  intro v hv
  refine ⟨[], rfl, ?_⟩
  simp at hv
  rcases hv with rfl | rfl | rfl <;> simp [Cst.Sat, Row.Sat, aff, dot]

/-- Hypotheses of `C31_extent_partial` met: `i <= j <= i + 7`, extent 8. -/
example : (∀ r ∈ (projectOutSingle fmProj ⟨3, [⟨false, [-1, 1, 0]⟩, ⟨false, [1, -1, 7]⟩]⟩ 2 0).rows,
      coef r.val 1 = 0 ∨ coef r.val 1 = 1 ∨ coef r.val 1 = -1) ∧
    getConstBoundDifference fmProj ⟨3, [⟨false, [-1, 1, 0]⟩, ⟨false, [1, -1, 7]⟩]⟩ 1 = 8 := by
  decide +kernel

end Pluto
