import Verif.Lemmas.Extent
import Verif.Props.Bounds
import Mathlib.Data.Finset.Card
import Mathlib.Algebra.Order.BigOperators.Group.List

/-! C78: bounds, extents and bounding boxes as expressions in the parameters. -/

namespace Pluto

theorem projectOut_ok {proj : Cst → Nat → Nat → Cst} (hP : ProjOracle proj) (c : Cst) (hc : c.WF) (A B C : List Int)
    (hl : c.ncols = A.length + B.length + C.length + 1) :
    (projectOutSingle proj c A.length B.length).WF ∧ (projectOutSingle proj c A.length B.length).ncols = A.length + C.length + 1 ∧
    (c.Sat (A ++ B ++ C) → (projectOutSingle proj c A.length B.length).Sat (A ++ C)) := by
  unfold projectOutSingle
  split_ifs with h
  · have : B = [] := List.length_eq_zero_iff.mp h
    subst this
    exact ⟨hc, by simpa using hl, by simp⟩
  · exact hP c A B C hc hl

theorem boundSystem_ok {proj : Cst → Nat → Nat → Cst} (hP : ProjOracle proj) (c : Cst) (hc : c.WF) (pre mid q : List Int) (v : Int)
    (hl : c.ncols = pre.length + 1 + mid.length + q.length + 1) :
    (∀ r ∈ (boundSystem proj c pre.length q.length).rows, r.val.length = q.length + 2) ∧
    (c.Sat (pre ++ v :: mid ++ q) → (boundSystem proj c pre.length q.length).Sat (v :: q)) := by
  obtain ⟨a1, a2, a3⟩ := projectOut_ok hP c hc [] pre (v :: mid ++ q) (by simp; omega)
  obtain ⟨b1, b2, b3⟩ := projectOut_ok hP _ a1 [v] mid q (by rw [a2]; simp; omega)
  have e : boundSystem proj c pre.length q.length = projectOutSingle proj (projectOutSingle proj c ([] : List Int).length pre.length) [v].length mid.length := by
    unfold boundSystem
    have : (projectOutSingle proj c ([] : List Int).length pre.length).ncols - q.length - 2 = mid.length := by rw [a2]; simp; omega
    simp only [List.length_nil] at this
    simp only [List.length_nil, List.length_singleton, this]
  rw [e]
  refine ⟨fun r hr => ?_, fun hs => ?_⟩
  · rw [b1.2 r hr, b2]; simp; omega
  · exact b3 (by simpa using a3 (by simpa using hs))

/-- C78: `get_lb_ub_expr`. For all values of the parameters, the printed bounds enclose all values of the variable, whatever the other variables
are. -/
theorem C78_bounds {proj : Cst → Nat → Nat → Cst} (hP : ProjOracle proj) (c : Cst) (hc : c.WF) (pos npar : Nat) (lb ub : CBound)
    (h : getLbUbExpr proj c pos npar = some (lb, ub)) (pre mid q : List Int) (v : Int) (hpre : pre.length = pos) (hq : q.length = npar)
    (hl : c.ncols = pos + 1 + mid.length + npar + 1) (hs : c.Sat (pre ++ v :: mid ++ q)) : lb.value q ≤ v ∧ v ≤ ub.value q := by
  subst hpre hq
  obtain ⟨h1, h2⟩ := boundSystem_ok hP c hc pre mid q v hl
  unfold getLbUbExpr at h
  simp only [Option.bind_eq_bind, Option.bind_eq_some_iff, Option.pure_def, Option.some.injEq, Prod.mk.injEq] at h
  obtain ⟨_, e1, _, e2, rfl, rfl⟩ := h
  obtain ⟨l1, l2⟩ := bounds_len h1
  have := (bounds_rows (boundSystem proj c pre.length q.length).rows (v :: q)).mpr (fun r hr _ => h2 hs r hr)
  exact ⟨(getFunc_lower l1 e1 v).mp this.1, (getFunc_upper l2 e2 v).mp this.2⟩

/-- C78: if there are no other variables, the values of the variable are exactly those between the printed bounds, for all parameters that satisfy
the constraints on parameters. -/
theorem C78_bounds_exact (proj : Cst → Nat → Nat → Cst) (c : Cst) (hc : c.WF) (npar : Nat) (lb ub : CBound) (hn : c.ncols = npar + 2)
    (h : getLbUbExpr proj c 0 npar = some (lb, ub)) (q : List Int) (hq : q.length = npar)
    (hpar : ∀ r ∈ c.rows, coef r.val 0 = 0 → r.Sat (0 :: q)) (v : Int) : c.Sat (v :: q) ↔ lb.value q ≤ v ∧ v ≤ ub.value q := by
  subst hq
  have e : boundSystem proj c 0 q.length = c := by
    unfold boundSystem projectOutSingle
    simp [hn]
  unfold getLbUbExpr at h
  rw [e] at h
  simp only [Option.bind_eq_bind, Option.bind_eq_some_iff, Option.pure_def, Option.some.injEq, Prod.mk.injEq] at h
  obtain ⟨_, e1, _, e2, rfl, rfl⟩ := h
  obtain ⟨l1, l2⟩ := bounds_len (rows := c.rows) (n := q.length + 2) (fun r hr => by rw [hc.2 r hr, hn])
  rw [← getFunc_lower l1 e1 v, ← getFunc_upper l2 e2 v, bounds_rows]
  constructor
  · intro hs r hr _
    exact hs r hr
  · intro hs r hr
    by_cases h0 : coef r.val 0 = 0
    · have := hpar r hr h0
      have hlen : r.val.length = q.length + 2 := by rw [hc.2 r hr, hn]
      unfold Row.Sat at this ⊢
      rw [aff_rest hlen, h0] at this ⊢
      simpa using this
    · exact hs r hr h0

theorem single_others {b : CBound} (h : b.Single) (q : List Int) : b.others q = 0 ∧ b.first q = b.value q := by
  match b, h with
  | .one (.lin []), _ => exact ⟨rfl, rfl⟩
  | .one (.lin [t]), _ => simp [CBound.others, CExpr.others, termsValue, CBound.first, CBound.value, CExpr.value]
  | .one (.lin (_ :: _ :: _)), h => simp [CBound.Single] at h
  | .one (.floorDiv _ _), _ => simp [CBound.others, CExpr.others, CBound.first, CBound.value, CExpr.value]
  | .one (.ceilDiv _ _), _ => simp [CBound.others, CExpr.others, CBound.first, CBound.value, CExpr.value]
  | .fn true _ _, _ => simp [CBound.others, CBound.first]
  | .fn false _ _, _ => simp [CBound.others, CBound.first]

/-- C78: `get_parametric_extent` prints the distance of the bounds plus one if the text of the lower bound is a single operand.
Missing for the full claim: lower bounds with several terms, since the text is not put in parentheses (`C78_violated_difference`). -/
theorem C78_extent_value_partial (proj : Cst → Nat → Nat → Cst) (c : Cst) (pos npar : Nat) (lb ub : CBound)
    (h : getLbUbExpr proj c pos npar = some (lb, ub)) (hs : lb.Single) :
    ∃ e, getParametricExtent proj c pos npar = some e ∧ ∀ q, e.value q = ub.value q - lb.value q + 1 := by
  unfold getParametricExtent
  rw [h]
  simp only [Option.bind_eq_bind, Option.bind_some, Option.pure_def]
  refine ⟨_, rfl, fun q => ?_⟩
  split_ifs with he
  · subst he; simp [CExtent.value]
  · obtain ⟨h1, h2⟩ := single_others hs q
    simp only [CExtent.value, h1, h2]
    omega

/-- C78: the printed extent is at least the number of values of the variable, for all parameters and values of the variables before it, if the text of the
lower bound is a single operand. Missing for the full claim: see `C78_violated_difference`. -/
theorem C78_extent_partial {proj : Cst → Nat → Nat → Cst} (hP : ProjOracle proj) (c : Cst) (hc : c.WF) (pos npar : Nat) (lb ub : CBound)
    (h : getLbUbExpr proj c pos npar = some (lb, ub)) (hs : lb.Single) (e : CExtent) (he : getParametricExtent proj c pos npar = some e)
    (pre q vs : List Int) (hpre : pre.length = pos) (hq : q.length = npar) (hne : vs ≠ [])
    (hv : BlockPoints c 1 q pre (vs.map ([·]))) : (vs.length : Int) ≤ e.value q := by
  obtain ⟨e', he', hval⟩ := C78_extent_value_partial proj c pos npar lb ub h hs
  rw [he] at he'
  obtain rfl := Option.some.inj he'
  have hb : ∀ v ∈ vs, lb.value q ≤ v ∧ v ≤ ub.value q := by
    intro v hvm
    obtain ⟨-, mid, hl, hsat⟩ := hv.2 [v] (List.mem_map.mpr ⟨v, hvm, rfl⟩)
    exact C78_bounds hP c hc pos npar lb ub h pre mid q v hpre hq (by omega) (by simpa using hsat)
  have := nodup_count vs (List.Nodup.of_map _ hv.1) _ _ hb
  obtain ⟨v, hv'⟩ := List.exists_mem_of_ne_nil vs hne
  have := hb v hv'
  rw [hval]
  omega

/-- C78: `get_parametric_extent_const` as well, if in addition the variable has coefficients of one magnitude where constants are compared (see C31). -/
theorem C78_extent_const_partial {proj : Cst → Nat → Nat → Cst} (hP : ProjOracle proj) (c : Cst) (hc : c.WF) (pos npar : Nat) (k : Int) (hk : 0 < k)
    (hmag : ∀ r ∈ (projectOutSingle proj c (pos + 1) (c.ncols - 1 - pos - 1)).rows,
      coef r.val pos = 0 ∨ coef r.val pos = k ∨ coef r.val pos = -k)
    (hsing : ∀ lb ub, getLbUbExpr proj c pos npar = some (lb, ub) → lb.Single) (e : CExtent) (he : getExtentConst proj c pos npar = some e)
    (pre q vs : List Int) (hpre : pre.length = pos) (hq : q.length = npar) (hne : vs ≠ [])
    (hv : BlockPoints c 1 q pre (vs.map ([·]))) : (vs.length : Int) ≤ e.value q := by
  unfold getExtentConst at he
  split_ifs at he with h0
  · obtain rfl := Option.some.inj he
    obtain ⟨v, hv'⟩ := List.exists_mem_of_ne_nil vs hne
    obtain ⟨-, mid, hl, -⟩ := hv.2 [v] (List.mem_map.mpr ⟨v, hv', rfl⟩)
    refine C31_extent_partial hP c pos k pre vs hc (by omega) hk hmag hpre ⟨List.Nodup.of_map _ hv.1, fun v hvm => ?_⟩ h0
    obtain ⟨-, mid, hl, hsat⟩ := hv.2 [v] (List.mem_map.mpr ⟨v, hvm, rfl⟩)
    exact ⟨mid ++ q, by simp; omega, by simpa using hsat⟩
  · have he0 := he
    unfold getParametricExtent at he
    simp only [Option.bind_eq_bind, Option.bind_eq_some_iff] at he
    obtain ⟨⟨lb, ub⟩, h1, -⟩ := he
    exact C78_extent_partial hP c hc pos npar lb ub h1 (hsing lb ub h1) e he0 pre q vs hpre hq hne hv

end Pluto
