import Verif.Lemmas.LinInd

/-! C37: linear independence constraints. -/

namespace Pluto

/-- The count used by the code is below `dim_orig` exactly when the rows found so far do not have full
rank on the original loops (although `pluto_matrix_get_rank` itself is wrong in general, C25). -/
theorem C37_needs (p : Prog) (hp : p.Padded) (st : Stmt) (hst : st ∈ p.stmts) :
    numIndHyps p st < st.dimOrig ↔ NeedsLoops st := by
  obtain ⟨h1, h2, _, h4, _⟩ := hp st hst
  exact needsLoops_iff p st (by omega) (by intro r hr; rw [h4 r hr, h2])

theorem stmtLinInd_nil (o : SearchOpts) (L : Libs) {p : Prog} (hp : p.Padded) (i : Nat) (st : Stmt)
    (hst : st ∈ p.stmts) (hn : ¬ NeedsLoops st) (curr : Cst) : stmtLinInd o L p i st curr = [] := by
  unfold stmtLinInd
  rw [if_pos]
  have := (C37_needs p hp st hst).not.mpr hn
  omega

/-- The list of rows that `get_linear_ind_constraints` combines. -/
theorem lasts_mem (o : SearchOpts) (L : Libs) (p : Prog) (curr : Cst) (r : List Int) :
    r ∈ (p.stmts.mapIdx (fun i st => stmtLinInd o L p i st curr)).filterMap List.getLast? ↔
      ∃ (i : Nat) (st : Stmt), p.stmts[i]? = some st ∧ (stmtLinInd o L p i st curr).getLast? = some r := by
  rw [List.mem_filterMap]
  constructor
  · rintro ⟨l, hl, hr⟩
    obtain ⟨i, hi⟩ := List.getElem?_of_mem hl
    rw [List.getElem?_mapIdx] at hi
    obtain ⟨st, hst, rfl⟩ := Option.map_eq_some_iff.mp hi
    exact ⟨i, st, hst, hr⟩
  · rintro ⟨i, st, hst, hr⟩
    refine ⟨_, List.mem_of_getElem? (i := i) ?_, hr⟩
    rw [List.getElem?_mapIdx, hst]
    rfl

/-- C37 (eager mode): every solution gives every statement that still needs loops a row that is not a
linear combination over ℚ of its previous loop hyperplanes. -/
theorem C37_eager (o : SearchOpts) (L : Libs) (hK : KernelOracle L.kernel) (p : Prog) (hp : p.Padded)
    (curr : Cst) (sol : List Int) (hs : SolLen p sol)
    (hsat : (linearIndConstraints o L p curr true).Sat sol)
    (i : Nat) (st : Stmt) (hi : p.stmts[i]? = some st) (hn : NeedsLoops st) :
    qvec st.dimOrig (stmtCoeffs p i st sol) ∉ loopSpan p st := by
  intro hmem
  obtain ⟨r, hr, _, _, hv⟩ := stmtLinInd_last o L hK hp i st hi hn curr
  have hin := (lasts_mem o L p curr r).mpr ⟨i, st, hi, hr⟩
  unfold linearIndConstraints at hsat
  simp only at hsat
  rw [if_neg (List.ne_nil_of_mem hin), if_pos trivial] at hsat
  have := hsat _ (List.mem_map_of_mem (f := fun r => (⟨false, r⟩ : Row)) hin)
  simp only [Row.Sat, Bool.false_eq_true, if_false] at this
  rw [hv sol hs hmem] at this
  omega

/-- C37 (lazy mode): every solution gives at least one statement that still needs loops such a row,
provided there is one. -/
theorem C37_lazy (o : SearchOpts) (L : Libs) (hK : KernelOracle L.kernel) (p : Prog) (hp : p.Padded)
    (curr : Cst) (sol : List Int) (hs : SolLen p sol)
    (hsat : (linearIndConstraints o L p curr false).Sat sol) (hn : ∃ st ∈ p.stmts, NeedsLoops st) :
    ∃ (i : Nat) (st : Stmt), p.stmts[i]? = some st ∧ NeedsLoops st ∧
      qvec st.dimOrig (stmtCoeffs p i st sol) ∉ loopSpan p st := by
  by_contra hc
  push Not at hc
  have hprop : ∀ r ∈ (p.stmts.mapIdx (fun i st => stmtLinInd o L p i st curr)).filterMap List.getLast?,
      r.length = cstWidth p.nvar p.npar p.stmts.length ∧
      coef r (cstWidth p.nvar p.npar p.stmts.length - 1) = -1 ∧ aff r sol = -1 := by
    intro r hr
    obtain ⟨i, st, hi, hl⟩ := (lasts_mem o L p curr r).mp hr
    have hst := List.mem_of_getElem? hi
    by_cases hns : NeedsLoops st
    · obtain ⟨r', hr', a, b, c⟩ := stmtLinInd_last o L hK hp i st hi hns curr
      rw [hl] at hr'
      injection hr' with hr'
      subst hr'
      exact ⟨a, b, c sol hs (hc i st hi hns)⟩
    · rw [stmtLinInd_nil o L hp i st hst hns] at hl
      simp at hl
  obtain ⟨st, hst, hns⟩ := hn
  obtain ⟨i, hi⟩ := List.getElem?_of_mem hst
  obtain ⟨r0, hr0, _⟩ := stmtLinInd_last o L hK hp i st hi hns curr
  have hin := (lasts_mem o L p curr r0).mpr ⟨i, st, hi, hr0⟩
  unfold linearIndConstraints at hsat
  simp only at hsat
  rw [if_neg (List.ne_nil_of_mem hin), if_neg (by simp)] at hsat
  have h := hsat _ (List.mem_singleton_self _)
  simp only [Row.Sat, Bool.false_eq_true, if_false] at h
  obtain ⟨_, _, c⟩ := sumRows_set _ _ (fun r hr => (hprop r hr).1) sol (by rw [hs]; rfl)
  rw [c, list_sum_zero] at h
  · omega
  · intro a ha
    obtain ⟨r, hr, rfl⟩ := List.mem_map.mp ha
    obtain ⟨_, b, c⟩ := hprop r hr
    rw [b, c]; rfl

/-- C37: if a statement still needs loops the system is not empty; if none does, it is. -/
theorem C37_rows (o : SearchOpts) (L : Libs) (hK : KernelOracle L.kernel) (p : Prog) (hp : p.Padded)
    (curr : Cst) (eager : Bool) :
    (linearIndConstraints o L p curr eager).rows = [] ↔ ∀ st ∈ p.stmts, ¬ NeedsLoops st := by
  constructor
  · intro h st hst hns
    obtain ⟨i, hi⟩ := List.getElem?_of_mem hst
    obtain ⟨r0, hr0, _⟩ := stmtLinInd_last o L hK hp i st hi hns curr
    have hin := (lasts_mem o L p curr r0).mpr ⟨i, st, hi, hr0⟩
    unfold linearIndConstraints at h
    simp only at h
    rw [if_neg (List.ne_nil_of_mem hin)] at h
    split at h
    · simp only [List.map_eq_nil_iff] at h
      exact List.ne_nil_of_mem hin h
    · simp at h
  · intro h
    unfold linearIndConstraints
    simp only
    rw [if_pos]
    rw [List.eq_nil_iff_forall_not_mem]
    intro r hr
    obtain ⟨i, st, hi, hl⟩ := (lasts_mem o L p curr r).mp hr
    have hst := List.mem_of_getElem? hi
    rw [stmtLinInd_nil o L hp i st hst (h st hst)] at hl
    simp at hl

/-! ### Non-vacuity -/

theorem exists_int_multiple (n : Nat) (g : Fin n → ℚ) :
    ∃ v : List Int, v.length = n ∧ ∃ c : ℚ, c ≠ 0 ∧ qvec n v = c • g := by
  refine ⟨List.ofFn (fun j : Fin n => (g j * (∏ i, ((g i).den : ℚ))).num), by simp,
    ∏ i, ((g i).den : ℚ), ?_, ?_⟩
  · exact Finset.prod_ne_zero_iff.mpr (fun i _ => by exact_mod_cast (g i).den_nz)
  · funext j
    have hden : (g j * (∏ i, ((g i).den : ℚ))).den = 1 := by
      rw [← Finset.mul_prod_erase Finset.univ _ (Finset.mem_univ j), ← mul_assoc, Rat.mul_den_eq_num]
      have : ((g j).num : ℚ) * ∏ x ∈ Finset.univ.erase j, ((g x).den : ℚ) =
          (((g j).num * ∏ x ∈ Finset.univ.erase j, ((g x).den : Int) : Int) : ℚ) := by push_cast; rfl
      rw [this]; exact Rat.den_intCast _
    have h2 : qvec n (List.ofFn (fun j : Fin n => (g j * (∏ i, ((g i).den : ℚ))).num)) j =
        (((g j * (∏ i, ((g i).den : ℚ))).num : Int) : ℚ) := by
      simp [qvec, List.getD_eq_getElem?_getD]
    rw [h2, Pi.smul_apply, smul_eq_mul, mul_comm _ (g j)]
    conv_rhs => rw [← Rat.num_div_den (g j * (∏ i, ((g i).den : ℚ))), hden]
    simp

/-- A null space oracle exists. -/
theorem exists_kernelOracle : ∃ kernel, KernelOracle kernel := by
  classical
  have key : ∀ (n : Nat) (rows : List (List Int)), ∃ K : List (List Int), (∀ r ∈ rows, r.length = n) →
      (∀ v ∈ K, v.length = n ∧ ∀ r ∈ rows, dot r v = 0) ∧
      ∀ w : Fin n → ℚ, (∀ r ∈ rows, ∑ j, qvec n r j * w j = 0) →
        w ∈ Submodule.span ℚ {u | ∃ v ∈ K, u = qvec n v} := by
    intro n rows
    let W : Submodule ℚ (Fin n → ℚ) :=
      { carrier := {w | ∀ r ∈ rows, ∑ j, qvec n r j * w j = 0}
        add_mem' := by
          intro a b ha hb r hr
          simp [mul_add, Finset.sum_add_distrib, ha r hr, hb r hr]
        zero_mem' := by intro r _; simp
        smul_mem' := by
          intro c a ha r hr
          have := ha r hr
          simp only [Pi.smul_apply, smul_eq_mul]
          have e : ∑ j, qvec n r j * (c * a j) = c * ∑ j, qvec n r j * a j := by
            rw [Finset.mul_sum]; exact Finset.sum_congr rfl (fun j _ => by ring)
          rw [e, this, mul_zero] }
    obtain ⟨S, hS⟩ := IsNoetherian.noetherian W
    choose f hf using exists_int_multiple n
    refine ⟨S.toList.map f, fun hr => ⟨?_, ?_⟩⟩
    · intro v hv
      obtain ⟨g, hg, rfl⟩ := List.mem_map.mp hv
      obtain ⟨h1, c, hc, h2⟩ := hf g
      refine ⟨h1, fun r hr' => ?_⟩
      have hgW : g ∈ W := by
        rw [← hS]; exact Submodule.subset_span (by simpa using hg)
      have := W.smul_mem c hgW r hr'
      have e := dot_qvec n r (f g) (hr r hr')
      rw [h2] at e
      rw [this] at e
      exact_mod_cast e
    · intro w hw
      have hwW : w ∈ Submodule.span ℚ (S : Set (Fin n → ℚ)) := by rw [hS]; exact hw
      refine Submodule.span_le.mpr ?_ hwW
      intro g hg
      obtain ⟨h1, c, hc, h2⟩ := hf g
      have hmem : qvec n (f g) ∈ Submodule.span ℚ {u | ∃ v ∈ S.toList.map f, u = qvec n v} :=
        Submodule.subset_span ⟨f g, List.mem_map_of_mem (by simpa using hg), rfl⟩
      have := Submodule.smul_mem _ c⁻¹ hmem
      rw [h2, smul_smul, inv_mul_cancel₀ hc, one_smul] at this
      exact this
  choose k hk using key
  exact ⟨k, fun n rows hr => hk n rows hr⟩

/-- One statement with two loops, the first hyperplane `i` found. -/
def linIndProg : Prog :=
  ⟨2, 0, [⟨2, 2, ⟨3, []⟩, [true, true], [[1, 0, 0]], [HypType.loop]⟩], [], [HypType.loop]⟩

example : linIndProg.Padded := by unfold Prog.Padded; decide

example : ∀ st ∈ linIndProg.stmts, NeedsLoops st := by
  intro st hst
  rw [← C37_needs linIndProg (by unfold Prog.Padded; decide) st hst]
  revert st
  decide +kernel

/-- The constraint built is `c_2 >= 1`; `(c_1, c_2) = (1, 1)` satisfies it. -/
example : (linearIndConstraints ⟨true, false, false, false, -1⟩
      ⟨fun _ _ => [[0, 2]], fun _ => false, fun _ => none⟩ linIndProg ⟨5, []⟩ true).rows =
    [⟨false, [0, 0, 2, 0, -1]⟩] ∧ Cst.Sat ⟨5, [⟨false, [0, 0, 2, 0, -1]⟩]⟩ ([0, 1, 1, 0] : List Int) := by
  refine ⟨by decide +kernel, ?_⟩
  intro r hr
  rw [List.mem_singleton] at hr
  subst hr
  show (0 : Int) ≤ _
  decide

end Pluto
