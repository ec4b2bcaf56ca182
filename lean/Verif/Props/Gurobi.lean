import Verif.Lemmas.Gurobi
import Verif.Props.LpScale
import Verif.Spec.FcgCluster
import Verif.Model.Skew
import Verif.Props.FcgClusterBad

/-! C83: integer coefficients from Gurobi. -/

namespace Pluto

theorem getD_head_replaced (n : Nat) (m : Int) (sol : List Int) {j : Nat} (h : n ≤ j) :
    (List.replicate n m ++ sol.drop n).getD j 0 = sol.getD j 0 := by
  rw [List.getD_eq_getElem?_getD, List.getD_eq_getElem?_getD, List.getElem?_append_right (by simpa using h), List.length_replicate,
    List.getElem?_drop]
  congr 2
  omega

/-- **C83, `--lp`, what does hold.** When no row of the system for the solver is false without coefficients,
`pluto_prog_constraints_lexmin` with Gurobi fails only when the LP solver does. The coefficients it returns are those of a
non-negative rational point of the system, multiplied by factors of at least one that depend only on the component id of
the statement. The bound coefficients are all equal, whatever they are in the rational point. -/
theorem C83_scaled_partial (o : GlpkOpts) (G : GlpkLibs) (g : Graph) (d0 : DfsState) (p : Prog) (cst : Cst) (ho : p.OrigOK)
    (hlp : LpPoints G.lp) (hmip : MipPoints G.mip) (hg : g.n = p.stmts.length) (h0 : 0 < p.stmts.length) (hw : cst.WF)
    (hne : cst.rows ≠ []) (hc : cst.ncols = p.npar + 1 + p.stmts.length * (p.nvar + 1) + 1) (olp : o.lp = true)
    (hz : NoFalseRow (lexminInput o.dfp p cst)) :
    ∃ r, progLexminGurobi o G g d0 p cst = some r ∧
      (r = none ↔ G.lp (gurobiSystem (lexminInput o.dfp p cst)) (cplexObjective p) = none) ∧
      ∀ sol, r = some sol → SolLen p sol ∧ PadZero p sol ∧ NonNeg sol ∧
        (∃ (x : List ℚ) (f : Int → ℚ) (cc : Nat → Int) (n : Nat), ddgComputeCc g d0 = some (cc, n) ∧
          SolLen p x ∧ PadZero p x ∧ (∀ a ∈ x, 0 ≤ a) ∧ cst.Sat x ∧
          (∀ i < p.stmts.length, 1 ≤ f (cc i) ∧ ∀ k ≤ p.nvar,
            (sol.getD (p.npar + 1 + i * (p.nvar + 1) + k) 0 : ℚ) = f (cc i) * x.getD (p.npar + 1 + i * (p.nvar + 1) + k) 0)) ∧
        ∃ m : Int, 1 ≤ m ∧ ∀ k ≤ p.npar, sol.getD k 0 = m := by
  obtain ⟨r, hr, hn, h⟩ := glpk_lp_spec (G := fullLibs G) (o := o) d0 ho (fullLibs_lp hlp) hmip hg h0 hw hne hc olp
  obtain ⟨e1, e2⟩ := gurobi_lp_eq d0 ho hlp hmip hg h0 hw hne hc olp hz
  have hfl : (fullLibs G).lp (lexminInput o.dfp p cst) (cplexObjective p) =
      G.lp (gurobiSystem (lexminInput o.dfp p cst)) (cplexObjective p) := by
    simp only [fullLibs, if_pos hz]
  rw [hfl] at hn
  cases r with
  | none => exact ⟨none, e1 hr, hn, by simp⟩
  | some sol0 =>
    obtain ⟨m, hm, he⟩ := e2 sol0 hr
    refine ⟨_, he, ⟨by simp, fun hh => absurd (hn.mpr hh) (by simp)⟩, ?_⟩
    intro sol hs
    rw [Option.some.injEq] at hs
    subst hs
    obtain ⟨hl, hp, hnn, x, f, cc, n, hcc, hx, hxz, hx0, hxs, hf, _⟩ := h sol0 rfl
    refine ⟨?_, ?_, ?_, ⟨x, f, cc, n, hcc, hx, hxz, hx0, hxs, ?_⟩, m, hm, ?_⟩
    · unfold SolLen at hl ⊢
      simp only [List.length_append, List.length_replicate, List.length_drop]
      omega
    · intro i st hi k hk hf
      rw [getD_head_replaced _ _ _ (by rw [Nat.add_assoc]; exact Nat.le_add_right _ _)]
      exact hp i st hi k hk hf
    · intro a ha
      rcases List.mem_append.mp ha with ha | ha
      · rw [List.eq_of_mem_replicate ha]; omega
      · exact hnn a (List.mem_of_mem_drop ha)
    · intro i hi
      refine ⟨(hf i hi).1, fun k hk => ?_⟩
      rw [getD_head_replaced _ _ _ (by rw [Nat.add_assoc]; exact Nat.le_add_right _ _)]
      exact (hf i hi).2 k hk
    · intro k hk
      rw [List.getD_eq_getElem?_getD, List.getElem?_append_left (by simpa using Nat.lt_succ_of_le hk), List.getElem?_replicate,
        if_pos (Nat.lt_succ_of_le hk)]
      rfl

/-- **C83, `--lp`, dependences.** As `C66_legal_partial`, for systems where no row is false without coefficients. -/
theorem C83_legal_partial (o : GlpkOpts) (G : GlpkLibs) (g : Graph) (d0 : DfsState) (p : Prog) (cst : Cst) (ho : p.OrigOK)
    (hlp : LpPoints G.lp) (hmip : MipPoints G.mip) (hg : g.n = p.stmts.length) (hw : cst.WF)
    (hne : cst.rows ≠ []) (hc : cst.ncols = p.npar + 1 + p.stmts.length * (p.nvar + 1) + 1) (olp : o.lp = true)
    (hz : NoFalseRow (lexminInput o.dfp p cst))
    (hcons : ∀ i j k, i ≤ j → j ≤ k → k < g.n → g.Connected i k → g.Connected i j)
    (rarOpt nodepbound : Bool) (hdeps : ∀ d ∈ p.deps, DepOK p d)
    (hsys : ∀ y : List ℚ, cst.Sat y → (permutabilityConstraints rarOpt nodepbound p).Sat y)
    (sol : List Int) (hsol : progLexminGurobi o G g d0 p cst = some (some sol))
    (d : Dep) (hd : d ∈ p.deps) (hrar : d.rar = false) (hun : d.satisfied = false) (hcon : g.Connected d.src d.dest)
    (s t q : List Int) (hi : DepInst d.dpoly p.nvar p.nvar p.npar s t q) :
    0 ≤ hypValue p.nvar p.npar sol d.dest t - hypValue p.nvar p.npar sol d.src s := by
  have hdo := hdeps d hd
  obtain ⟨r, hr, _, h⟩ := C83_scaled_partial o G g d0 p cst ho hlp hmip hg (by have := hdo.src; omega) hw hne hc olp hz
  rw [hr, Option.some.injEq] at hsol
  obtain ⟨hs, _, _, ⟨x, f, cc, n, hcc, hx, hxz, _, hxs, hf⟩, _⟩ := h sol hsol
  obtain ⟨cc', k', hcc', hid⟩ := C16_consecutive_partial g d0 hcons
  rw [hcc, Option.some.injEq, Prod.mk.injEq] at hcc'
  obtain ⟨rfl, _⟩ := hcc'
  have heq : cc d.src = cc d.dest := (hid _ _ (by rw [hg]; exact hdo.src) (by rw [hg]; exact hdo.dest)).mpr hcon
  have hdep := (permutability_sat rarOpt nodepbound p x (fun d hd => ⟨(hdeps d hd).src, (hdeps d hd).dest⟩)).mp (hsys x hxs) d hd
    (by simp [hrar]) hun
  have hi' : DepInst d.dpoly p.nvar p.nvar p.npar (s.map (fun v : Int => (v : ℚ))) (t.map (fun v : Int => (v : ℚ)))
      (q.map (fun v : Int => (v : ℚ))) := by
    refine ⟨by simp [hi.hs], by simp [hi.ht], by simp [hi.hp], ?_⟩
    have := (Cst.sat_castInt d.dpoly (s ++ t ++ q)).mpr hi.sat
    simpa using this
  have hl := dep_legal_rat nodepbound p d x hdo hrar hx hxz hdep _ _ _ hi'
  have h1 := hypValue_scale hs hx hdo.dest (hf _ hdo.dest).2 t
  have h2 := hypValue_scale hs hx hdo.src (hf _ hdo.src).2 s
  rw [heq] at h2
  have hpos := (hf _ hdo.dest).1
  have : (0 : ℚ) ≤ ((hypValue p.nvar p.npar sol d.dest t - hypValue p.nvar p.npar sol d.src s : Int) : ℚ) := by
    push_cast
    rw [h1, h2, ← mul_sub]
    exact mul_nonneg (by linarith) hl
  exact_mod_cast this

theorem gurobi_ilp_prog (dfp : Bool) (G : GlpkLibs) (g : Graph) (d0 : DfsState) (p : Prog) (cst : Cst)
    (hc : cst.ncols = cstWidth p.nvar p.npar p.stmts.length) :
    progLexminGurobi ⟨false, dfp⟩ G g d0 p cst = some ((G.ilp (gurobiSystem (innerCst dfp p cst)) (cplexObjective p)).map
      (fun x => spreadMask (keepCols p) (permute dfp p (x.map cround)))) := by
  unfold progLexminGurobi
  rw [if_neg (by simpa using hc), lexminInput_eq]
  unfold lexminGurobi
  simp only [Bool.false_eq_true, if_false, permute, swapIdx_fold]
  cases G.ilp (gurobiSystem (innerCst dfp p cst)) (cplexObjective p) <;> rfl

/-- **C83 without `--lp`, with or without `--dfp`.** With an exact integer solver and no false row without coefficients,
`pluto_prog_constraints_lexmin` with Gurobi returns a point of the system, and fails only when there is none. Without
`--dfp` the value of the weighted objective at this point is least. -/
theorem C83_ilp_partial (dfp : Bool) (G : GlpkLibs) (g : Graph) (d0 : DfsState) (p : Prog) (cst : Cst) (ho : p.OrigOK) (hilp : IlpOptimal G.ilp)
    (hw : cst.WF) (hne : cst.rows ≠ []) (hc : cst.ncols = p.npar + 1 + p.stmts.length * (p.nvar + 1) + 1)
    (hz : NoFalseRow (lexminInput dfp p cst)) :
    ∃ r, progLexminGurobi ⟨false, dfp⟩ G g d0 p cst = some r ∧
      (∀ sol, r = some sol → Candidate p cst sol ∧ (dfp = false → ∀ z, Candidate p cst z → objValue p sol ≤ objValue p z)) ∧
      (r = none → ¬ ∃ z, Candidate p cst z) := by
  have hc' : cst.ncols = cstWidth p.nvar p.npar p.stmts.length := hc
  have hcount := keepCols_count ho
  have hwf := inner_WF dfp ho cst hw hne hc'
  have hcols : (innerCst dfp p cst).ncols = (keepCols p).countP id + 1 := by simp [innerCst, hne]
  rw [lexminInput_eq] at hz
  obtain ⟨h1, h2⟩ := hilp _ _ (gurobiSystem_WF hwf) (cplexObjective_nonneg p)
  have back : ∀ z, Candidate p cst z →
      let y := permuteB dfp p (keepMask (keepCols p) z)
      y.length + 1 = (innerCst dfp p cst).ncols ∧ NonNeg y ∧ (gurobiSystem (innerCst dfp p cst)).Sat y := by
    intro z hz'
    obtain ⟨hl, hp, hn, hsat⟩ := hz'
    have hl' : (keepCols p).length = z.length := by rw [keepCols_length]; exact hl.symm
    have hk : (keepMask (keepCols p) z).length = (keepCols p).countP id := keepMask_length _ _ hl'
    have hyl : (permuteB dfp p (keepMask (keepCols p) z)).length = (keepCols p).countP id := by
      rw [permuteB_length, hk]
    refine ⟨by rw [hyl, hcols], ?_, ?_⟩
    · intro a ha
      exact hn a (keep_mem _ _ _ ((permuteB_mem _ _ _).mp ha))
    · rw [gurobiSystem_sat hwf hz _ (by rw [hyl, hcols]), sat_inner dfp ho cst hw hc' _ hyl, permuteB_permuteB _ _ (by omega),
        spread_keep _ _ hl' ((padZero_iff ho z).mp hp)]
      exact hsat
  refine ⟨_, gurobi_ilp_prog dfp G g d0 p cst hc', ?_, ?_⟩
  · intro sol hsol
    obtain ⟨x, hx, rfl⟩ := Option.map_eq_some_iff.mp hsol
    obtain ⟨z, rfl, hzl, hzn, hzs, hmin⟩ := h1 x hx
    have hzl0 : z.length + 1 = (innerCst dfp p cst).ncols := hzl
    have hround : (z.map (fun a : Int => (a : ℚ))).map cround = z := by
      rw [List.map_map]
      conv_rhs => rw [← List.map_id z]
      exact List.map_congr_left (fun a _ => cround_int a)
    have hzl' : z.length = (keepCols p).countP id := by omega
    rw [gurobiSystem_sat hwf hz _ hzl0] at hzs
    rw [hround, permute_eq _ _ (by omega)]
    have hlen : SolLen p (spreadMask (keepCols p) (permuteB dfp p z)) := by
      show _ = _
      rw [spreadMask_length, keepCols_length]
    refine ⟨⟨hlen, (padZero_iff ho _).mpr (fun j hj => spread_zero _ _ _ hj), ?_, (sat_inner dfp ho cst hw hc' z hzl').mp hzs⟩, ?_⟩
    · exact spread_nonneg _ _ (fun a ha => hzn a ((permuteB_mem _ _ _).mp ha))
    · rintro rfl y hy
      obtain ⟨hb1, hb2, hb3⟩ := back y hy
      rw [← cplexObjective_value p ho _ hlen, ← cplexObjective_value p ho _ hy.1, searchOrder_eq false ho _ hlen,
        searchOrder_eq false ho _ hy.1, keep_spread _ _ (by rw [permuteB_length, hzl']), permuteB_permuteB _ _ (by omega)]
      exact hmin _ hb1 hb2 hb3
  · intro hr ⟨z, hz⟩
    rw [Option.map_eq_none_iff] at hr
    exact h2 hr ⟨_, back z hz⟩

/-- **C83, the LPs for the fusion conflict graph.** When no row is false without coefficients,
`pluto_fcg_constraints_lexmin_gurobi` returns a point of the system, and nothing only when there is none. -/
theorem C83_fcg_partial (G : GlpkLibs) (hlp : LpSolver G.lp) (obj : List Int) (c : Cst) (hc : c.WF) (hz : NoFalseRow c) :
    (∀ x, fcgLexminGurobi true G obj c = some x → x.length + 1 = c.ncols ∧ (∀ v ∈ x, 0 ≤ v) ∧ c.Sat x) ∧
    (fcgLexminGurobi true G obj c = none → ¬ ∃ x : List ℚ, x.length + 1 = c.ncols ∧ (∀ v ∈ x, 0 ≤ v) ∧ c.Sat x) := by
  obtain ⟨h1, h2⟩ := hlp (gurobiSystem c) obj (gurobiSystem_WF hc)
  refine ⟨fun x hx => ?_, fun hn => ?_⟩
  · obtain ⟨a1, a2, a3⟩ := h1 x hx
    exact ⟨a1, a2, (gurobiSystem_sat hc hz x a1).mp a3⟩
  · rintro ⟨x, a1, a2, a3⟩
    exact h2 hn ⟨x, a1, a2, (gurobiSystem_sat hc hz x a1).mpr a3⟩

/-! ### False rows -/

def guTrivial : Prog := ⟨1, 0, [⟨1, 1, ⟨2, []⟩, [true], [], []⟩], [], []⟩

/-- **C83 does not hold for systems with a false row without coefficients.** The row `0 >= 1` is taken for "trivial" and
left out: with every exact solver a "solution" is returned although there is no point. -/
theorem C83_violated_rows (G : GlpkLibs) (hilp : IlpOptimal G.ilp) (g : Graph) (d0 : DfsState) (dfp : Bool) :
    ∃ (p : Prog) (cst : Cst) (sol : List Int), p.OrigOK ∧ cst.WF ∧ cst.rows ≠ [] ∧
      cst.ncols = p.npar + 1 + p.stmts.length * (p.nvar + 1) + 1 ∧ (¬ ∃ z, Candidate p cst z) ∧
      progLexminGurobi ⟨false, dfp⟩ G g d0 p cst = some (some sol) := by
  have hobj : NonNeg (cplexObjective guTrivial) := cplexObjective_nonneg _
  have key : ∀ c : Cst, c = ⟨4, [⟨false, [0, 0, 0, -1]⟩]⟩ → ∃ x, G.ilp (gurobiSystem c) (cplexObjective guTrivial) = some x := by
    rintro c rfl
    have hwf : (gurobiSystem ⟨4, [⟨false, [0, 0, 0, -1]⟩]⟩).WF := by decide
    cases hx : G.ilp (gurobiSystem ⟨4, [⟨false, [0, 0, 0, -1]⟩]⟩) (cplexObjective guTrivial) with
    | some x => exact ⟨x, rfl⟩
    | none =>
      refine absurd ⟨[0, 0, 0], rfl, by simp [NonNeg], ?_⟩ ((hilp _ _ hwf hobj).2 hx)
      intro r hr
      simp [gurobiSystem] at hr
  obtain ⟨x, hx⟩ := key (innerCst dfp guTrivial ⟨4, [⟨false, [0, 0, 0, -1]⟩]⟩) (by cases dfp <;> decide)
  refine ⟨guTrivial, ⟨4, [⟨false, [0, 0, 0, -1]⟩]⟩, _, by unfold Prog.OrigOK; decide, by decide, by decide, rfl, ?_,
    by rw [gurobi_ilp_prog dfp G g d0 guTrivial _ rfl, hx]; rfl⟩
  rintro ⟨z, hl, _, _, hs⟩
  have h := noFalse_of_sat (c := ⟨4, [⟨false, [0, 0, 0, -1]⟩]⟩) (by decide) (by rw [show z.length = 3 from hl]) hs
  exact absurd h (by decide)

/-- The same for the LPs of the fusion conflict graph, where a solution means that two loops can be fused. -/
theorem C83_violated_fcg (G : GlpkLibs) (hlp : LpSolver G.lp) (obj : List Int) :
    ∃ (c : Cst) (x : List ℚ), c.WF ∧ fcgLexminGurobi true G obj c = some x ∧
      ¬ ∃ y : List ℚ, y.length + 1 = c.ncols ∧ (∀ v ∈ y, 0 ≤ v) ∧ c.Sat y := by
  have hwf : (gurobiSystem ⟨4, [⟨false, [0, 0, 0, -1]⟩]⟩).WF := by decide
  cases hx : G.lp (gurobiSystem ⟨4, [⟨false, [0, 0, 0, -1]⟩]⟩) obj with
  | none =>
    refine absurd ⟨[0, 0, 0], rfl, by simp, ?_⟩ ((hlp _ obj hwf).2 hx)
    intro r hr
    simp [gurobiSystem] at hr
  | some x =>
    refine ⟨⟨4, [⟨false, [0, 0, 0, -1]⟩]⟩, x, by decide, hx, ?_⟩
    rintro ⟨y, hl, _, hs⟩
    exact absurd (noFalse_of_sat (c := ⟨4, [⟨false, [0, 0, 0, -1]⟩]⟩) (by decide) hl hs) (by decide)

/-! ### Bounds with `--lp` -/

/-- With `--lp` no solution is ever taken for parallel by the skewing step (`is_ilp_solution_parallel`). -/
theorem C83_never_parallel (o : GlpkOpts) (G : GlpkLibs) (g : Graph) (d0 : DfsState) (p : Prog) (cst : Cst) (ho : p.OrigOK)
    (hlp : LpPoints G.lp) (hmip : MipPoints G.mip) (hg : g.n = p.stmts.length) (h0 : 0 < p.stmts.length) (hw : cst.WF)
    (hne : cst.rows ≠ []) (hc : cst.ncols = p.npar + 1 + p.stmts.length * (p.nvar + 1) + 1) (olp : o.lp = true)
    (hz : NoFalseRow (lexminInput o.dfp p cst)) (sol : List Int) (hsol : progLexminGurobi o G g d0 p cst = some (some sol)) :
    solParallel sol p.npar = false := by
  obtain ⟨r, hr, _, h⟩ := C83_scaled_partial o G g d0 p cst ho hlp hmip hg h0 hw hne hc olp hz
  rw [hr, Option.some.injEq] at hsol
  obtain ⟨hs, _, hnn, _, m, hm, hmk⟩ := h sol hsol
  have hl : 0 < sol.length := by unfold SolLen at hs; omega
  have h0 := hmk 0 (Nat.zero_le _)
  match sol, hl with
  | a :: l, _ =>
    have ha : a = m := h0
    have hsum : 0 ≤ (l.take p.npar).sum := List.sum_nonneg (fun b hb => hnn b (by simp [List.mem_of_mem_take hb]))
    unfold solParallel
    rw [decide_eq_false_iff_not, List.take_succ_cons, List.sum_cons]
    omega

/-- A loop nest with one dependence at distance `(a, 0)`. -/
def guProg (a : Int) : Prog := ⟨2, 0, [⟨2, 2, ⟨3, []⟩, [true, true], [], []⟩], [glProg2.uniDep a 0], []⟩

def guInner1 : Cst := ⟨5, [⟨false, [0, 1, 0, 0, 0]⟩, ⟨false, [1, -1, 0, 0, 0]⟩, ⟨false, [0, 1, 1, 0, -1]⟩]⟩
def guX1 : List ℚ := [0, 0, 1, 0]
def guScale1 : ScaleProb := (scalingProb guX1 (some (indexOf [0, 0, 0] 1)) 0 1).getD ⟨[], []⟩
noncomputable def guLibs1 : GlpkLibs := ⟨lpAt guInner1 [10, 8, 4, 1] guX1, fun _ _ => none, mipAt guScale1 [1, 0, 1, 0]⟩

theorem guLibs1_optimal : LpOptimal guLibs1.lp := by
  refine lpAt_optimal (fun y hy hn hs => ?_)
  match y, hy with
  | [w, a, b, c], _ =>
    simp only [List.mem_cons, List.not_mem_nil, or_false, forall_eq_or_imp, forall_eq] at hn
    simp only [guInner1, Cst.Sat, List.mem_cons, List.not_mem_nil, or_false, forall_eq_or_imp, forall_eq, Row.Sat, Bool.false_eq_true,
      if_false, aff, List.cons_append, List.nil_append, dot] at hs
    simp only [guX1, dot]
    push_cast at hs ⊢
    linarith

def guInner5 : Cst := ⟨5, [⟨false, [0, 1, 0, 0, 0]⟩, ⟨false, [1, -5, 0, 0, 0]⟩, ⟨false, [0, 1, 0, 0, -1]⟩]⟩
def guX5 : List ℚ := [5, 1, 0, 0]
def guScale5 : ScaleProb := (scalingProb guX5 (some (indexOf [0, 0, 0] 1)) 0 1).getD ⟨[], []⟩
noncomputable def guLibs5 : GlpkLibs := ⟨lpAt guInner5 [10, 8, 4, 1] guX5, fun _ _ => none, mipAt guScale5 [1, 1, 0, 0]⟩

theorem guLibs5_optimal : LpOptimal guLibs5.lp := by
  refine lpAt_optimal (fun y hy hn hs => ?_)
  match y, hy with
  | [w, a, b, c], _ =>
    simp only [List.mem_cons, List.not_mem_nil, or_false, forall_eq_or_imp, forall_eq] at hn
    simp only [guInner5, Cst.Sat, List.mem_cons, List.not_mem_nil, or_false, forall_eq_or_imp, forall_eq, Row.Sat, Bool.false_eq_true,
      if_false, aff, List.cons_append, List.nil_append, dot] at hs
    simp only [guX5, dot]
    push_cast at hs ⊢
    linarith

theorem guDeps (a : Int) (rows : List (List Int)) : (∀ d ∈ (guProg a).deps, DepOK (guProg a) d) ∧
    ∀ r ∈ (permutabilityConstraints false false (guProg a)).rows, r ∈ (glSys (guProg a) rows).rows := by
  refine ⟨?_, fun r hr => List.mem_append_left _ hr⟩
  intro d hd
  have : d = glProg2.uniDep a 0 := by simpa [guProg] using hd
  subst this
  refine ⟨by simp [guProg, glProg2.uniDep], by simp [guProg, glProg2.uniDep], ?_, rfl, ?_, rfl⟩
  · simp [glProg2.uniDep, Cst.WF]
  · simp [glProg2.uniDep, Cst.WF]

/-- **C83 does not hold with `--lp`: parallelism is not seen.** The dependence at distance (1, 0) is not carried by the
hyperplane (0, 1) that is returned, and GLPK returns the same hyperplane with bound 0, which the skewing step takes for
parallel. With Gurobi the bound coefficients are replaced by the factor 1. -/
theorem C83_violated_parallel : ∃ (G : GlpkLibs) (d0 : DfsState) (p : Prog) (cst : Cst) (sol sol' : List Int),
    LpPoints G.lp ∧ LpOptimal G.lp ∧ MipPoints G.mip ∧ p.OrigOK ∧ (∀ d ∈ p.deps, DepOK p d) ∧ p.deps ≠ [] ∧
    (∀ r ∈ (permutabilityConstraints false false p).rows, r ∈ cst.rows) ∧
    progLexminGurobi ⟨true, true⟩ G (ddgCreate p) d0 p cst = some (some sol) ∧
    (∀ d ∈ p.deps, ∀ s t q : List Int, DepInst d.dpoly p.nvar p.nvar p.npar s t q →
      hypValue p.nvar p.npar sol d.dest t - hypValue p.nvar p.npar sol d.src s = 0) ∧
    solParallel sol p.npar = false ∧
    progLexminGlpk ⟨true, true⟩ (fullLibs G) (ddgCreate p) d0 p cst = some (some sol') ∧ solParallel sol' p.npar = true := by
  refine ⟨guLibs1, exState, guProg 1, glSys (guProg 1) [[0, 1, 1, 0, -1]], [1, 0, 1, 0], [0, 0, 1, 0], lpAt_points (by decide +kernel),
    guLibs1_optimal, mipAt_points (by decide +kernel), by unfold Prog.OrigOK; decide, (guDeps 1 []).1, by decide, (guDeps 1 _).2,
    by decide +kernel, ?_, by decide, by decide +kernel, by decide⟩
  intro d hd s t q hi
  have : d = glProg2.uniDep 1 0 := by simpa [guProg] using hd
  subst this
  obtain ⟨h1, h2, h3, hs⟩ := hi
  match s, t, q, h1, h2, h3 with
  | [s1, s2], [t1, t2], [], _, _, _ =>
    simp only [glProg2.uniDep, Cst.Sat, List.mem_cons, List.not_mem_nil, or_false, forall_eq_or_imp, forall_eq, Row.Sat, if_true, aff,
      List.cons_append, List.nil_append, dot] at hs
    simp [hypValue, guProg, glProg2.uniDep]
    simp at hs
    omega

/-- **C83 does not hold with `--lp` for the bound.** The dependence at distance 5 along the hyperplane (1, 0) is longer than
the bound 1 that is returned (the factor), although the bound of the rational point is 5. -/
theorem C83_violated_bound : ∃ (G : GlpkLibs) (d0 : DfsState) (p : Prog) (cst : Cst) (sol : List Int) (d : Dep) (s t q : List Int),
    LpPoints G.lp ∧ LpOptimal G.lp ∧ MipPoints G.mip ∧ p.OrigOK ∧ (∀ d ∈ p.deps, DepOK p d) ∧
    (∀ r ∈ (permutabilityConstraints false false p).rows, r ∈ cst.rows) ∧
    progLexminGurobi ⟨true, true⟩ G (ddgCreate p) d0 p cst = some (some sol) ∧
    d ∈ p.deps ∧ d.rar = false ∧ d.satisfied = false ∧ DepInst d.bpoly p.nvar p.nvar p.npar s t q ∧
    boundValue p.npar sol q < hypValue p.nvar p.npar sol d.dest t - hypValue p.nvar p.npar sol d.src s := by
  refine ⟨guLibs5, exState, guProg 5, glSys (guProg 5) [[0, 1, 0, 0, -1]], [1, 1, 0, 0], glProg2.uniDep 5 0, [0, 0], [5, 0], [],
    lpAt_points (by decide +kernel), guLibs5_optimal, mipAt_points (by decide +kernel), by unfold Prog.OrigOK; decide, (guDeps 5 []).1,
    (guDeps 5 _).2, by decide +kernel, by decide, rfl, rfl, ⟨rfl, rfl, rfl, by unfold Cst.Sat Row.Sat; decide⟩, by decide⟩

/-! ### The hypotheses can be met -/

example : ∀ (s t : List Int), DepInst (glProg2.uniDep 1 0).dpoly 2 2 0 s t [] →
    0 ≤ hypValue 2 0 [1, 0, 1, 0] 0 t - hypValue 2 0 [1, 0, 1, 0] 0 s := by
  intro s t hi
  refine C83_legal_partial ⟨true, true⟩ guLibs1 (ddgCreate (guProg 1)) exState (guProg 1) (glSys (guProg 1) [[0, 1, 1, 0, -1]])
    (by unfold Prog.OrigOK; decide) (lpAt_points (by decide +kernel)) (mipAt_points (by decide +kernel)) rfl (by decide +kernel) (by decide +kernel)
    rfl rfl (by decide +kernel) ?_ false false (guDeps 1 []).1 ?_ _ (by decide +kernel)
    (glProg2.uniDep 1 0) (by decide) rfl rfl Relation.ReflTransGen.refl s t [] hi
  · refine consecutive_of_neighbours _ (fun i j he => ?_)
    have h1 : i < 1 := he.1
    have h2 : j < 1 := he.2.1
    omega
  · intro y hy r hr
    exact hy r (List.mem_append_left _ hr)

example : (∃ ilp, IlpOptimal ilp) ∧ (∃ lp, LpSolver lp) ∧ NoFalseRow (lexminInput false (guProg 5) (glSys (guProg 5) [[0, 1, 0, 0, -1]])) :=
  ⟨exists_ilpOptimal, lpSolver_exists, by decide +kernel⟩

end Pluto
