import Verif.Lemmas.LpObj
import Verif.Lemmas.LexScale
import Verif.Props.Legality
import Verif.Props.Ddg

/-! C66: integer coefficients from GLPK. -/

namespace Pluto

/-- **C66, `--lp`, what does hold.** With an LP solver that returns points and an exact solver for the scaling problem,
`pluto_prog_constraints_lexmin` fails only when the LP solver does. The coefficients it returns are those of a
non-negative rational point of the system, multiplied by factors of at least one that depend only on the component id
of the statement. The bound coefficients are rounded and multiplied by the greatest factor (rounded). -/
theorem C66_scaled_partial (o : GlpkOpts) (G : GlpkLibs) (g : Graph) (d0 : DfsState) (p : Prog) (cst : Cst) (ho : p.OrigOK)
    (hlp : LpPoints G.lp) (hmip : MipPoints G.mip) (hg : g.n = p.stmts.length) (h0 : 0 < p.stmts.length) (hw : cst.WF)
    (hne : cst.rows ≠ []) (hc : cst.ncols = p.npar + 1 + p.stmts.length * (p.nvar + 1) + 1) (olp : o.lp = true) :
    ∃ r, progLexminGlpk o G g d0 p cst = some r ∧
      (r = none ↔ G.lp (lexminInput o.dfp p cst) (cplexObjective p) = none) ∧
      ∀ sol, r = some sol → SolLen p sol ∧ PadZero p sol ∧ NonNeg sol ∧
        ∃ (x : List ℚ) (f : Int → ℚ) (cc : Nat → Int) (n : Nat), ddgComputeCc g d0 = some (cc, n) ∧
          SolLen p x ∧ PadZero p x ∧ (∀ a ∈ x, 0 ≤ a) ∧ cst.Sat x ∧
          (∀ i < p.stmts.length, 1 ≤ f (cc i) ∧ ∀ k ≤ p.nvar,
            (sol.getD (p.npar + 1 + i * (p.nvar + 1) + k) 0 : ℚ) = f (cc i) * x.getD (p.npar + 1 + i * (p.nvar + 1) + k) 0) ∧
          ∃ m : Int, (∀ i < p.stmts.length, f (cc i) ≤ m + 1 / 2) ∧ ∀ k ≤ p.npar, sol.getD k 0 = m * ⌊x.getD k 0 + 1 / 2⌋ :=
  glpk_lp_spec d0 ho hlp hmip hg h0 hw hne hc olp

/-- **C66, `--lp`, dependences.** When the statements of every component of the dependence graph are numbered
consecutively, the integer coefficients keep every dependence (of the constraints of validity in the system) whose end
points are connected in the graph: the hyperplane of the target is never behind that of the source. Missing: graphs
where a component is interrupted, see `C66_violated_components`. -/
theorem C66_legal_partial (o : GlpkOpts) (G : GlpkLibs) (g : Graph) (d0 : DfsState) (p : Prog) (cst : Cst) (ho : p.OrigOK)
    (hlp : LpPoints G.lp) (hmip : MipPoints G.mip) (hg : g.n = p.stmts.length) (hw : cst.WF)
    (hne : cst.rows ≠ []) (hc : cst.ncols = p.npar + 1 + p.stmts.length * (p.nvar + 1) + 1) (olp : o.lp = true)
    (hcons : ∀ i j k, i ≤ j → j ≤ k → k < g.n → g.Connected i k → g.Connected i j)
    (rarOpt nodepbound : Bool) (hdeps : ∀ d ∈ p.deps, DepOK p d)
    (hsys : ∀ y : List ℚ, cst.Sat y → (permutabilityConstraints rarOpt nodepbound p).Sat y)
    (sol : List Int) (hsol : progLexminGlpk o G g d0 p cst = some (some sol))
    (d : Dep) (hd : d ∈ p.deps) (hrar : d.rar = false) (hun : d.satisfied = false) (hcon : g.Connected d.src d.dest)
    (s t q : List Int) (hi : DepInst d.dpoly p.nvar p.nvar p.npar s t q) :
    0 ≤ hypValue p.nvar p.npar sol d.dest t - hypValue p.nvar p.npar sol d.src s := by
  have hdo := hdeps d hd
  obtain ⟨r, hr, _, h⟩ := C66_scaled_partial o G g d0 p cst ho hlp hmip hg (by have := hdo.src; omega) hw hne hc olp
  rw [hr, Option.some.injEq] at hsol
  obtain ⟨hs, _, _, x, f, cc, n, hcc, hx, hxz, _, hxs, hf, _⟩ := h sol hsol
  obtain ⟨cc', k', hcc', hid⟩ := C16_consecutive_partial g d0 hcons
  rw [hcc, Option.some.injEq, Prod.mk.injEq] at hcc'
  obtain ⟨rfl, _⟩ := hcc'
  have heq : cc d.src = cc d.dest := (hid _ _ (by rw [hg]; exact hdo.src) (by rw [hg]; exact hdo.dest)).mpr hcon
  have hdep := (permutability_sat rarOpt nodepbound p x (fun d hd => ⟨(hdeps d hd).src, (hdeps d hd).dest⟩)).mp (hsys x hxs) d hd
    (by simp [hrar]) hun
  have hi' : DepInst d.dpoly p.nvar p.nvar p.npar (s.map (fun v : Int => (v : ℚ))) (t.map (fun v : Int => (v : ℚ)))
      (q.map (fun v : Int => (v : ℚ))) := by
    refine ⟨by simp [hi.hs], by simp [hi.ht], by simp [hi.hp], ?_⟩
    have := (Cst.sat_castInt d.dpoly (s ++ t ++ q)).mpr hi.sat
    simpa using this
  have hl := dep_legal_rat nodepbound p d x hdo hrar hx hxz hdep _ _ _ hi'
  have h1 := hypValue_scale hs hx hdo.dest (hf _ hdo.dest).2 t
  have h2 := hypValue_scale hs hx hdo.src (hf _ hdo.src).2 s
  rw [heq] at h2
  have hpos := (hf _ hdo.dest).1
  have : (0 : ℚ) ≤ ((hypValue p.nvar p.npar sol d.dest t - hypValue p.nvar p.npar sol d.src s : Int) : ℚ) := by
    push_cast
    rw [h1, h2, ← mul_sub]
    exact mul_nonneg (by linarith) hl
  exact_mod_cast this

/-- **C66 without `--lp` and `--dfp`.** With an exact integer solver, `pluto_prog_constraints_lexmin` with GLPK returns a
point of the system with the least value of the weighted objective, and fails only when there is no point. -/
theorem C66_ilp (G : GlpkLibs) (g : Graph) (d0 : DfsState) (p : Prog) (cst : Cst) (ho : p.OrigOK) (hilp : IlpOptimal G.ilp)
    (hw : cst.WF) (hne : cst.rows ≠ []) (hc : cst.ncols = p.npar + 1 + p.stmts.length * (p.nvar + 1) + 1) :
    ∃ r, progLexminGlpk ⟨false, false⟩ G g d0 p cst = some r ∧
      (∀ sol, r = some sol → Candidate p cst sol ∧ ∀ z, Candidate p cst z → objValue p sol ≤ objValue p z) ∧
      (r = none → ¬ ∃ z, Candidate p cst z) := by
  have hc' : cst.ncols = cstWidth p.nvar p.npar p.stmts.length := hc
  have hcount := keepCols_count ho
  have hwf := inner_WF false ho cst hw hne hc'
  have hcols : (innerCst false p cst).ncols = (keepCols p).countP id + 1 := by simp [innerCst, hne]
  obtain ⟨h1, h2⟩ := hilp _ _ hwf (cplexObjective_nonneg p)
  have back : ∀ z, Candidate p cst z →
      let y := permuteB false p (keepMask (keepCols p) z)
      y.length + 1 = (innerCst false p cst).ncols ∧ NonNeg y ∧ (innerCst false p cst).Sat y := by
    intro z hz
    obtain ⟨hl, hp, hn, hsat⟩ := hz
    have hl' : (keepCols p).length = z.length := by rw [keepCols_length]; exact hl.symm
    have hk : (keepMask (keepCols p) z).length = (keepCols p).countP id := keepMask_length _ _ hl'
    have hyl : (permuteB false p (keepMask (keepCols p) z)).length = (keepCols p).countP id := by
      rw [permuteB_length, hk]
    refine ⟨by rw [hyl, hcols], ?_, ?_⟩
    · intro a ha
      exact hn a (keep_mem _ _ _ ((permuteB_mem _ _ _).mp ha))
    · rw [sat_inner false ho cst hw hc' _ hyl, permuteB_permuteB _ _ (by omega),
        spread_keep _ _ hl' ((padZero_iff ho z).mp hp)]
      exact hsat
  have hprog : progLexminGlpk ⟨false, false⟩ G g d0 p cst = some ((G.ilp (innerCst false p cst) (cplexObjective p)).map
      (fun x => spreadMask (keepCols p) (permute false p (x.map cround)))) := by
    unfold progLexminGlpk
    rw [if_neg (by simpa using hc'), lexminInput_eq]
    unfold lexminGlpk
    simp only [Bool.false_eq_true, if_false, Bool.or_self, permute, swapIdx_fold]
    cases G.ilp (innerCst false p cst) (cplexObjective p) <;> rfl
  refine ⟨_, hprog, ?_, ?_⟩
  · intro sol hsol
    obtain ⟨x, hx, rfl⟩ := Option.map_eq_some_iff.mp hsol
    obtain ⟨z, rfl, hzl, hzn, hzs, hmin⟩ := h1 x hx
    have hround : (z.map (fun a : Int => (a : ℚ))).map cround = z := by
      rw [List.map_map]
      conv_rhs => rw [← List.map_id z]
      exact List.map_congr_left (fun a _ => cround_int a)
    have hzl' : z.length = (keepCols p).countP id := by omega
    rw [hround, permute_eq _ _ (by omega)]
    have hlen : SolLen p (spreadMask (keepCols p) (permuteB false p z)) := by
      show _ = _
      rw [spreadMask_length, keepCols_length]
    refine ⟨⟨hlen, (padZero_iff ho _).mpr (fun j hj => spread_zero _ _ _ hj), ?_, (sat_inner false ho cst hw hc' z hzl').mp hzs⟩, ?_⟩
    · exact spread_nonneg _ _ (fun a ha => hzn a ((permuteB_mem _ _ _).mp ha))
    · intro y hy
      obtain ⟨hb1, hb2, hb3⟩ := back y hy
      rw [← cplexObjective_value p ho _ hlen, ← cplexObjective_value p ho _ hy.1, searchOrder_eq false ho _ hlen,
        searchOrder_eq false ho _ hy.1, keep_spread _ _ (by rw [permuteB_length, hzl']), permuteB_permuteB _ _ (by omega)]
      exact hmin _ hb1 hb2 hb3
  · intro hr ⟨z, hz⟩
    rw [Option.map_eq_none_iff] at hr
    exact h2 hr ⟨_, back z hz⟩

/-- **C66 does not hold with `--dfp --ilp`.** Whenever the integer solver returns a point with a coefficient that is not
zero, `get_scaling_lp_glpk` reads arrays that were never allocated (a null pointer). -/
theorem C66_violated_dfp_ilp (G : GlpkLibs) (g : Graph) (d0 : DfsState) (p : Prog) (cst : Cst) (x : List ℚ)
    (hx : G.ilp (lexminInput true p cst) (cplexObjective p) = some x) (ha : ∃ a ∈ x.drop (p.npar + 1), 1 ≤ a) :
    progLexminGlpk ⟨false, true⟩ G g d0 p cst = none := by
  obtain ⟨a, ha, h1⟩ := ha
  have hnone : ∀ (l : List (ℚ × Nat)), l ≠ [] → l.mapM (fun a => (do
      let e ← (← (none : Option (List (Nat × Nat))))[a.2]?
      return [(e.1, a.1), (e.2, (-1 : ℚ))] : Option (List (Nat × ℚ)))) = none := by
    intro l hl
    cases l with
    | nil => exact absurd rfl hl
    | cons b l => rw [List.mapM_cons]; rfl
  have hs : scalingProb x none p.npar 0 = none := by
    unfold scalingProb
    simp only [Option.bind_eq_bind, Option.pure_def] at hnone ⊢
    rw [hnone]
    · rfl
    · intro hnil
      obtain ⟨i, hi⟩ := List.mem_iff_getElem?.mp ha
      have : (a, i) ∈ ((x.drop (p.npar + 1)).zipIdx.filter (fun a => decide (scaleTol < |a.1|))) := by
        rw [List.mem_filter]
        refine ⟨by rw [List.mem_zipIdx_iff_getElem?]; exact hi, ?_⟩
        have : scaleTol < |a| := by
          rw [abs_of_pos (by linarith)]
          unfold scaleTol
          norm_num
          linarith
        simpa using this
      rw [hnil] at this
      cases this
  unfold progLexminGlpk
  by_cases hw : cst.ncols ≠ cstWidth p.nvar p.npar p.stmts.length
  · rw [if_pos hw]
  · rw [if_neg hw]
    simp only [Bool.false_eq_true, if_false, lexminGlpk, hx, Bool.or_true, if_true, Option.bind_eq_bind, Option.bind_some, hs,
      Option.bind_none]

/-! ### Concrete solvers -/

/-- Decides `ScaleProb.Sol`. -/
def ScaleCol.okB (v : ℚ) : ScaleCol → Bool
  | .zero => v = 0
  | .int => 1 ≤ v ∧ v.den = 1
  | .rat => 1 ≤ v

theorem ScaleCol.okB_ok {v : ℚ} {k : ScaleCol} (h : k.okB v = true) : k.Ok v := by
  cases k with
  | zero => simpa [ScaleCol.okB, ScaleCol.Ok] using h
  | rat => simpa [ScaleCol.okB, ScaleCol.Ok] using h
  | int =>
    simp only [ScaleCol.okB, decide_eq_true_eq] at h
    refine ⟨h.1, v.num, ?_⟩
    rw [← Rat.den_eq_one_iff v |>.mp h.2]
    simp

def ScaleProb.solB (P : ScaleProb) (s : List ℚ) : Bool :=
  s.length = P.cols.length ∧ (∀ i < P.cols.length, (P.cols.getD i .zero).okB (s.getD i 0) = true) ∧
  ∀ row ∈ P.rows, (row.map (fun e => e.2 * s.getD (e.1 - 1) 0)).sum = 0

theorem ScaleProb.solB_sol {P : ScaleProb} {s : List ℚ} (h : P.solB s = true) : P.Sol s := by
  simp only [ScaleProb.solB, decide_eq_true_eq] at h
  refine ⟨h.1, fun i k hk => ?_, h.2.2⟩
  have hi := (List.getElem?_eq_some_iff.mp hk).1
  have := ScaleCol.okB_ok (h.2.1 i hi)
  have e : P.cols.getD i .zero = k := by rw [List.getD_eq_getElem?_getD, hk]; rfl
  rwa [e] at this

open Classical in
/-- A solver of scaling problems with a prescribed answer for one of them. -/
noncomputable def mipAt (P0 : ScaleProb) (s0 : List ℚ) (P : ScaleProb) : Option (List ℚ) :=
  @ite _ (P = P0) (instDecidableEqScaleProb P P0) (some s0) (if h : ∃ s, P.Sol s then some h.choose else none)

theorem mipAt_points {P0 : ScaleProb} {s0 : List ℚ} (h : P0.solB s0 = true) : MipPoints (mipAt P0 s0) := by
  intro P
  unfold mipAt
  by_cases h0 : P = P0
  · rw [if_pos h0]
    refine ⟨fun s hs => ?_, fun hn => by cases hn⟩
    rw [Option.some.injEq] at hs
    rw [← hs, h0]
    exact ScaleProb.solB_sol h
  · rw [if_neg h0]
    refine ⟨fun s hs => ?_, fun hn hex => ?_⟩
    · by_cases h : ∃ s, P.Sol s
      · rw [dif_pos h, Option.some.injEq] at hs
        rw [← hs]
        exact h.choose_spec
      · rw [dif_neg h] at hs; cases hs
    · rw [dif_pos hex] at hn; cases hn

/-- An LP solver that answers for one system and one objective. -/
def lpAt (c0 : Cst) (obj0 : List Int) (x0 : List ℚ) (c : Cst) (obj : List Int) : Option (List ℚ) :=
  if c = c0 ∧ obj = obj0 then some x0 else none

instance (c : Cst) (x : List ℚ) : Decidable (c.Sat x) :=
  inferInstanceAs (Decidable (∀ r ∈ c.rows, if r.eq then aff r.val x = 0 else 0 ≤ aff r.val x))

theorem lpAt_points {c0 : Cst} {obj0 : List Int} {x0 : List ℚ}
    (h : x0.length + 1 = c0.ncols ∧ c0.Sat x0 ∧ ∀ a ∈ x0, a = 0 ∨ 1 / 10000000 < a) : LpPoints (lpAt c0 obj0 x0) := by
  intro c obj x _ hx
  unfold lpAt at hx
  split_ifs at hx with hc
  rw [Option.some.injEq] at hx
  rw [← hx, hc.1]
  exact h

theorem lpAt_optimal {c0 : Cst} {obj0 : List Int} {x0 : List ℚ}
    (h : ∀ y : List ℚ, y.length + 1 = c0.ncols → (∀ a ∈ y, 0 ≤ a) → c0.Sat y → dot obj0 x0 ≤ dot obj0 y) : LpOptimal (lpAt c0 obj0 x0) := by
  intro c obj x _ hx
  unfold lpAt at hx
  split_ifs at hx with hc
  rw [Option.some.injEq] at hx
  rw [← hx, hc.1, hc.2]
  exact h

/-! ### Statements of an interrupted component -/

/-- Four statements; the second follows the first and the first the second at different speeds, the fourth follows the
first, the third is alone. -/
def glStmt : Stmt := ⟨1, 1, ⟨3, [⟨false, [1, 0, 0]⟩, ⟨false, [-1, 1, 0]⟩]⟩, [true], [], []⟩
def glPoly (r : List Int) : Cst := ⟨4, [⟨true, r⟩, ⟨false, [1, 0, 0, 0]⟩, ⟨false, [-1, 0, 1, 0]⟩]⟩
def glDep (s t : Nat) (r : List Int) : Dep := ⟨s, t, false, glPoly r, glPoly r, false, -1, [], []⟩
def glProg : Prog :=
  ⟨1, 1, [glStmt, glStmt, glStmt, glStmt], [glDep 0 1 [3, -2, 0, 0], glDep 1 0 [2, -3, 0, 6], glDep 0 3 [3, -2, 0, 0]], []⟩

/-- The constraints of validity and bound of a program, and further rows. -/
def glSys (p : Prog) (rows : List (List Int)) : Cst :=
  ⟨cstWidth p.nvar p.npar p.stmts.length, (permutabilityConstraints false false p).rows ++ rows.map (fun v => ⟨false, v⟩)⟩

/-- Every statement has a coefficient of at least one. -/
def glRows : List (List Int) :=
  [[0, 0, 1, 0, 0, 0, 0, 0, 0, 0, -1], [0, 0, 0, 0, 1, 0, 0, 0, 0, 0, -1], [0, 0, 0, 0, 0, 0, 1, 0, 0, 0, -1], [0, 0, 0, 0, 0, 0, 0, 0, 1, 0, -1]]

/-- The system for the solver, written out. -/
def glInner : Cst := ⟨11, [⟨false, [0, 0, -2, 0, 0, 0, 0, 0, 3, 0, 0]⟩, ⟨false, [0, 0, -2, 0, 3, 0, 0, 0, 0, 0, 0]⟩,
  ⟨false, [0, 0, 0, -1, 0, 0, 0, 0, 0, 1, 0]⟩, ⟨false, [0, 0, 0, -1, 0, 1, 0, 0, 0, 0, 0]⟩,
  ⟨false, [0, 0, 2, 0, -3, 0, 0, 0, 0, 0, 0]⟩, ⟨false, [0, 0, 2, 1, 0, -1, 0, 0, 0, 0, 0]⟩,
  ⟨false, [0, 1, -2, -1, 0, 1, 0, 0, 0, 0, 0]⟩, ⟨false, [0, 1, 0, 1, 0, -1, 0, 0, 0, 0, 0]⟩,
  ⟨false, [0, 1, 0, 1, 0, 0, 0, 0, 0, -1, 0]⟩, ⟨false, [1, 0, 0, 0, 0, 0, 0, 0, 0, 0, 0]⟩,
  ⟨false, [2, 0, 2, 0, -3, 0, 0, 0, 0, 0, 0]⟩, ⟨false, [2, 0, 2, 0, 0, 0, 0, 0, -3, 0, 0]⟩,
  ⟨false, [3, 0, -2, 0, 3, 0, 0, 0, 0, 0, 0]⟩, ⟨false, [0, 0, 1, 0, 0, 0, 0, 0, 0, 0, -1]⟩,
  ⟨false, [0, 0, 0, 0, 1, 0, 0, 0, 0, 0, -1]⟩, ⟨false, [0, 0, 0, 0, 0, 0, 1, 0, 0, 0, -1]⟩,
  ⟨false, [0, 0, 0, 0, 0, 0, 0, 0, 1, 0, -1]⟩]⟩

def glX : List ℚ := [0, 3 / 2, 3 / 2, 0, 1, 3 / 2, 1, 0, 1, 0]
def glScale : ScaleProb := (scalingProb glX (some (indexOf [0, 0, 0, 0, 1, 1, 1, 1] 2)) 1 2).getD ⟨[], []⟩
noncomputable def glLibs : GlpkLibs :=
  ⟨lpAt glInner [100, 20, 3, 1, 3, 1, 3, 1, 3, 1] glX, fun _ _ => none, mipAt glScale [2, 1, 3, 0, 2, 3, 1, 0, 1, 0]⟩

theorem glLibs_points : LpPoints glLibs.lp := lpAt_points (by decide +kernel)
theorem glLibs_optimal : LpOptimal glLibs.lp := by
  refine lpAt_optimal (fun y hy hn hs => ?_)
  match y, hy with
  | [u, w, a, a', b, b', c, c', d, d'], _ =>
    simp only [List.mem_cons, List.not_mem_nil, or_false, forall_eq_or_imp, forall_eq] at hn
    simp only [glInner, Cst.Sat, List.mem_cons, List.not_mem_nil, or_false, forall_eq_or_imp, forall_eq, Row.Sat, Bool.false_eq_true,
      if_false, aff, List.cons_append, List.nil_append, dot] at hs
    simp only [glX, dot]
    push_cast at hs ⊢
    linarith

/-- **C66 does not hold with `--lp`.** The factors are per component, but the component ids are wrong when a component
is interrupted (C16). Here the LP solver returns an optimal point and the scaling problem is solved exactly, the system
contains the constraints of validity, and the returned integer coefficients reverse a dependence. -/
theorem C66_violated_components : ∃ (G : GlpkLibs) (d0 : DfsState) (p : Prog) (cst : Cst) (sol : List Int) (d : Dep) (s t q : List Int),
    LpPoints G.lp ∧ LpOptimal G.lp ∧ MipPoints G.mip ∧ p.OrigOK ∧ (∀ d ∈ p.deps, DepOK p d) ∧
    (∀ r ∈ (permutabilityConstraints false false p).rows, r ∈ cst.rows) ∧
    progLexminGlpk ⟨true, true⟩ G (ddgCreate p) d0 p cst = some (some sol) ∧
    d ∈ p.deps ∧ d.rar = false ∧ d.satisfied = false ∧ DepInst d.dpoly p.nvar p.nvar p.npar s t q ∧
    hypValue p.nvar p.npar sol d.dest t - hypValue p.nvar p.npar sol d.src s < 0 := by
  refine ⟨glLibs, exState, glProg, glSys glProg glRows, [0, 4, 3, 0, 2, 3, 1, 0, 1, 0], glDep 0 3 [3, -2, 0, 0], [2], [3], [2],
    glLibs_points, glLibs_optimal, mipAt_points (by decide +kernel), by unfold Prog.OrigOK; decide, ?_, ?_, by decide +kernel, by decide, rfl, rfl,
    ⟨rfl, rfl, rfl, by unfold Cst.Sat Row.Sat; decide⟩, by decide⟩
  · intro d hd
    simp only [glProg, List.mem_cons, List.not_mem_nil, or_false] at hd
    rcases hd with rfl | rfl | rfl <;> exact ⟨by decide, by decide, by decide, by decide, by decide, by decide⟩
  · intro r hr
    exact List.mem_append_left _ hr

/-! ### Rounding of the bound -/

def glProg2 : Prog :=
  ⟨2, 0, [⟨2, 2, ⟨3, []⟩, [true, true], [], []⟩], [uniDep 1 (-2), uniDep 0 1], []⟩
where uniDep (a b : Int) : Dep :=
  let c : Cst := ⟨5, [⟨true, [1, 0, -1, 0, a]⟩, ⟨true, [0, 1, 0, -1, b]⟩]⟩
  ⟨0, 0, false, c, c, false, -1, [], []⟩

def glInner2 : Cst := ⟨5, [⟨true, [0, 0, 0, 0, 0]⟩, ⟨false, [0, 0, 1, 0, 0]⟩, ⟨false, [0, 1, -2, 0, 0]⟩, ⟨false, [1, -1, 2, 0, 0]⟩,
  ⟨false, [1, 0, -1, 0, 0]⟩, ⟨false, [0, 1, 1, 0, -1]⟩]⟩
def glX2 : List ℚ := [1 / 4, 3 / 4, 1 / 4, 0]
def glScale2 : ScaleProb := (scalingProb glX2 (some (indexOf [0, 0, 0] 1)) 0 1).getD ⟨[], []⟩
noncomputable def glLibs2 : GlpkLibs := ⟨lpAt glInner2 [10, 8, 4, 1] glX2, fun _ _ => none, mipAt glScale2 [4, 3, 1, 0]⟩

theorem glLibs2_points : LpPoints glLibs2.lp := lpAt_points (by decide +kernel)
theorem glLibs2_optimal : LpOptimal glLibs2.lp := by
  refine lpAt_optimal (fun y hy hn hs => ?_)
  match y, hy with
  | [w, a, b, c], _ =>
    simp only [List.mem_cons, List.not_mem_nil, or_false, forall_eq_or_imp, forall_eq] at hn
    simp only [glInner2, Cst.Sat, List.mem_cons, List.not_mem_nil, or_false, forall_eq_or_imp, forall_eq, Row.Sat, Bool.false_eq_true,
      if_false, if_true, aff, List.cons_append, List.nil_append, dot] at hs
    simp only [glX2, dot]
    push_cast at hs ⊢
    linarith

/-- **C66 does not hold with `--lp` for the bound.** The bound coefficients are rounded before they are multiplied. For a
loop nest with the dependence distances (1, -2) and (0, 1) the bound is 1/4 for the coefficients 3/4 and 1/4; the
coefficients become 3 and 1, the bound 4 * 0, and a dependence is longer than the bound. -/
theorem C66_violated_bound : ∃ (G : GlpkLibs) (d0 : DfsState) (p : Prog) (cst : Cst) (sol : List Int) (d : Dep) (s t q : List Int),
    LpPoints G.lp ∧ LpOptimal G.lp ∧ MipPoints G.mip ∧ p.OrigOK ∧ (∀ d ∈ p.deps, DepOK p d) ∧
    (∀ r ∈ (permutabilityConstraints false false p).rows, r ∈ cst.rows) ∧
    progLexminGlpk ⟨true, true⟩ G (ddgCreate p) d0 p cst = some (some sol) ∧
    d ∈ p.deps ∧ d.rar = false ∧ d.satisfied = false ∧ DepInst d.bpoly p.nvar p.nvar p.npar s t q ∧
    boundValue p.npar sol q < hypValue p.nvar p.npar sol d.dest t - hypValue p.nvar p.npar sol d.src s := by
  refine ⟨glLibs2, exState, glProg2, glSys glProg2 [[0, 1, 1, 0, -1]], [0, 3, 1, 0], glProg2.uniDep 0 1, [0, 0], [0, 1], [],
    glLibs2_points, glLibs2_optimal, mipAt_points (by decide +kernel), by unfold Prog.OrigOK; decide, ?_, ?_, by decide +kernel, by decide, rfl, rfl,
    ⟨rfl, rfl, rfl, by unfold Cst.Sat Row.Sat; decide⟩, by decide⟩
  · intro d hd
    simp only [glProg2, List.mem_cons, List.not_mem_nil, or_false] at hd
    rcases hd with rfl | rfl <;> exact ⟨by decide, by decide, by decide, by decide, by decide, by decide⟩
  · intro r hr
    exact List.mem_append_left _ hr

/-- The hypotheses of `C66_legal_partial` are met here (the only component has one statement). -/
example : ∀ (s t : List Int), DepInst (glProg2.uniDep 1 (-2)).dpoly 2 2 0 s t [] →
    0 ≤ hypValue 2 0 [0, 3, 1, 0] 0 t - hypValue 2 0 [0, 3, 1, 0] 0 s := by
  intro s t hi
  refine C66_legal_partial ⟨true, true⟩ glLibs2 (ddgCreate glProg2) exState glProg2 (glSys glProg2 [[0, 1, 1, 0, -1]]) (by unfold Prog.OrigOK; decide)
    glLibs2_points (mipAt_points (by decide +kernel)) rfl (by decide +kernel) (by decide +kernel) rfl rfl ?_ false false ?_ ?_ _ (by decide +kernel)
    (glProg2.uniDep 1 (-2)) (by decide) rfl rfl Relation.ReflTransGen.refl s t [] hi
  · refine consecutive_of_neighbours _ (fun i j he => ?_)
    have h1 : i < 1 := he.1
    have h2 : j < 1 := he.2.1
    omega
  · intro d hd
    simp only [glProg2, List.mem_cons, List.not_mem_nil, or_false] at hd
    rcases hd with rfl | rfl <;> exact ⟨by decide, by decide, by decide, by decide, by decide, by decide⟩
  · intro y hy r hr
    exact hy r (List.mem_append_left _ hr)

/-- **C66: GLPK does not find the lexicographic minimum.** Four times the bound plus the coefficient is at least four: the
least bound is zero (with coefficient four), but the weighted objective prefers bound one and coefficient zero. -/
theorem C66_violated_lexmin (G : GlpkLibs) (hilp : IlpOptimal G.ilp) (g : Graph) (d0 : DfsState) :
    ∃ (p : Prog) (cst : Cst) (sol z : List Int), p.OrigOK ∧ cst.WF ∧
      progLexminGlpk ⟨false, false⟩ G g d0 p cst = some (some sol) ∧ Candidate p cst z ∧
      ¬ LexLe (searchOrder false p sol) (searchOrder false p z) := by
  let p : Prog := ⟨1, 0, [⟨1, 1, ⟨2, []⟩, [true], [], []⟩], [], []⟩
  let cst : Cst := ⟨4, [⟨false, [4, 1, 0, -4]⟩]⟩
  have ho : p.OrigOK := by unfold Prog.OrigOK; decide
  have hw : cst.WF := by decide
  have pz : ∀ z : List Int, z.length = 3 → PadZero p z := by
    intro z _ i st hi k hk hf
    have h1 := (List.getElem?_eq_some_iff.mp hi).1
    have h1 : i = 0 := by simp [p] at h1; omega
    have h2 : k = 0 := by simp [p] at hk; omega
    subst h1 h2
    simp [p] at hi
    subst hi
    simp at hf
  have hz : Candidate p cst [0, 4, 0] := ⟨rfl, pz _ rfl, by unfold NonNeg; decide, by unfold Cst.Sat Row.Sat; decide⟩
  have hz1 : Candidate p cst [1, 0, 0] := ⟨rfl, pz _ rfl, by unfold NonNeg; decide, by unfold Cst.Sat Row.Sat; decide⟩
  obtain ⟨r, hr, h1, h2⟩ := C66_ilp G g d0 p cst ho hilp hw (by decide) rfl
  cases r with
  | none => exact absurd ⟨_, hz⟩ (h2 rfl)
  | some sol =>
    refine ⟨p, cst, sol, _, ho, hw, hr, hz, ?_⟩
    obtain ⟨⟨hl, _, hn, hs⟩, hmin⟩ := h1 sol rfl
    have hm := hmin _ hz1
    match sol, hl with
    | [w, c, e], _ =>
      have v1 : objValue p [w, c, e] = 5 * w + (3 * c + e) := by
        simp [objValue, p, loopCoeffs, List.mapIdx_cons]
      have v2 : objValue p [1, 0, 0] = 5 := by decide
      rw [v1, v2] at hm
      have hs' := hs ⟨false, [4, 1, 0, -4]⟩ (by simp [cst])
      simp only [Row.Sat, Bool.false_eq_true, if_false, aff, List.cons_append, List.nil_append, dot, Int.cast_id] at hs'
      have n1 := hn w (by simp)
      have n2 := hn c (by simp)
      have n3 := hn e (by simp)
      have : searchOrder false p [w, c, e] = [w, c, e] := by
        simp [searchOrder, p, loopCoeffs]
      have e2 : searchOrder false p [0, 4, 0] = [0, 4, 0] := by decide
      rw [this, e2]
      simp only [LexLe]
      omega

/-- The hypothesis on the solver can be met. -/
example : ∃ ilp, IlpOptimal ilp := exists_ilpOptimal

/-- The hypotheses of `C66_violated_dfp_ilp` are met. -/
example : progLexminGlpk ⟨false, true⟩ ⟨fun _ _ => none, fun _ _ => some [1, 1, 0, 0], fun _ => none⟩ (ddgCreate glProg2) exState glProg2
    (glSys glProg2 [[0, 1, 1, 0, -1]]) = none :=
  C66_violated_dfp_ilp _ _ _ _ _ [1, 1, 0, 0] rfl ⟨1, by decide, by decide⟩

end Pluto
