import Verif.Lemmas.LpMain
import Verif.Model.Gurobi
import Verif.Spec.Gurobi

/-! The wrapper with Gurobi, compared with that with GLPK. -/

namespace Pluto

theorem gurobiSystem_WF {c : Cst} (h : c.WF) : (gurobiSystem c).WF :=
  ⟨h.1, fun r hr => h.2 r (List.mem_filter.mp hr).1⟩

theorem dot_zero_prefix {R : Type*} [CommRing R] : ∀ (v : List Int) (x : List R), v.length = x.length + 1 →
    (∀ j < x.length, v.getD j 0 = 0) → aff v x = (v.getD x.length 0 : R) := by
  intro v x
  induction x generalizing v with
  | nil =>
    intro h _
    obtain ⟨a, rfl⟩ := List.length_eq_one_iff.mp (show v.length = 1 by simpa using h)
    simp [aff, dot]
  | cons b x ih =>
    intro h hz
    match v, h with
    | a :: v, h =>
      have ha : a = 0 := by simpa using hz 0 (by simp)
      have := ih v (by simpa using h) (fun j hj => by simpa using hz (j + 1) (by simpa using hj))
      simp only [aff, List.cons_append, dot, ha, Int.cast_zero, zero_mul, zero_add] at this ⊢
      rw [this]
      simp

theorem any_iff_coeff {c : Cst} (h : c.WF) {r : Row} (hr : r ∈ c.rows) :
    (r.val.take (c.ncols - 1)).any (fun a => a ≠ 0) = false ↔ ∀ j < c.ncols - 1, r.val.getD j 0 = 0 := by
  have hl := h.2 r hr
  rw [List.any_eq_false]
  constructor
  · intro hh j hj
    have := hh (r.val[j]'(by omega)) (by
      rw [List.mem_iff_getElem?]; exact ⟨j, by rw [List.getElem?_take, if_pos hj, List.getElem?_eq_getElem (by omega)]⟩)
    rw [List.getD_eq_getElem _ _ (by omega)]
    simpa using this
  · intro hh a ha
    obtain ⟨j, hj⟩ := List.mem_iff_getElem?.mp ha
    rw [List.getElem?_take] at hj
    split_ifs at hj with hlt
    have := hh j hlt
    rw [List.getD_eq_getElem?_getD, hj] at this
    simpa using this

/-- Rows left out do no harm when none of them is false. -/
theorem gurobiSystem_sat {R : Type*} [CommRing R] [LinearOrder R] [IsStrictOrderedRing R] {c : Cst} (h : c.WF) (hz : NoFalseRow c) (x : List R)
    (hx : x.length + 1 = c.ncols) : (gurobiSystem c).Sat x ↔ c.Sat x := by
  constructor
  · intro hs r hr
    cases ha : (r.val.take (c.ncols - 1)).any (fun a => a ≠ 0) with
    | true => exact hs r (List.mem_filter.mpr ⟨hr, ha⟩)
    | false =>
      have hc := (any_iff_coeff h hr).mp ha
      obtain ⟨h1, h2⟩ := hz r hr hc
      have hl := h.2 r hr
      have e : c.ncols - 1 = x.length := by omega
      rw [e] at hc h1 h2
      have := dot_zero_prefix r.val x (by omega) hc
      unfold Row.Sat
      rw [this]
      split_ifs with he
      · rw [h2 he]; simp
      · exact_mod_cast h1
  · intro hs r hr
    exact hs r (List.mem_filter.mp hr).1

/-- A false row without coefficients has no points. -/
theorem noFalse_of_sat {R : Type*} [CommRing R] [LinearOrder R] [IsStrictOrderedRing R] {c : Cst} (h : c.WF) {x : List R}
    (hx : x.length + 1 = c.ncols) (hs : c.Sat x) : NoFalseRow c := by
  intro r hr hc
  have hl := h.2 r hr
  have e : c.ncols - 1 = x.length := by omega
  rw [e] at hc ⊢
  have := dot_zero_prefix r.val x (by omega) hc
  have hr := hs r hr
  unfold Row.Sat at hr
  rw [this] at hr
  split_ifs at hr with he
  · have : r.val.getD x.length 0 = 0 := by exact_mod_cast hr
    exact ⟨by omega, fun _ => this⟩
  · exact ⟨by exact_mod_cast hr, fun h => absurd h he⟩

/-- The solvers as they would be if no row were left out. -/
def fullLibs (G : GlpkLibs) : GlpkLibs where
  lp c obj := if NoFalseRow c then G.lp (gurobiSystem c) obj else none
  ilp c obj := if NoFalseRow c then G.ilp (gurobiSystem c) obj else none
  mip := G.mip

theorem fullLibs_lp {G : GlpkLibs} (h : LpPoints G.lp) : LpPoints (fullLibs G).lp := by
  intro c obj x hc hx
  simp only [fullLibs] at hx
  split_ifs at hx with hz
  obtain ⟨h1, h2, h3⟩ := h _ _ _ (gurobiSystem_WF hc) hx
  exact ⟨h1, (gurobiSystem_sat hc hz x h1).mp h2, h3⟩

theorem fullLibs_ilp {G : GlpkLibs} (h : IlpOptimal G.ilp) : IlpOptimal (fullLibs G).ilp := by
  intro c obj hc hobj
  obtain ⟨h1, h2⟩ := h _ obj (gurobiSystem_WF hc) hobj
  refine ⟨fun x hx => ?_, fun hn => ?_⟩
  · simp only [fullLibs] at hx
    split_ifs at hx with hz
    obtain ⟨z, e, hl, hn, hs, hm⟩ := h1 x hx
    exact ⟨z, e, hl, hn, (gurobiSystem_sat hc hz z hl).mp hs, fun y hy hyn hys => hm y hy hyn ((gurobiSystem_sat hc hz y hy).mpr hys)⟩
  · rintro ⟨y, hy, hyn, hys⟩
    have hz := noFalse_of_sat hc hy hys
    simp only [fullLibs, if_pos hz] at hn
    exact h2 hn ⟨y, hy, hyn, (gurobiSystem_sat hc hz y hy).mpr hys⟩

theorem cround_one {a : ℚ} (h : 1 ≤ a) : 1 ≤ cround a := by
  rw [cround_eq (by linarith), Int.le_floor]
  push_cast
  linarith

theorem gurobiMax_pos {s : List ℚ} {n : Nat} (h : ∀ a ∈ s.take n, 1 ≤ a) (hne : s.take n ≠ []) : 1 ≤ gurobiMax s n := by
  unfold gurobiMax
  have key : ∀ (l : List ℚ) (m : Int), (∀ a ∈ l, 1 ≤ a) → 1 ≤ m →
      1 ≤ l.foldl (fun (m : Int) a => if (m : ℚ) < a then cround a else m) m := by
    intro l
    induction l with
    | nil => intro m _ h; exact h
    | cons a l ih =>
      intro m hl hm
      rw [List.foldl_cons]
      apply ih _ (fun b hb => hl b (by simp [hb]))
      split_ifs
      · exact cround_one (hl a (by simp))
      · exact hm
  match hl : s.take n, hne with
  | a :: l, _ =>
    rw [hl] at h
    have ha := h a (by simp)
    rw [List.foldl_cons, if_pos (by push_cast; linarith)]
    exact key _ _ (fun b hb => h b (by simp [hb])) (cround_one ha)

variable {p : Prog}

/-- What is done to the solver's answer leaves the bound coefficients in place and works on the others alone. -/
theorem outer_split (dfp : Bool) (z : List Int) (hz : p.npar + 1 + blocksLen (p.stmts.map (·.dimOrig)) ≤ z.length) :
    spreadMask (keepCols p) (permute dfp p z) = z.take (p.npar + 1) ++
      spreadMask (p.stmts.flatMap (blockMask p.nvar))
        (if dfp then z.drop (p.npar + 1) else revBlocks (p.stmts.map (·.dimOrig)) (z.drop (p.npar + 1))) := by
  rw [permute_eq dfp z hz]
  have hl : (z.take (p.npar + 1)).length = p.npar + 1 := by simp; omega
  have e : (List.replicate (p.npar + 1) true).countP id = p.npar + 1 := by
    rw [List.countP_replicate]; simp
  unfold keepCols
  rw [spread_append, e]
  have h1 : (permuteB dfp p z).take (p.npar + 1) = z.take (p.npar + 1) := by
    unfold permuteB
    cases dfp with
    | true => rfl
    | false => simp only [Bool.false_eq_true, if_false]; rw [List.take_left' hl]
  have h2 : (permuteB dfp p z).drop (p.npar + 1) =
      (if dfp then z.drop (p.npar + 1) else revBlocks (p.stmts.map (·.dimOrig)) (z.drop (p.npar + 1))) := by
    unfold permuteB
    cases dfp with
    | true => rfl
    | false => simp only [Bool.false_eq_true, if_false]; rw [List.drop_left' hl]
  rw [h1, h2, spread_replicate _ _ hl]
  rfl

/-- **Gurobi and GLPK with `--lp`**: the coefficients are the same, the bound coefficients are all equal to a number of
at least one. -/
theorem gurobi_lp_eq {o : GlpkOpts} {G : GlpkLibs} {g : Graph} (d0 : DfsState) {cst : Cst} (ho : p.OrigOK) (hlp : LpPoints G.lp)
    (hmip : MipPoints G.mip) (hg : g.n = p.stmts.length) (h0 : 0 < p.stmts.length) (hw : cst.WF) (hne : cst.rows ≠ [])
    (hc : cst.ncols = cstWidth p.nvar p.npar p.stmts.length) (olp : o.lp = true) (hz : NoFalseRow (lexminInput o.dfp p cst)) :
    (progLexminGlpk o (fullLibs G) g d0 p cst = some none → progLexminGurobi o G g d0 p cst = some none) ∧
    ∀ sol, progLexminGlpk o (fullLibs G) g d0 p cst = some (some sol) →
      ∃ m : Int, 1 ≤ m ∧ progLexminGurobi o G g d0 p cst = some (some (List.replicate (p.npar + 1) m ++ sol.drop (p.npar + 1))) := by
  have hcount := keepCols_count ho
  have hwf := inner_WF o.dfp ho cst hw hne hc
  have hcols : (innerCst o.dfp p cst).ncols = (keepCols p).countP id + 1 := by simp [innerCst, hne]
  obtain ⟨cc, n, hcc, hrange, hpos⟩ := cc_range (g := g) (d0 := d0)
  rw [hg] at hrange hpos
  have hidx : (scalingIndex p cc n).length = blocksLen (p.stmts.map (·.dimOrig)) := by
    rw [scalingIndex_eq]
    simp [indexOf, ccsOf_length]
  rw [lexminInput_eq] at hz
  have hprog : progLexminGlpk o (fullLibs G) g d0 p cst = (lexminGlpk o (fullLibs G) p.npar n (some (scalingIndex p cc n)) (cplexObjective p)
      (innerCst o.dfp p cst)).map (fun r => r.map (fun sol => spreadMask (keepCols p) (permute o.dfp p sol))) := by
    unfold progLexminGlpk
    rw [if_neg (by simpa using hc), lexminInput_eq]
    simp only [olp, if_true, hcc, Option.bind_eq_bind, Option.bind_some, Option.pure_def]
    rw [if_neg (by rw [hidx, hcols, hcount]; omega)]
    simp only [permute, swapIdx_fold]
    cases lexminGlpk o (fullLibs G) p.npar n (some (scalingIndex p cc n)) (cplexObjective p) (innerCst o.dfp p cst) <;> rfl
  have hprog' : progLexminGurobi o G g d0 p cst = (lexminGurobi o.lp G p.npar n (some (scalingIndex p cc n)) (cplexObjective p)
      (innerCst o.dfp p cst)).map (fun r => r.map (fun sol => spreadMask (keepCols p) (permute o.dfp p sol))) := by
    unfold progLexminGurobi
    rw [if_neg (by simpa using hc), lexminInput_eq]
    simp only [olp, if_true, hcc, Option.bind_eq_bind, Option.bind_some, Option.pure_def]
    rw [if_neg (by rw [hidx, hcols, hcount]; omega)]
    simp only [permute, swapIdx_fold]
    cases lexminGurobi true G p.npar n (some (scalingIndex p cc n)) (cplexObjective p) (innerCst o.dfp p cst) <;> rfl
  rw [hprog, hprog']
  unfold lexminGlpk lexminGurobi
  have hfl : (fullLibs G).lp (innerCst o.dfp p cst) (cplexObjective p) = G.lp (gurobiSystem (innerCst o.dfp p cst)) (cplexObjective p) := by
    simp only [fullLibs, if_pos hz]
  simp only [olp, if_true, Bool.true_or, hfl]
  cases hx : G.lp (gurobiSystem (innerCst o.dfp p cst)) (cplexObjective p) with
  | none => exact ⟨fun _ => rfl, by simp⟩
  | some x =>
    rw [← hfl] at hx
    obtain ⟨hxl, hxs, hxc⟩ := fullLibs_lp hlp _ _ _ hwf hx
    have hclear : Clear x := hxc
    have hccl : (ccsOf (fun i => (cc i).toNat) p.stmts).length = (x.drop (p.npar + 1)).length := by
      rw [ccsOf_length]; simp; omega
    have hcn : ∀ c ∈ ccsOf (fun i => (cc i).toNat) p.stmts, c < n := by
      intro c hcm
      obtain ⟨i, hi, rfl⟩ := ccsOf_mem _ _ _ hcm
      exact (hrange i hi).2
    obtain ⟨P, hP, hsolv⟩ := scaling_solvable (npar := p.npar) hclear hccl hcn
    cases hs : G.mip P with
    | none => exact absurd hsolv ((hmip P).2 hs)
    | some s =>
      have hsol := (hmip P).1 s hs
      obtain ⟨hsl, hs1, hsc⟩ := scaled_entries hclear hccl hP hsol hcn
      have hn := hpos h0
      have hsn : ∀ a ∈ s.take n, 1 ≤ a := by
        intro a ha
        obtain ⟨q, hq, rfl⟩ := List.mem_iff_getElem.mp ha
        have hq' : q < n := by simp at hq; omega
        have := hs1 q hq'
        rw [List.getD_eq_getElem _ _ (by omega)] at this
        simpa using this
      have hm : ∃ m, maxScale s n = some m := by
        unfold maxScale
        rw [List.getElem?_eq_getElem (by omega)]
        exact ⟨_, rfl⟩
      obtain ⟨m, hm⟩ := hm
      rw [← scalingIndex_eq] at hP
      have hmip' : (fullLibs G).mip P = some s := hs
      simp only [hP, hs, hmip', hm, Option.bind_eq_bind, Option.bind_some, Option.pure_def, Option.map_some]
      refine ⟨by simp, fun sol he => ⟨gurobiMax s n, gurobiMax_pos hsn ?_, ?_⟩⟩
      · intro hnil
        have := congrArg List.length hnil
        rw [List.length_take, List.length_nil] at this
        omega
      · rw [Option.some.injEq, Option.some.injEq] at he
        have hBl : (((s.drop n).take ((innerCst o.dfp p cst).ncols - 1 - (p.npar + 1))).map cround).length =
            blocksLen (p.stmts.map (·.dimOrig)) := by
          simp [hsl, ccsOf_length, hcols]
          omega
        have hA : ((x.take (p.npar + 1)).map (fun a => m * cround a)).length = p.npar + 1 := by simp; omega
        generalize ((s.drop n).take ((innerCst o.dfp p cst).ncols - 1 - (p.npar + 1))).map cround = B at hBl he ⊢
        generalize (x.take (p.npar + 1)).map (fun a => m * cround a) = A at hA he ⊢
        rw [outer_split _ _ (by rw [List.length_append]; omega), List.take_left' hA, List.drop_left' hA] at he
        rw [outer_split _ _ (by rw [List.length_append, List.length_replicate]; omega), List.take_left' (by simp), List.drop_left' (by simp), ← he,
          List.drop_left' hA]

end Pluto
