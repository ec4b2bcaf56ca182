import Verif.Lemmas.LpOuter
import Verif.Lemmas.DdgMore

/-! The wrapper with GLPK and `--lp`. -/

namespace Pluto

theorem cround_nonneg {a : ℚ} (h : 0 ≤ a) : 0 ≤ cround a := by
  unfold cround
  rw [if_pos h]
  show 0 ≤ ⌊a + 1 / 2⌋
  rw [Int.floor_nonneg]
  linarith

/-- The components of the columns of the statements. -/
def ccsOf (c : Nat → Nat) (sts : List Stmt) : List Nat :=
  (sts.mapIdx (fun i st => List.replicate (st.dimOrig + 1) (c i))).flatten

theorem ccsOf_cons (c : Nat → Nat) (st : Stmt) (sts : List Stmt) :
    ccsOf c (st :: sts) = List.replicate (st.dimOrig + 1) (c 0) ++ ccsOf (fun i => c (i + 1)) sts := by
  simp [ccsOf, List.mapIdx_cons]

theorem ccsOf_length (c : Nat → Nat) (sts : List Stmt) : (ccsOf c sts).length = blocksLen (sts.map (·.dimOrig)) := by
  induction sts generalizing c with
  | nil => rfl
  | cons st sts ih => simp [ccsOf_cons, ih, blocksLen]

theorem ccsOf_mem (c : Nat → Nat) (sts : List Stmt) (a : Nat) (h : a ∈ ccsOf c sts) : ∃ i < sts.length, a = c i := by
  induction sts generalizing c with
  | nil => simp [ccsOf] at h
  | cons st sts ih =>
    rw [ccsOf_cons, List.mem_append] at h
    rcases h with h | h
    · exact ⟨0, by simp, List.eq_of_mem_replicate h⟩
    · obtain ⟨i, hi, he⟩ := ih _ h
      exact ⟨i + 1, by simpa using hi, he⟩

theorem scalingIndex_eq (p : Prog) (cc : Nat → Int) (n : Nat) :
    scalingIndex p cc n = indexOf (ccsOf (fun i => (cc i).toNat) p.stmts) n := by
  have h : ∀ (sts : List Stmt) (c : Nat → Nat), ccsOf (fun i => c i + 1) sts = (ccsOf c sts).map (· + 1) := by
    intro sts
    induction sts with
    | nil => intro c; rfl
    | cons st sts ih =>
      intro c
      rw [ccsOf_cons, ccsOf_cons, List.map_append, ih (fun i => c (i + 1))]
      simp
  have := h p.stmts (fun i => (cc i).toNat)
  unfold scalingIndex indexOf
  unfold ccsOf at this ⊢
  rw [this]
  simp only [List.mapIdx_eq_zipIdx_map, List.zipIdx_map, List.map_map]
  rfl

theorem blockRel_of_point (f : Nat → ℚ) (k : ℚ) (sts : List Stmt) : ∀ (i : Nat) (c : Nat → Nat) (X z : List Int),
    X.length = blocksLen (sts.map (·.dimOrig)) → z.length = blocksLen (sts.map (·.dimOrig)) →
    (∀ q (hq : q < (ccsOf (fun j => c (i + j)) sts).length),
      (z.getD q 0 : ℚ) = f (ccsOf (fun j => c (i + j)) sts)[q] * ((X.getD q 0 : Int) / k)) →
    BlockRel (fun j a b => (b : ℚ) = f (c j) * ((a : ℚ) / k)) i (sts.map (·.dimOrig)) X z := by
  induction sts with
  | nil => intros; trivial
  | cons st sts ih =>
    intro i c X z hX hz h
    have e : blocksLen ((st :: sts).map (·.dimOrig)) = st.dimOrig + 1 + blocksLen (sts.map (·.dimOrig)) := by simp [blocksLen]
    rw [e] at hX hz
    have hlen : (ccsOf (fun j => c (i + j)) (st :: sts)).length = st.dimOrig + 1 + blocksLen (sts.map (·.dimOrig)) := by
      rw [ccsOf_length, e]
    refine ⟨?_, ?_⟩
    · rw [List.forall₂_iff_get]
      refine ⟨by simp; omega, fun q h1 h2 => ?_⟩
      simp only [List.length_take] at h1 h2
      have := h q (by omega)
      rw [List.getD_eq_getElem _ _ (by omega), List.getD_eq_getElem _ _ (by omega)] at this
      have hcq : (ccsOf (fun j => c (i + j)) (st :: sts))[q]'(by omega) = c i := by
        simp only [ccsOf_cons]
        rw [List.getElem_append_left (by simp; omega)]
        simp
      rw [hcq] at this
      simpa using this
    · refine ih (i + 1) c _ _ (by simp; omega) (by simp; omega) (fun q hq => ?_)
      have hc' : (fun j => c (i + (j + 1))) = (fun j => c (i + 1 + j)) := by funext j; congr 1; ring
      have hq' : q < blocksLen (sts.map (·.dimOrig)) := by rwa [ccsOf_length] at hq
      have := h (st.dimOrig + 1 + q) (by omega)
      have hcq : (ccsOf (fun j => c (i + j)) (st :: sts))[st.dimOrig + 1 + q]'(by omega) = (ccsOf (fun j => c (i + 1 + j)) sts)[q] := by
        simp only [ccsOf_cons, hc']
        rw [List.getElem_append_right (by simp)]
        simp
      rw [hcq] at this
      simpa [List.getD_eq_getElem?_getD, List.getElem?_drop] using this

theorem cround_eq {a : ℚ} (h : 0 ≤ a) : cround a = ⌊a + 1 / 2⌋ := by
  unfold cround
  rw [if_pos h]
  rfl

theorem cround_ge {a : ℚ} (h : 0 ≤ a) : a < cround a + 1 / 2 := by
  rw [cround_eq h]
  have := Int.lt_floor_add_one (a + 1 / 2)
  linarith

/-- The factor of the bound is not smaller than the others, up to rounding. -/
theorem maxScale_ge {s : List ℚ} {n : Nat} (h : ∀ a ∈ s.take n, 0 ≤ a) {m : Int} (hm : maxScale s n = some m) :
    ∀ a ∈ s.take n, a ≤ m + 1 / 2 := by
  unfold maxScale at hm
  simp only [Option.bind_eq_bind, Option.pure_def] at hm
  obtain ⟨s0, _, hm⟩ := Option.bind_eq_some_iff.mp hm
  simp only [Option.some.injEq] at hm
  have key : ∀ (l : List ℚ) (m : Int), (∀ a ∈ l, 0 ≤ a) →
      m ≤ l.foldl (fun (m : Int) a => if (m : ℚ) < a then cround a else m) m ∧
      ∀ a ∈ l, a ≤ (l.foldl (fun (m : Int) a => if (m : ℚ) < a then cround a else m) m : Int) + 1 / 2 := by
    intro l
    induction l with
    | nil => intro m _; exact ⟨le_refl _, by simp⟩
    | cons a l ih =>
      intro m hl
      rw [List.foldl_cons]
      have ha := hl a (by simp)
      obtain ⟨h1, h2⟩ := ih (if (m : ℚ) < a then cround a else m) (fun b hb => hl b (by simp [hb]))
      have hstep : m ≤ (if (m : ℚ) < a then cround a else m) ∧ a ≤ ((if (m : ℚ) < a then cround a else m : Int) : ℚ) + 1 / 2 := by
        split_ifs with hlt
        · have hc := cround_ge ha
          refine ⟨?_, by linarith⟩
          have : (m : ℚ) < cround a + 1 / 2 := by linarith
          by_contra hcon
          have h3 : cround a + 1 ≤ m := by omega
          have : ((cround a : ℚ)) + 1 ≤ m := by exact_mod_cast h3
          linarith
        · exact ⟨le_refl _, by linarith⟩
      refine ⟨le_trans hstep.1 h1, ?_⟩
      intro b hb
      rcases List.mem_cons.mp hb with rfl | hb
      · have := (Int.cast_le (R := ℚ)).mpr h1
        linarith [hstep.2]
      · exact h2 b hb
  rw [← hm]
  exact (key _ _ h).2

theorem maxScale_nonneg {s : List ℚ} {n : Nat} (h : ∀ a ∈ s.take n, 0 ≤ a) (h0 : 0 < n) {m : Int} (hm : maxScale s n = some m) : 0 ≤ m := by
  unfold maxScale at hm
  simp only [Option.bind_eq_bind, Option.pure_def] at hm
  obtain ⟨s0, h1, hm⟩ := Option.bind_eq_some_iff.mp hm
  simp only [Option.some.injEq] at hm
  have hs0 : s0 ∈ s.take n := by
    rw [List.mem_iff_getElem?]
    exact ⟨0, by rw [List.getElem?_take, if_pos h0]; exact h1⟩
  have key : ∀ (l : List ℚ) (m : Int), (∀ a ∈ l, 0 ≤ a) → 0 ≤ m →
      0 ≤ l.foldl (fun (m : Int) a => if (m : ℚ) < a then cround a else m) m := by
    intro l
    induction l with
    | nil => intro m _ h; exact h
    | cons a l ih =>
      intro m hl hm
      rw [List.foldl_cons]
      apply ih _ (fun b hb => hl b (by simp [hb]))
      split_ifs
      · exact cround_nonneg (hl a (by simp))
      · exact hm
  rw [← hm]
  exact key _ _ h (cround_nonneg (h s0 hs0))

variable {p : Prog}

theorem cc_range {g : Graph} {d0 : DfsState} : ∃ cc n, ddgComputeCc g d0 = some (cc, n) ∧ (∀ i < g.n, 0 ≤ cc i ∧ (cc i).toNat < n) ∧
    (0 < g.n → 0 < n) := by
  obtain ⟨cc, e, h⟩ := cc_spec g d0
  have h1 : ∀ i < g.n, 0 ≤ cc i ∧ (cc i).toNat < leaders g g.n := by
    intro i hi
    have a1 := h i hi
    have a2 := leaders_mono g (i + 1) g.n (by omega)
    have a3 := leaders_mono g 1 (i + 1) (by omega)
    have a4 : 0 < leaders g 1 := by
      unfold leaders
      rw [Finset.card_pos]
      exact ⟨0, by simp [Graph.Leader]⟩
    omega
  refine ⟨cc, _, e, h1, fun h0 => ?_⟩
  have := (h1 0 h0).2
  omega

/-- **The wrapper with GLPK and `--lp`**: it answers when the LP solver does, and multiplies the coefficients of each
statement of a rational solution by a factor (at least one) that depends on the component id of the statement. -/
theorem glpk_lp_spec {o : GlpkOpts} {G : GlpkLibs} {g : Graph} (d0 : DfsState) {cst : Cst} (ho : p.OrigOK) (hlp : LpPoints G.lp)
    (hmip : MipPoints G.mip) (hg : g.n = p.stmts.length) (h0 : 0 < p.stmts.length) (hw : cst.WF) (hne : cst.rows ≠ [])
    (hc : cst.ncols = cstWidth p.nvar p.npar p.stmts.length) (olp : o.lp = true) :
    ∃ r, progLexminGlpk o G g d0 p cst = some r ∧
      (r = none ↔ G.lp (lexminInput o.dfp p cst) (cplexObjective p) = none) ∧
      ∀ sol, r = some sol → SolLen p sol ∧ PadZero p sol ∧ NonNeg sol ∧
        ∃ (x : List ℚ) (f : Int → ℚ) (cc : Nat → Int) (n : Nat), ddgComputeCc g d0 = some (cc, n) ∧
          SolLen p x ∧ PadZero p x ∧ (∀ a ∈ x, 0 ≤ a) ∧ cst.Sat x ∧
          (∀ i < p.stmts.length, 1 ≤ f (cc i) ∧ ∀ k ≤ p.nvar,
            (sol.getD (p.npar + 1 + i * (p.nvar + 1) + k) 0 : ℚ) = f (cc i) * x.getD (p.npar + 1 + i * (p.nvar + 1) + k) 0) ∧
          ∃ m : Int, (∀ i < p.stmts.length, f (cc i) ≤ m + 1 / 2) ∧ ∀ k ≤ p.npar, sol.getD k 0 = m * ⌊x.getD k 0 + 1 / 2⌋ := by
  have hcount := keepCols_count ho
  have hwf := inner_WF o.dfp ho cst hw hne hc
  have hcols : (innerCst o.dfp p cst).ncols = (keepCols p).countP id + 1 := by simp [innerCst, hne]
  obtain ⟨cc, n, hcc, hrange, hpos⟩ := cc_range (g := g) (d0 := d0)
  rw [hg] at hrange hpos
  have hidx : (scalingIndex p cc n).length = blocksLen (p.stmts.map (·.dimOrig)) := by
    rw [scalingIndex_eq]
    simp [indexOf, ccsOf_length]
  have hprog : progLexminGlpk o G g d0 p cst = (lexminGlpk o G p.npar n (some (scalingIndex p cc n)) (cplexObjective p)
      (innerCst o.dfp p cst)).map (fun r => r.map (fun sol => spreadMask (keepCols p) (permute o.dfp p sol))) := by
    unfold progLexminGlpk
    rw [if_neg (by simpa using hc), lexminInput_eq]
    simp only [olp, if_true, hcc, Option.bind_eq_bind, Option.bind_some, Option.pure_def]
    rw [if_neg (by rw [hidx, hcols, hcount]; omega)]
    simp only [permute, swapIdx_fold]
    cases lexminGlpk o G p.npar n (some (scalingIndex p cc n)) (cplexObjective p) (innerCst o.dfp p cst) <;> rfl
  rw [lexminInput_eq, hprog]
  unfold lexminGlpk
  simp only [olp, if_true, Bool.true_or]
  cases hx : G.lp (innerCst o.dfp p cst) (cplexObjective p) with
  | none => exact ⟨none, rfl, by simp, by simp⟩
  | some x =>
    obtain ⟨hxl, hxs, hxc⟩ := hlp _ _ _ hwf hx
    have hxl' : x.length = (keepCols p).countP id := by omega
    have hclear : Clear x := hxc
    have hccl : (ccsOf (fun i => (cc i).toNat) p.stmts).length = (x.drop (p.npar + 1)).length := by
      rw [ccsOf_length]; simp; omega
    have hcn : ∀ c ∈ ccsOf (fun i => (cc i).toNat) p.stmts, c < n := by
      intro c hcm
      obtain ⟨i, hi, rfl⟩ := ccsOf_mem _ _ _ hcm
      exact (hrange i hi).2
    obtain ⟨P, hP, hsolv⟩ := scaling_solvable (npar := p.npar) hclear hccl hcn
    cases hs : G.mip P with
    | none => exact absurd hsolv ((hmip P).2 hs)
    | some s =>
      have hsol := (hmip P).1 s hs
      obtain ⟨hsl, hs1, hsc⟩ := scaled_entries hclear hccl hP hsol hcn
      have hn := hpos h0
      have hsn : ∀ a ∈ s.take n, 1 ≤ a := by
        intro a ha
        obtain ⟨q, hq, rfl⟩ := List.mem_iff_getElem.mp ha
        have hq' : q < n := by simp at hq; omega
        have := hs1 q hq'
        rw [List.getD_eq_getElem _ _ (by omega)] at this
        simpa using this
      have hm : ∃ m, maxScale s n = some m := by
        unfold maxScale
        rw [List.getElem?_eq_getElem (by omega)]
        exact ⟨_, rfl⟩
      obtain ⟨m, hm⟩ := hm
      have hm0 := maxScale_nonneg (fun a ha => by linarith [hsn a ha]) hn hm
      rw [← scalingIndex_eq] at hP
      simp only [hP, hs, hm, Option.bind_eq_bind, Option.bind_some, Option.pure_def, Option.map_some]
      refine ⟨_, rfl, by simp, ?_⟩
      intro sol he
      rw [Option.some.injEq] at he
      obtain ⟨k, hk, X, hX⟩ := common_den x
      have hk' : (k : ℚ) ≠ 0 := by exact_mod_cast hk.ne'
      have hXl : X.length = (keepCols p).countP id := by rw [← hxl', hX]; simp
      generalize hzdef : (x.take (p.npar + 1)).map (fun a => m * cround a) ++
        ((s.drop n).take ((innerCst o.dfp p cst).ncols - 1 - (p.npar + 1))).map cround = z at he
      have htl : ((x.take (p.npar + 1)).map (fun a => m * cround a)).length = p.npar + 1 := by simp; omega
      have hzl : z.length = (keepCols p).countP id := by
        rw [← hzdef, List.length_append, htl]
        simp [hsl, ccsOf_length, hcols]
        omega
      have hzd : z.drop (p.npar + 1) = ((s.drop n).take ((innerCst o.dfp p cst).ncols - 1 - (p.npar + 1))).map cround := by
        rw [← hzdef, List.drop_left' htl]
      have hzq : ∀ q (hq : q < (ccsOf (fun i => (cc i).toNat) p.stmts).length), ((z.drop (p.npar + 1)).getD q 0 : ℚ) =
          s.getD (ccsOf (fun i => (cc i).toNat) p.stmts)[q] 0 * (((X.drop (p.npar + 1)).getD q 0 : Int) / (k : ℚ)) := by
        intro q hq
        obtain ⟨⟨v, hv⟩, hqe⟩ := hsc q hq
        have hq1 : q < blocksLen (p.stmts.map (·.dimOrig)) := by rwa [ccsOf_length] at hq
        have hz1 : (z.drop (p.npar + 1)).getD q 0 = v := by
          rw [hzd, List.getD_eq_getElem _ _ (by simp [hsl, ccsOf_length, hcols]; omega)]
          rw [List.getElem_map, List.getElem_take, List.getElem_drop]
          rw [List.getD_eq_getElem _ _ (by omega)] at hv
          rw [hv, cround_int]
        rw [hz1, ← hv, hqe]
        congr 1
        rw [hX, ← List.map_drop, List.getD_eq_getElem _ _ (by simp; omega), List.getD_eq_getElem _ _ (by simp; omega)]
        simp
      have hbr := blockRel_of_point (fun c => s.getD c 0) k p.stmts 0 (fun i => (cc i).toNat) (X.drop (p.npar + 1)) (z.drop (p.npar + 1))
        (by simp; omega) (by simp; omega) (by simpa using hzq)
      have hout := outer_blocks (fun i => by simp) o.dfp ho X z hXl hzl hbr
      rw [permute_eq _ _ (by omega)] at he
      subst he
      have hlenS : ∀ r : List Int, SolLen p (spreadMask (keepCols p) r) := by
        intro r
        show _ = _
        rw [spreadMask_length, keepCols_length]
      refine ⟨hlenS _, (padZero_iff ho _).mpr (fun j hj => spread_zero _ _ _ hj), ?_, ?_⟩
      · apply spread_nonneg
        intro a ha
        have ha := (permuteB_mem _ _ _).mp ha
        rw [← hzdef, List.mem_append] at ha
        rcases ha with ha | ha
        · obtain ⟨b, hb, rfl⟩ := List.mem_map.mp ha
          exact mul_nonneg hm0 (cround_nonneg (hclear.abs (List.mem_of_mem_take hb)).1)
        · obtain ⟨b, hb, rfl⟩ := List.mem_map.mp ha
          apply cround_nonneg
          obtain ⟨q, hq, rfl⟩ := List.mem_iff_getElem.mp hb
          simp only [List.length_take, List.length_drop] at hq
          rw [List.getElem_take, List.getElem_drop]
          have hql : q < (ccsOf (fun i => (cc i).toNat) p.stmts).length := by omega
          have h1 := (hsc q hql).2
          rw [List.getD_eq_getElem _ _ (by omega)] at h1
          rw [h1]
          have h2 := hs1 _ (hcn _ (List.getElem_mem hql))
          refine mul_nonneg (by linarith) ?_
          rw [List.getD_eq_getElem _ _ (by omega)]
          exact (hclear.abs (List.mem_of_mem_drop (List.getElem_mem _))).1
      · have hmemX : ∀ a ∈ X, 0 ≤ a := by
          intro a ha
          have : ((a : ℚ) / k) ∈ x := by rw [hX]; exact List.mem_map_of_mem (f := fun a : Int => (a : ℚ) / k) ha
          have h1 := (hclear.abs this).1
          have hk0 : (0 : ℚ) < k := by exact_mod_cast hk
          by_contra hneg
          have : (a : ℚ) < 0 := by exact_mod_cast (not_le.mp hneg)
          have := div_neg_of_neg_of_pos this hk0
          linarith
        have hgetx : ∀ (r : List Int) (j : Nat), (r.map (fun a : Int => (a : ℚ) / k)).getD j 0 = ((r.getD j 0 : Int) : ℚ) / k := by
          intro r j
          by_cases hj : j < r.length
          · rw [List.getD_eq_getElem _ _ (by simpa using hj), List.getD_eq_getElem _ _ hj]; simp
          · rw [List.getD_eq_default _ _ (by simpa using hj), List.getD_eq_default _ _ (by simpa using hj)]; simp
        refine ⟨(spreadMask (keepCols p) (permuteB o.dfp p X)).map (fun a : Int => (a : ℚ) / k), fun c => s.getD c.toNat 0, cc, n, hcc, ?_, ?_, ?_, ?_, ?_, m, ?_, ?_⟩
        · have := hlenS (permuteB o.dfp p X)
          unfold SolLen at this ⊢
          simpa using this
        · intro i st hi j hj hor
          rw [hgetx, (padZero_iff ho _).mpr (fun j hj => spread_zero (keepCols p) (permuteB o.dfp p X) j hj) i st hi j hj hor]
          simp
        · intro a ha
          obtain ⟨b, hb, rfl⟩ := List.mem_map.mp ha
          have : 0 ≤ b := spread_nonneg _ _ (fun a ha => hmemX a ((permuteB_mem _ _ _).mp ha)) b hb
          have : (0 : ℚ) ≤ b := by exact_mod_cast this
          positivity
        · have := sat_inner_map (R := ℚ) (fun a : Int => (a : ℚ) / k) (by simp) k (by simp [hk']) o.dfp ho cst hw hc X hXl
          rw [← this, ← hX]
          exact hxs
        · intro i hi
          refine ⟨hs1 _ (hrange i hi).2, fun j hj => ?_⟩
          have hb := hout i hi
          rw [List.forall₂_iff_get] at hb
          have hL : ∀ r : List Int, (solSlice p.nvar p.npar (spreadMask (keepCols p) r) i).length = p.nvar + 1 := by
            intro r
            refine solSlice_length p.nvar p.npar p.stmts.length _ i hi ?_
            exact solLen_width (hlenS r)
          have hofs : p.npar + 1 + i * (p.nvar + 1) + p.nvar < p.npar + 1 + p.stmts.length * (p.nvar + 1) := by
            have : (i + 1) * (p.nvar + 1) ≤ p.stmts.length * (p.nvar + 1) := Nat.mul_le_mul_right _ (by omega)
            have e : (i + 1) * (p.nvar + 1) = i * (p.nvar + 1) + (p.nvar + 1) := by ring
            omega
          have hS : ∀ r : List Int, (spreadMask (keepCols p) r).length = p.npar + 1 + p.stmts.length * (p.nvar + 1) := hlenS
          have := hb.2 j (by rw [hL]; omega) (by rw [hL]; omega)
          rw [hgetx]
          simp only [solSlice, List.get_eq_getElem, List.getElem_take, List.getElem_drop, stmtOffset] at this
          rw [List.getD_eq_getElem _ _ (by rw [hS]; omega), List.getD_eq_getElem _ _ (by rw [hS]; omega)]
          exact this
        · intro i hi
          refine maxScale_ge (fun a ha => by linarith [hsn a ha]) hm _ ?_
          have hlt := (hrange i hi).2
          show s.getD (cc i).toNat 0 ∈ _
          rw [List.getD_eq_getElem _ _ (by omega), List.mem_take_iff_getElem]
          exact ⟨(cc i).toNat, by omega, rfl⟩
        · intro j hj
          have hlead : ∀ r : List Int, r.length = (keepCols p).countP id → ∀ j ≤ p.npar,
              (spreadMask (keepCols p) (permuteB o.dfp p r)).getD j 0 = r.getD j 0 := by
            intro r hr j hj
            have := congrArg (fun l => l.getD j 0) (outer_lead o.dfp ho r hr)
            simp only [List.getD_eq_getElem?_getD, List.getElem?_take] at this ⊢
            rwa [if_pos (by omega), if_pos (by omega)] at this
          rw [hlead z hzl j hj, hgetx, hlead X hXl j hj, ← hgetx, ← hX, List.getD_eq_getElem _ _ (by omega),
            List.getD_eq_getElem _ _ (by omega)]
          subst hzdef
          rw [List.getElem_append_left (by omega), List.getElem_map, List.getElem_take,
            cround_eq (hclear.abs (List.getElem_mem _)).1]

end Pluto
