import Verif.Lemmas.PerCc

/-! The search with `--per-cc-obj`. -/

namespace Pluto

section
variable {X : Prop} {k p : Prog}

theorem addBuf_spec {b b' : Nat × Nat} {g c g' : Cst} (h : addBuf b g c = some (b', g')) :
    g.ncols = c.ncols ∧ g' = addCst g c := by
  unfold addBuf at h
  split_ifs at h with h1 h2
  all_goals
    simp only [Option.some.injEq, Prod.mk.injEq] at h
    exact ⟨not_not.mp h1, h.2.symm⟩

theorem addCst_sat (g c : Cst) (sol : List Int) : (addCst g c).Sat sol ↔ g.Sat sol ∧ c.Sat sol := by
  simp only [addCst, Cst.Sat, List.forall_mem_append]

theorem ccRow_length (p : Prog) (ncc c : Nat) (hc : c < ncc) (r : List Int) (hr : r.length = cstWidth p.nvar p.npar p.stmts.length) :
    (ccRow p ncc c r).length = ccExt p ncc + cstWidth p.nvar p.npar p.stmts.length := by
  have hz : ∀ m, (zrow m).length = m := fun m => by simp [zrow]
  have hS : ccExt p ncc = (p.npar + 1) * (c + 1) + (p.npar + 1) * (ncc - 1 - c) := by
    unfold ccExt
    rw [← Nat.mul_add]
    congr 1; omega
  have : p.npar + 1 ≤ r.length := by rw [hr]; unfold cstWidth; omega
  unfold ccRow
  simp only [List.length_append, hz, List.length_take, List.length_drop]
  omega

/-- The components of the end points. -/
def CcOK (p : Prog) (cc : Nat → Int) (ncc : Nat) : Prop := ∀ i < p.stmts.length, ∃ c : Nat, cc i = c ∧ c < ncc

theorem depCstCc_wid (nodepbound : Bool) (p : Prog) {cc : Nat → Int} {ncc : Nat} (hcc : CcOK p cc ncc) (d : Dep)
    (h1 : d.src < p.stmts.length) (h2 : d.dest < p.stmts.length) :
    Wid (ccExt p ncc + cstWidth p.nvar p.npar p.stmts.length) (depCstCc nodepbound p cc ncc d) := by
  obtain ⟨c, hc, hlt⟩ := hcc d.src h1
  obtain ⟨hw, hn⟩ := depCst_wf nodepbound p d h1 h2
  rw [depCstCc_eq nodepbound p cc ncc c d h1 h2 hc hlt]
  refine ⟨rfl, fun r hr => ?_⟩
  obtain ⟨r', hr', rfl⟩ := List.mem_map.mp hr
  exact ccRow_length p ncc c hlt _ (by rw [hw.2 r' hr', hn])

theorem permStepCc_spec (rarOpt nodepbound : Bool) (p : Prog) {cc : Nat → Int} {ncc : Nat} (hcc : CcOK p cc ncc)
    {st st' : (Nat × Nat) × Cst × Nat} {d : Dep} (h1 : d.src < p.stmts.length) (h2 : d.dest < p.stmts.length)
    (hw : Wid (ccExt p ncc + cstWidth p.nvar p.npar p.stmts.length) st.2.1)
    (h : permStepCc rarOpt nodepbound p cc ncc st d = some st') :
    Wid (ccExt p ncc + cstWidth p.nvar p.npar p.stmts.length) st'.2.1 ∧
      ∀ sol : List Int, st'.2.1.Sat sol ↔ st.2.1.Sat sol ∧
        ((d.rar = true → rarOpt = true) → d.satisfied = false → (depCstCc nodepbound p cc ncc d).Sat sol) := by
  have hpos : 1 ≤ ccExt p ncc + cstWidth p.nvar p.npar p.stmts.length := by unfold cstWidth; omega
  unfold permStepCc at h
  by_cases hr : rarOpt = false ∧ d.rar = true
  · rw [if_pos hr, Option.some.injEq] at h
    rw [← h]
    exact ⟨hw, fun sol => by simp [hr.1, hr.2]⟩
  · rw [if_neg hr] at h
    have hr' : d.rar = true → rarOpt = true := by
      intro h; by_contra hc; exact hr ⟨by simpa using hc, h⟩
    cases hs : d.satisfied with
    | true =>
      rw [hs, if_pos rfl, Option.some.injEq] at h
      rw [← h]
      exact ⟨hw, fun sol => by simp⟩
    | false =>
      rw [hs, if_neg (by simp)] at h
      simp only [Option.bind_eq_bind, Option.bind_eq_some_iff] at h
      obtain ⟨⟨b, g⟩, ha, h⟩ := h
      obtain ⟨_, rfl⟩ := addBuf_spec ha
      have hg := hw.add (depCstCc_wid nodepbound p hcc d h1 h2)
      simp only at h
      split_ifs at h with ht
      · simp only [Option.pure_def, Option.some.injEq] at h
        rw [← h]
        have hwf := simplify_wf _ (hg.wf hpos)
        refine ⟨⟨by rw [simplify_ncols]; exact hg.1, fun r hr => ?_⟩, fun sol => ?_⟩
        · have := hwf.2 r hr
          rw [simplify_ncols] at this
          rw [this]; exact hg.1
        · simp only
          rw [simplify_sat, addCst_sat]
          constructor
          · intro h; exact ⟨h.1, fun _ _ => h.2⟩
          · intro h; exact ⟨h.1, h.2 hr' trivial⟩
      · simp only [Option.pure_def, Option.some.injEq] at h
        rw [← h]
        refine ⟨hg, fun sol => ?_⟩
        simp only
        rw [addCst_sat]
        constructor
        · intro h; exact ⟨h.1, fun _ _ => h.2⟩
        · intro h; exact ⟨h.1, h.2 hr' trivial⟩

theorem permFoldCc_spec (rarOpt nodepbound : Bool) (p : Prog) {cc : Nat → Int} {ncc : Nat} (hcc : CcOK p cc ncc) :
    ∀ (ds : List Dep) (st st' : (Nat × Nat) × Cst × Nat), (∀ d ∈ ds, d.src < p.stmts.length ∧ d.dest < p.stmts.length) →
      Wid (ccExt p ncc + cstWidth p.nvar p.npar p.stmts.length) st.2.1 →
      ds.foldlM (permStepCc rarOpt nodepbound p cc ncc) st = some st' →
      Wid (ccExt p ncc + cstWidth p.nvar p.npar p.stmts.length) st'.2.1 ∧
        ∀ sol : List Int, st'.2.1.Sat sol ↔ st.2.1.Sat sol ∧ ∀ d ∈ ds,
          (d.rar = true → rarOpt = true) → d.satisfied = false → (depCstCc nodepbound p cc ncc d).Sat sol := by
  intro ds
  induction ds with
  | nil =>
    intro st st' _ hw h
    simp only [List.foldlM_nil, Option.pure_def, Option.some.injEq] at h
    rw [← h]
    exact ⟨hw, fun sol => by simp⟩
  | cons d ds ih =>
    intro st st' hd hw h
    simp only [List.foldlM_cons, Option.bind_eq_bind, Option.bind_eq_some_iff] at h
    obtain ⟨s1, h1, h2⟩ := h
    obtain ⟨w1, e1⟩ := permStepCc_spec rarOpt nodepbound p hcc (hd d (by simp)).1 (hd d (by simp)).2 hw h1
    obtain ⟨w2, e2⟩ := ih s1 st' (fun d' h' => hd d' (List.mem_cons_of_mem _ h')) w1 h2
    refine ⟨w2, fun sol => ?_⟩
    rw [e2, e1, List.forall_mem_cons, and_assoc]

/-- The system of `get_permutability_constraints` with `--per-cc-obj`. -/
theorem permutabilityCc_spec (rarOpt nodepbound : Bool) (p : Prog) {cc : Nat → Int} {ncc : Nat} (hcc : CcOK p cc ncc)
    (hd : ∀ d ∈ p.deps, d.src < p.stmts.length ∧ d.dest < p.stmts.length) {buf : Option (Nat × Nat)} {b : Nat × Nat} {g : Cst}
    (h : permutabilityCc rarOpt nodepbound p cc ncc buf = some (b, g)) :
    Wid (ccExt p ncc + cstWidth p.nvar p.npar p.stmts.length) g ∧
      ∀ sol : List Int, g.Sat sol ↔ ∀ d ∈ p.deps,
        (d.rar = true → rarOpt = true) → d.satisfied = false → (depCstCc nodepbound p cc ncc d).Sat sol := by
  have hpos : 1 ≤ ccExt p ncc + cstWidth p.nvar p.npar p.stmts.length := by unfold cstWidth; omega
  unfold permutabilityCc at h
  simp only [Option.bind_eq_bind, Option.bind_eq_some_iff] at h
  obtain ⟨⟨b1, g1, i1⟩, h1, h⟩ := h
  simp only [Option.pure_def, Option.some.injEq, Prod.mk.injEq] at h
  obtain ⟨w1, e1⟩ := permFoldCc_spec rarOpt nodepbound p hcc p.deps _ _ hd (show Wid _ _ from ⟨rfl, by simp⟩) h1
  rw [← h.2]
  have hwf := simplify_wf _ (w1.wf hpos)
  refine ⟨⟨by rw [simplify_ncols]; exact w1.1, fun r hr => ?_⟩, fun sol => ?_⟩
  · have := hwf.2 r hr
    rw [simplify_ncols] at this
    rw [this]; exact w1.1
  · rw [simplify_sat, e1]
    simp [Cst.Sat]

/-! ### Solutions -/

theorem withExt_width (p : Prog) (ext : Nat) :
    cstWidth (withExt p ext).nvar (withExt p ext).npar (withExt p ext).stmts.length = ext + cstWidth p.nvar p.npar p.stmts.length := by
  show cstWidth p.nvar (p.npar + ext) p.stmts.length = _
  unfold cstWidth; omega

theorem widen_wid {w ext : Nat} {c : Cst} (h : Wid w c) : Wid (ext + w) (widenCst ext c) := by
  refine ⟨by rw [widenCst, h.1], fun r hr => ?_⟩
  obtain ⟨r', hr', rfl⟩ := List.mem_map.mp hr
  simp only [List.length_append, h.2 r' hr', zrow, List.length_replicate]

theorem objSum_wid (p : Prog) (ncc : Nat) : Wid (ccExt p ncc + cstWidth p.nvar p.npar p.stmts.length) (objSumCst p ncc) := by
  refine ⟨rfl, fun r hr => ?_⟩
  obtain ⟨i, _, rfl⟩ := List.mem_map.mp hr
  have key : ∀ (l : List Nat) (r : List Int), (l.foldl (fun r j => r.set (j + i) (-1)) r).length = r.length := by
    intro l
    induction l with
    | nil => intro r; rfl
    | cons j l ih => intro r; rw [List.foldl_cons, ih, List.length_set]
  simp only [key]
  simp [zrow]

theorem ccLen_iff (p : Prog) (ncc : Nat) (sol : List Int) : SolLen (withExt p (ccExt p ncc)) sol ↔ CcLen p ncc sol := by
  unfold SolLen CcLen withExt ccExt
  have e : (p.npar + 1) * (ncc + 1) = (p.npar + 1) * ncc + (p.npar + 1) := by ring
  simp only [e]
  constructor <;> intro h <;> omega

theorem ccPart_coef {p : Prog} {ncc c : Nat} {sol : List Int} (hl : CcLen p ncc sol) (hc : c < ncc) (j : Nat) :
    (ccPart p ncc c sol).getD (p.npar + 1 + j) 0 = sol.getD (ccExt p ncc + (p.npar + 1) + j) 0 := by
  obtain ⟨g1, g2⟩ := ccLen_ge hl hc
  unfold ccPart
  have e : ((sol.drop ((p.npar + 1) * (c + 1))).take (p.npar + 1)).length = p.npar + 1 := by simp; omega
  have e2 : ccExt p ncc + (p.npar + 1) = (p.npar + 1) * (ncc + 1) := by unfold ccExt; ring
  rw [List.getD_eq_getElem?_getD, List.getElem?_append_right (by omega), e, List.getElem?_drop, List.getD_eq_getElem?_getD, e2]
  congr 2; omega

theorem dropExt_coef (p : Prog) (ncc : Nat) (sol : List Int) (j : Nat) :
    (sol.drop (ccExt p ncc)).getD j 0 = sol.getD (ccExt p ncc + j) 0 := by
  rw [List.getD_eq_getElem?_getD, List.getElem?_drop, List.getD_eq_getElem?_getD]

theorem padZero_ext {p : Prog} {ext : Nat} {sol : List Int} (h : PadZero (withExt p ext) sol) : PadZero p (sol.drop ext) := by
  intro i st hs k hk ho
  have := h i st hs k hk ho
  rw [List.getD_eq_getElem?_getD, List.getElem?_drop]
  rw [List.getD_eq_getElem?_getD] at this
  rw [← this]
  congr 2
  show _ = p.npar + ext + 1 + i * (p.nvar + 1) + k
  omega

theorem padZero_part {p : Prog} {ncc c : Nat} {sol : List Int} (hl : CcLen p ncc sol) (hc : c < ncc)
    (h : PadZero (withExt p (ccExt p ncc)) sol) : PadZero p (ccPart p ncc c sol) := by
  intro i st hs k hk ho
  have := h i st hs k hk ho
  rw [show p.npar + 1 + i * (p.nvar + 1) + k = p.npar + 1 + (i * (p.nvar + 1) + k) by omega, ccPart_coef hl hc]
  rw [← this]
  congr 1
  show _ = p.npar + ccExt p ncc + 1 + i * (p.nvar + 1) + k
  omega

/-- The hyperplanes do not depend on the component whose bounding function is put in front. -/
theorem hyperplaneRow_part {p : Prog} {ncc c : Nat} {sol : List Int} (hl : CcLen p ncc sol) (hc : c < ncc) (j : Nat) :
    hyperplaneRow p.nvar p.npar (ccPart p ncc c sol) j = hyperplaneRow p.nvar p.npar (sol.drop (ccExt p ncc)) j := by
  obtain ⟨g1, g2⟩ := ccLen_ge hl hc
  have e : ((sol.drop ((p.npar + 1) * (c + 1))).take (p.npar + 1)).length = p.npar + 1 := by simp; omega
  have e2 : ccExt p ncc + (p.npar + 1) = (p.npar + 1) * (ncc + 1) := by unfold ccExt; ring
  have hd : (ccPart p ncc c sol).drop (stmtOffset p.nvar p.npar j) = (sol.drop (ccExt p ncc)).drop (stmtOffset p.nvar p.npar j) := by
    unfold ccPart stmtOffset
    rw [List.drop_append, e, List.drop_eq_nil_of_le (by omega), List.nil_append, List.drop_drop, List.drop_drop]
    congr 1; omega
  unfold hyperplaneRow
  rw [hd]
  congr 2
  unfold coef
  rw [show stmtOffset p.nvar p.npar j + p.nvar = p.npar + 1 + (j * (p.nvar + 1) + p.nvar) by unfold stmtOffset; omega,
    ccPart_coef hl hc, dropExt_coef]
  congr 1; omega

theorem dropExt_len {p : Prog} {ncc : Nat} {sol : List Int} (hl : CcLen p ncc sol) : SolLen p (sol.drop (ccExt p ncc)) := by
  unfold SolLen
  rw [List.length_drop, hl]
  unfold ccExt
  rw [Nat.mul_add]
  omega

/-! ### The search -/

/-- Legal rows for the dependences not satisfied in `p`. -/
def LegalBaseCc (p : Prog) (ncc : Nat) (base : Cst) : Prop :=
  ∀ sol : List Int, CcLen p ncc sol → PadZero (withExt p (ccExt p ncc)) sol → base.Sat sol →
    ∀ d ∈ p.deps, d.rar = false → d.satisfied = false → ∀ s t q, p.Inst d s t q →
      aff (hyperplaneRow p.nvar p.npar (sol.drop (ccExt p ncc)) d.src) (s ++ q) ≤
        aff (hyperplaneRow p.nvar p.npar (sol.drop (ccExt p ncc)) d.dest) (t ++ q)

theorem Appended.ext {p' : Prog} {f : Nat → List Int} (h : Appended p p' f) (ncc : Nat) : ccExt p' ncc = ccExt p ncc := by
  unfold ccExt; rw [h.npar]

theorem ccLen_appended {p' : Prog} {f : Nat → List Int} (h : Appended p p' f) (ncc : Nat) (sol : List Int) :
    CcLen p' ncc sol ↔ CcLen p ncc sol := by
  unfold CcLen; rw [h.npar, h.nvar, h.len]

theorem padZeroCc_appended {p' : Prog} {f : Nat → List Int} (h : Appended p p' f) (ext : Nat) (sol : List Int) :
    PadZero (withExt p' ext) sol ↔ PadZero (withExt p ext) sol := by
  have hst : ∀ i : Nat, p'.stmts[i]?.map (·.isOrig) = p.stmts[i]?.map (·.isOrig) := by
    intro i
    have := congrArg (fun p : Prog => p.stmts[i]?.map (·.isOrig)) h.sk
    simp only [skel, List.getElem?_map, Option.map_map] at this
    exact this
  unfold PadZero withExt
  simp only [h.npar, h.nvar]
  constructor
  · intro hz i st hs k hk ho
    have := hst i
    rw [hs, Option.map_some] at this
    obtain ⟨st', h1, h2⟩ := Option.map_eq_some_iff.mp this
    exact hz i st' h1 k hk (by rw [h2]; exact ho)
  · intro hz i st hs k hk ho
    have := hst i
    rw [hs, Option.map_some] at this
    obtain ⟨st', h1, h2⟩ := Option.map_eq_some_iff.mp this.symm
    exact hz i st' h1 k hk (by rw [h2]; exact ho)

theorem findLoopCc_spec (o : SearchOpts) (L : Libs) (hL : FeasibleOracle L.solve) (hk : SkelOK k) (ncc : Nat) (base : Cst)
    (eager : Bool) (n : Nat) : ∀ (p p' : Prog) (m : Nat), Inv X k p →
    Wid (ccExt p ncc + cstWidth p.nvar p.npar p.stmts.length) base → LegalBaseCc p ncc base →
    findLoopCc o L ncc base eager n p = some (p', m) →
    Inv X k p' ∧ p'.deps = p.deps ∧ p'.hProps.length = p.hProps.length + m ∧
      (X → ∀ m0 ≤ p.hProps.length, Early p m0 → Early p' m0) := by
  induction n with
  | zero =>
    intro p p' m hi _ _ h
    simp only [findLoopCc, Option.some.injEq, Prod.mk.injEq] at h
    rw [← h.1, ← h.2]
    exact ⟨hi, rfl, rfl, fun _ _ _ h => h⟩
  | succ n ih =>
    intro p p' m hi hwid hleg h
    have stop : some (p, 0) = some (p', m) → Inv X k p' ∧ p'.deps = p.deps ∧ p'.hProps.length = p.hProps.length + m ∧
        (X → ∀ m0 ≤ p.hProps.length, Early p m0 → Early p' m0) := by
      intro h
      simp only [Option.some.injEq, Prod.mk.injEq] at h
      rw [← h.1, ← h.2]
      exact ⟨hi, rfl, rfl, fun _ _ _ h => h⟩
    have ho := hk.origOK hi.sk
    simp only [findLoopCc] at h
    split_ifs at h with hr
    · exact stop h
    · rw [Option.bind_eq_bind, Option.bind_eq_some_iff] at h
      obtain ⟨r, h1, h⟩ := h
      cases r with
      | none => exact stop h
      | some sol =>
        simp only [Option.bind_eq_bind, Option.bind_eq_some_iff] at h
        obtain ⟨⟨p1, m1⟩, h2, h⟩ := h
        simp only [Option.pure_def, Option.some.injEq, Prod.mk.injEq] at h
        have hall := ((hwid.add (widen_wid (ext := ccExt p ncc) (nonTrivial_wid p eager))).add (widen_wid (ext := ccExt p ncc)
          (linearInd_wid o { L with isEmpty := fun c => L.isEmpty (addCst (widenCst (ccExt p ncc) c)
            (addCst base (widenCst (ccExt p ncc) (nonTrivialConstraints p eager)))) } p ho
          ⟨cstWidth p.nvar p.npar p.stmts.length, []⟩ eager))).add (objSum_wid p ncc)
        have hw1 : 1 ≤ ccExt p ncc + cstWidth p.nvar p.npar p.stmts.length := by unfold cstWidth; omega
        obtain ⟨f1, f2, f3⟩ := progLexmin_feasible o.dfp L.solve hL (withExt p (ccExt p ncc)) ho _ (hall.wf hw1)
          (fun hn => hr (List.append_eq_nil_iff.mp (List.append_eq_nil_iff.mp hn).1).2) sol h1
        have f1' := (ccLen_iff p ncc sol).mp f1
        have g1 := dropExt_len f1'
        have g2 := padZero_ext f2
        have hap := addHyperplane_appended p (sol.drop (ccExt p ncc))
        have hbase : base.Sat sol := fun r hr => f3 r (by simp [addCst, hr])
        have hi' : Inv X k (addHyperplane p (sol.drop (ccExt p ncc))) := by
          refine hi.append hk hap ?_ ?_
          · intro i st hs
            have hlt := (List.getElem?_eq_some_iff.mp hs).1
            refine ⟨(C39_row_value p _ g1 i hlt (List.replicate p.nvar 0) (List.replicate p.npar 0)
              (by simp) (by simp)).1, fun j hj1 hj2 => ?_⟩
            refine (C39_row_zero p _ g1 g2 i st hs j).1 hj2 ?_
            rw [(hk.stmt hi.sk (List.mem_of_getElem? hs)).2.2, List.getD_eq_getElem?_getD,
              List.getElem?_append_right (by simpa using hj1), List.getElem?_replicate, if_pos (by simp; omega)]
            rfl
          · exact fun _ => hleg sol f1' f2 hbase
        have hleg' : LegalBaseCc (addHyperplane p (sol.drop (ccExt p ncc))) ncc base := by
          intro sol' g1 g2 g3 d hd hr hs s t q hinst
          rw [hap.ext] at g2 ⊢
          exact hleg sol' ((ccLen_appended hap ncc sol').mp g1) ((padZeroCc_appended hap _ sol').mp g2) g3 d hd hr hs s t q
            ((hap.inst d s t q).mp hinst)
        obtain ⟨e1, e2, e3, e4⟩ := ih (addHyperplane p (sol.drop (ccExt p ncc))) p1 m1 hi'
          (by rw [hap.ext, hap.len, hap.nvar, hap.npar]; exact hwid) hleg' h2
        rw [← h.1, ← h.2]
        refine ⟨e1, e2, ?_, fun hX m0 hm0 he => e4 hX m0 (by rw [hap.hlen]; omega) ?_⟩
        · rw [e3, hap.hlen]
          omega
        · exact he.append hk hi hap hm0 (hleg sol f1' f2 hbase)

/-- A hyperplane of a solution does not violate an unsatisfied dependence. -/
theorem depCc_legal (nodepbound : Bool) {cc : Nat → Int} {ncc : Nat} (hcc : CcOK p cc ncc) {sol : List Int} (hl : CcLen p ncc sol)
    (hz : PadZero (withExt p (ccExt p ncc)) sol) {d : Dep} (hd : DepOK p d) (hr : d.rar = false)
    (hs : (depCstCc nodepbound p cc ncc d).Sat sol) (s t q : List Int) (hi : DepInst d.dpoly p.nvar p.nvar p.npar s t q) :
    aff (hyperplaneRow p.nvar p.npar (sol.drop (ccExt p ncc)) d.src) (s ++ q) ≤
      aff (hyperplaneRow p.nvar p.npar (sol.drop (ccExt p ncc)) d.dest) (t ++ q) := by
  obtain ⟨c, hc, hlt⟩ := hcc d.src hd.src
  have hl' := ccPart_len hl hlt
  have := C07_dep_legal nodepbound p d (ccPart p ncc c sol) hd hr hl' (padZero_part hl hlt hz)
    ((depCstCc_sat nodepbound p cc ncc c d hd.src hd.dest hc hlt sol hl).mp hs) s t q hi
  rw [← hyperplaneRow_part hl hlt, ← hyperplaneRow_part hl hlt, (C39_row_value p _ hl' d.src hd.src s q hi.hs hi.hp).2,
    (C39_row_value p _ hl' d.dest hd.dest t q hi.ht hi.hp).2]
  omega

theorem findPermutableCc_spec (o : SearchOpts) (L : Libs) (hL : FeasibleOracle L.solve) (hk : SkelOK k)
    {cc : Nat → Int} {ncc : Nat} (hcc : CcOK p cc ncc) (eager : Bool) (n : Nat) {buf b' : Option (Nat × Nat)} {p' : Prog} {m : Nat}
    (hi : Inv X k p) (h : findPermutableCc o L cc ncc eager n buf p = some (b', p', m)) :
    Inv X k p' ∧ p'.deps = p.deps ∧ p'.hProps.length = p.hProps.length + m ∧ (X → Early p' p.hProps.length) := by
  unfold findPermutableCc at h
  split_ifs at h
  · simp only [Option.some.injEq, Prod.mk.injEq] at h
    rw [← h.2.1, ← h.2.2]
    exact ⟨hi, rfl, rfl, fun hX => hi.early hX⟩
  · simp only [Option.bind_eq_bind, Option.bind_eq_some_iff] at h
    obtain ⟨⟨b1, g⟩, h1, ⟨b2, base⟩, h2, ⟨p1, m1⟩, h3, h⟩ := h
    simp only [Option.pure_def, Option.some.injEq, Prod.mk.injEq] at h
    rw [← h.2.1, ← h.2.2]
    obtain ⟨w, e⟩ := permutabilityCc_spec o.rar o.nodepbound p hcc
      (fun d hd => ⟨(hk.dep hi.sk hd).src, (hk.dep hi.sk hd).dest⟩) h1
    obtain ⟨_, rfl⟩ := addBuf_spec h2
    have hb := coeffBound_wid o (withExt p (ccExt p ncc))
    rw [withExt_width] at hb
    have key : Inv X k p1 ∧ p1.deps = p.deps ∧ p1.hProps.length = p.hProps.length + m1 ∧
        (X → ∀ m0 ≤ p.hProps.length, Early p m0 → Early p1 m0) := by
      refine findLoopCc_spec o L hL hk ncc _ eager n p p1 m1 hi (w.add hb) ?_ h3
      intro sol h1 h2 h3 d hd hr hs s t q hinst
      rw [hk.inst hi.sk hd, sk_nvar hi.sk, sk_npar hi.sk] at hinst
      rw [addCst_sat] at h3
      exact depCc_legal o.nodepbound hcc h1 h2 (hk.dep hi.sk hd) hr
        ((e sol).mp h3.1 d hd (by simp [hr]) hs) s t q hinst
    exact ⟨key.1, key.2.1, key.2.2.1, fun hX => key.2.2.2 hX _ (Nat.le_refl _) (hi.early hX)⟩

theorem ccOK_of {g : Graph} {s0 : DfsState} {cc : Nat → Int} {ncc : Nat} (h : ddgComputeCc g s0 = some (cc, ncc))
    (hn : g.n = p.stmts.length) : CcOK p cc ncc := by
  obtain ⟨cc', e, hc⟩ := cc_spec g s0
  rw [h, Option.some.injEq, Prod.mk.injEq] at e
  obtain ⟨rfl, rfl⟩ := e
  intro i hi
  have h1 := hc i (by omega)
  have h2 := leaders_mono g 1 (i + 1) (by omega)
  have h3 := leaders_mono g (i + 1) g.n (by omega)
  have h0 : leaders g 1 = 1 := by
    rw [leaders_succ]
    have : g.Leader 0 := by
      unfold Graph.Leader
      simp
    simp [this, leaders]
  exact ⟨(cc i).toNat, by omega, by omega⟩

/-- What the main loop needs of a search. -/
def FindOK {σ : Type} (X : Prop) (k : Prog) (find : σ → Bool → Nat → Auto → Option (σ × Prog × Nat)) : Prop :=
  ∀ m eager n (a : Auto) m' p' c, AInv X k a → find m eager n a = some (m', p', c) →
    Inv X k p' ∧ p'.deps = a.p.deps ∧ p'.hProps.length = a.p.hProps.length + c ∧ (X → Early p' a.p.hProps.length)

theorem searchCc_ok (o : SearchOpts) (L : Libs) (hL : FeasibleOracle L.solve) (hk : SkelOK k) : FindOK X k (searchCc o L) := by
  intro b eager n a b' p' c hi h
  unfold searchCc at h
  simp only [Option.bind_eq_bind, Option.bind_eq_some_iff] at h
  obtain ⟨⟨cc, ncc⟩, h1, h⟩ := h
  exact findPermutableCc_spec o L hL hk (ccOK_of h1 hi.gn) eager n hi.inv h

end

end Pluto
