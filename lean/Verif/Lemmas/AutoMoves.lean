import Verif.Lemmas.AutoAll
import Verif.Props.LinInd
import Verif.Spec.Pipeline

/-! Facts about programs that every step of the automatic transformation (without diamond tiling) keeps are
kept by the whole of it. -/

namespace Pluto

/-- Hyperplane coefficients that respect the unsatisfied dependences. -/
structure GoodSol (p : Prog) (sol : List Int) : Prop where
  len : SolLen p sol
  pad : PadZero p sol
  legal : ∀ d ∈ p.deps, d.rar = false → d.satisfied = false → ∀ s t q, p.Inst d s t q →
    aff (hyperplaneRow p.nvar p.npar sol d.src) (s ++ q) ≤ aff (hyperplaneRow p.nvar p.npar sol d.dest) (t ++ q)

/-- The coefficients give every statement that still needs loops a new one, and there is such a statement. -/
structure NewRows (p : Prog) (sol : List Int) : Prop where
  needs : ∃ st ∈ p.stmts, NeedsLoops st
  new : ∀ (i : Nat) (st : Stmt), p.stmts[i]? = some st → NeedsLoops st → qvec st.dimOrig (stmtCoeffs p i st sol) ∉ loopSpan p st

/-- `I` is kept by the steps of the transformation; by precise satisfaction (LAZY mode) if `lz`; by adding
hyperplanes that are new for all statements if `ke`, otherwise by adding any. -/
structure Moves (isEmpty : Cst → Bool) (k : Prog) (lz ke : Prop) (I : Prog → Prop) : Prop where
  hyper : ∀ p sol, Inv True k p → I p → GoodSol p sol → (ke → NewRows p sol) → I (addHyperplane p sol)
  scalar : ∀ (p : Prog) (f : Nat → List Int) (c : Nat → Int), Inv True k p → I p →
    (∀ i < p.stmts.length, f i = [c i]) → (∀ d, Live p d → c d.src ≤ c d.dest) → I (addScalarRows p f)
  update : ∀ (p p' : Prog) (l n : Nat), Inv True k p → I p → l < p.hProps.length →
    depSatUpdate isEmpty p l = some (p', n) → I p'
  drop : ∀ (p : Prog) (ds : List Dep), Inv True k p → I p →
    List.Forall₂ (fun d d' : Dep => skelDep d' = skelDep d ∧ (d.rar = false → d'.satisfied = d.satisfied)) p.deps ds →
    I { p with deps := ds }
  precise : lz → ∀ (p p' : Prog) (n : Nat), Inv True k p → I p →
    computeDepSatisfactionPrecise isEmpty p = some (p', n) → I p'

theorem inv_padded {X : Prop} {k p : Prog} (hk : SkelOK k) (hi : Inv X k p) : p.Padded := by
  intro st hst
  obtain ⟨h1, h2, h3⟩ := hk.stmt hi.sk hst
  exact ⟨h2, h1, h3, fun r hr => ((hi.rows st hst).2 r hr).1, (hi.rows st hst).1⟩

section
variable {k : Prog} {lz ke : Prop} {I : Prog → Prop} {L : Libs} {a a' : Auto}

theorem scalar_update_keeps (hE : EmptyOracle L.isEmpty) (hk : SkelOK k) (hM : Moves L.isEmpty k lz ke I) (hc : CInv True k a) (hI : I a.p)
    (f : Nat → List Int) (c : Nat → Int) (hf : ∀ i < a.p.stmts.length, f i = [c i])
    (hm : ∀ d, Live a.p d → c d.src ≤ c d.dest) {p2 : Prog} {n : Nat}
    (h : satUpdateLast L.isEmpty (addScalarRows a.p f) = some (p2, n)) : I p2 := by
  obtain ⟨_, _, _, h4⟩ := scalar_update hE hk hc f c hf (fun _ => hm) h
  have hap := scalar_appended (p := a.p) f c hf
  have hinv := scalar_inv hk hc.inv f c hf (fun _ => hm)
  exact hM.update _ _ _ _ hinv (hM.scalar _ f c hc.inv hI hf hm) (by rw [hap.hlen]; omega) h4

theorem keep_keeps (hE : EmptyOracle L.isEmpty) (hk : SkelOK k) (hM : Moves L.isEmpty k lz ke I) (hc : CInv True k a) (hI : I a.p)
    (f : Nat → List Int) (c : Nat → Int) (hf : ∀ i < a.p.stmts.length, f i = [c i])
    (hm : ∀ d, Live a.p d → c d.src ≤ c d.dest) {n : Nat}
    (h : a.keepIfUseful L.isEmpty (addScalarRows a.p f) = some (a', n)) : I a'.p := by
  unfold Auto.keepIfUseful at h
  rw [Option.bind_eq_bind, Option.bind_eq_some_iff] at h
  obtain ⟨⟨p2, n'⟩, hu, h⟩ := h
  have h0 := scalar_update_keeps hE hk hM hc hI f c hf hm hu
  obtain ⟨_, h2, h3, _⟩ := scalar_update hE hk hc f c hf (fun _ => hm) hu
  simp only at h
  split_ifs at h with hn
  · simp only [Option.pure_def, Option.some.injEq, Prod.mk.injEq] at h
    rw [← h.1]
    exact h0
  · simp only [Option.pure_def, Option.some.injEq, Prod.mk.injEq] at h
    have e : dropLastRow p2 = { a.p with deps := p2.deps } := by
      conv_lhs => rw [h2]
      exact drop_scalar f c hf p2.deps
    rw [e] at h
    rw [← h.1]
    exact hM.drop _ _ hc.inv hI (h3 (by omega))

theorem cutBetween_keeps (hE : EmptyOracle L.isEmpty) (hk : SkelOK k) (hM : Moves L.isEmpty k lz ke I) (hc : CInv True k a) (hI : I a.p)
    {c1 c2 : Int} {n : Nat} (h : a.cutBetween L.isEmpty c1 c2 = some (a', n)) : I a'.p := by
  unfold Auto.cutBetween at h
  split_ifs at h with hcon
  · refine keep_keeps hE hk hM hc hI _ (fun i => if a.scc i < c2 then 0 else 1) (fun i _ => rfl) ?_ h
    intro d hd
    have := hc.mono trivial d hd
    split_ifs <;> omega
  · simp only [Option.some.injEq, Prod.mk.injEq] at h
    rw [← h.1]
    exact hI

theorem cutAll_keeps (hE : EmptyOracle L.isEmpty) (hk : SkelOK k) (hM : Moves L.isEmpty k lz ke I) (hc : CInv True k a) (hI : I a.p)
    {n : Nat} (h : a.cutAll L.isEmpty = some (a', n)) : I a'.p := by
  unfold Auto.cutAll at h
  split_ifs at h with hnum
  · simp only [Option.some.injEq, Prod.mk.injEq] at h
    rw [← h.1]
    exact hI
  · rw [Option.bind_eq_bind, Option.bind_eq_some_iff] at h
    obtain ⟨⟨p2, n'⟩, hu, h⟩ := h
    simp only [Option.pure_def, Option.some.injEq, Prod.mk.injEq] at h
    rw [← h.1]
    exact scalar_update_keeps hE hk hM hc hI (fun i => [a.scc i]) a.scc (fun i _ => rfl) (hc.mono trivial) hu

theorem cutDimBased_keeps (hE : EmptyOracle L.isEmpty) (hk : SkelOK k) (hM : Moves L.isEmpty k lz ke I) (hc : CInv True k a) (hI : I a.p)
    {n : Nat} (h : a.cutDimBased L.isEmpty = some (a', n)) : I a'.p := by
  unfold Auto.cutDimBased at h
  split_ifs at h with hnum
  · simp only [Option.some.injEq, Prod.mk.injEq] at h
    rw [← h.1]
    exact hI
  · refine keep_keeps hE hk hM hc hI _ (fun i => (a.dimCount (a.scc i).toNat : Int)) ?_ ?_ h
    · intro i hi
      obtain ⟨h0, h1⟩ := hc.range i hi
      rw [filter_range_eq _ _ h0 h1]
      rfl
    · intro d hd
      have := hc.mono trivial d hd
      have := dimCount_mono a (i := (a.scc d.src).toNat) (j := (a.scc d.dest).toNat) (by omega)
      omega

theorem smartFar_keeps (hE : EmptyOracle L.isEmpty) (hk : SkelOK k) (hM : Moves L.isEmpty k lz ke I) (l : List (Nat × Nat)) :
    ∀ (a a' : Auto), CInv True k a → I a.p → a.smartFar L.isEmpty l = some a' → I a'.p := by
  induction l with
  | nil =>
    intro a a' hc hI h
    simp only [Auto.smartFar, Option.some.injEq] at h
    rw [← h]; exact hI
  | cons x l ih =>
    intro a a' hc hI h
    obtain ⟨i, j⟩ := x
    simp only [Auto.smartFar, Option.bind_eq_bind, Option.bind_eq_some_iff] at h
    obtain ⟨n, _, h⟩ := h
    split_ifs at h
    · rw [Option.bind_eq_some_iff] at h
      obtain ⟨⟨a1, n1⟩, h1, h2⟩ := h
      exact ih a1 a' (cutBetween_spec hE hk hc h1).1 (cutBetween_keeps hE hk hM hc hI h1) h2
    · exact ih a a' hc hI h
    · rw [Option.bind_eq_some_iff] at h
      obtain ⟨⟨a1, n1⟩, h1, h2⟩ := h
      simp only [Option.pure_def, Option.some.injEq] at h2
      rw [← h2]
      exact cutAll_keeps hE hk hM hc hI h1

theorem conservativeFar_keeps (hE : EmptyOracle L.isEmpty) (hk : SkelOK k) (hM : Moves L.isEmpty k lz ke I) (l : List (Nat × Nat)) :
    ∀ (a a' : Auto), CInv True k a → I a.p → a.conservativeFar L.isEmpty l = some a' → I a'.p := by
  induction l with
  | nil =>
    intro a a' hc hI h
    simp only [Auto.conservativeFar, Option.some.injEq] at h
    rw [← h]; exact hI
  | cons x l ih =>
    intro a a' hc hI h
    obtain ⟨i, j⟩ := x
    simp only [Auto.conservativeFar, Option.bind_eq_bind, Option.bind_eq_some_iff] at h
    obtain ⟨n, _, h⟩ := h
    split_ifs at h
    · rw [Option.bind_eq_some_iff] at h
      obtain ⟨⟨a1, n1⟩, h1, h2⟩ := h
      have i1 := (cutBetween_spec hE hk hc h1).1
      have i2 := cutBetween_keeps hE hk hM hc hI h1
      simp only at h2
      split_ifs at h2
      · simp only [Option.pure_def, Option.some.injEq] at h2
        rw [← h2]; exact i2
      · exact ih a1 a' i1 i2 h2
    · rw [Option.bind_eq_some_iff] at h
      obtain ⟨⟨a1, n1⟩, h1, h2⟩ := h
      simp only [Option.pure_def, Option.some.injEq] at h2
      rw [← h2]
      exact cutAll_keeps hE hk hM hc hI h1

theorem cutConservative_keeps (hE : EmptyOracle L.isEmpty) (hk : SkelOK k) (hM : Moves L.isEmpty k lz ke I) (hc : CInv True k a) (hI : I a.p)
    (h : a.cutConservative L.isEmpty = some a') : I a'.p := by
  unfold Auto.cutConservative at h
  rw [Option.bind_eq_bind, Option.bind_eq_some_iff] at h
  obtain ⟨⟨a1, n1⟩, h1, h⟩ := h
  have i1 := (cutDimBased_spec hE hk hc h1).1
  have j1 := cutDimBased_keeps hE hk hM hc hI h1
  simp only at h
  split_ifs at h
  · simp only [Option.pure_def, Option.some.injEq] at h
    rw [← h]; exact j1
  · rw [Option.bind_eq_some_iff] at h
    obtain ⟨⟨a2, n2⟩, h2, h⟩ := h
    have i2 := (cutBetween_spec hE hk i1 h2).1
    have j2 := cutBetween_keeps hE hk hM i1 j1 h2
    simp only at h
    split_ifs at h
    · simp only [Option.pure_def, Option.some.injEq] at h
      rw [← h]; exact j2
    · exact conservativeFar_keeps hE hk hM _ a2 a' i2 j2 h

theorem cutSmart_keeps (hE : EmptyOracle L.isEmpty) (hk : SkelOK k) (hM : Moves L.isEmpty k lz ke I) (hc : CInv True k a) (hI : I a.p)
    (h : a.cutSmart L.isEmpty = some a') : I a'.p := by
  unfold Auto.cutSmart at h
  split_ifs at h
  · simp only [Option.some.injEq] at h
    rw [← h]; exact hI
  · rw [Option.bind_eq_bind, Option.bind_eq_some_iff] at h
    obtain ⟨⟨a1, n1⟩, h1, h2⟩ := h
    simp only [Option.pure_def, Option.some.injEq] at h2
    rw [← h2]
    exact cutAll_keeps hE hk hM hc hI h1
  · rw [Option.bind_eq_bind, Option.bind_eq_some_iff] at h
    obtain ⟨⟨a1, n1⟩, h1, h⟩ := h
    have i1 := (cutDimBased_spec hE hk hc h1).1
    have j1 := cutDimBased_keeps hE hk hM hc hI h1
    simp only at h
    split_ifs at h
    · simp only [Option.pure_def, Option.some.injEq] at h
      rw [← h]; exact j1
    · rw [Option.bind_eq_some_iff] at h
      obtain ⟨⟨a2, n2⟩, h2, h⟩ := h
      have i2 := (cutBetween_spec hE hk i1 h2).1
      have j2 := cutBetween_keeps hE hk hM i1 j1 h2
      simp only at h
      split_ifs at h
      · simp only [Option.pure_def, Option.some.injEq] at h
        rw [← h]; exact j2
      · exact smartFar_keeps hE hk hM _ a2 a' i2 j2 h

theorem findLoop_keeps (o : SearchOpts) (hL : FeasibleOracle L.solve) (hk : SkelOK k) (hM : Moves L.isEmpty k lz ke I) (base : Cst)
    (eager : Bool) (hke : ke → KernelOracle L.kernel ∧ eager = true) (n : Nat) : ∀ (p p' : Prog) (m : Nat), Inv True k p → I p →
    Wid (cstWidth p.nvar p.npar p.stmts.length) base → LegalBase p base →
    findLoop o L base eager n p = some (p', m) → I p' := by
  induction n with
  | zero =>
    intro p p' m _ hI _ _ h
    simp only [findLoop, Option.some.injEq, Prod.mk.injEq] at h
    rw [← h.1]
    exact hI
  | succ n ih =>
    intro p p' m hi hI hwid hleg h
    have stop : some (p, 0) = some (p', m) → I p' := by
      intro h
      simp only [Option.some.injEq, Prod.mk.injEq] at h
      rw [← h.1]
      exact hI
    have ho := hk.origOK hi.sk
    simp only [findLoop] at h
    split_ifs at h with hr
    · exact stop h
    · rw [Option.bind_eq_bind, Option.bind_eq_some_iff] at h
      obtain ⟨r, h1, h⟩ := h
      cases r with
      | none => exact stop h
      | some sol =>
        simp only [Option.bind_eq_bind, Option.bind_eq_some_iff] at h
        obtain ⟨⟨p1, m1⟩, h2, h⟩ := h
        simp only [Option.pure_def, Option.some.injEq, Prod.mk.injEq] at h
        have hall := (hwid.add (nonTrivial_wid p eager)).add (linearInd_wid o L p ho
          (addCst base (nonTrivialConstraints p eager)) eager)
        have hw1 : 1 ≤ cstWidth p.nvar p.npar p.stmts.length := by unfold cstWidth; omega
        obtain ⟨f1, f2, f3⟩ := progLexmin_feasible o.dfp L.solve hL p ho _ (hall.wf hw1)
          (fun hn => hr (List.append_eq_nil_iff.mp hn).2) sol h1
        have hap := addHyperplane_appended p sol
        have hbase : base.Sat sol := fun r hr => f3 r (by simp [addCst, hr])
        have hi' : Inv True k (addHyperplane p sol) := by
          refine hi.append hk hap ?_ ?_
          · intro i st hs
            have hlt := (List.getElem?_eq_some_iff.mp hs).1
            refine ⟨(C39_row_value p sol f1 i hlt (List.replicate p.nvar 0) (List.replicate p.npar 0)
              (by simp) (by simp)).1, fun j hj1 hj2 => ?_⟩
            refine (C39_row_zero p sol f1 f2 i st hs j).1 hj2 ?_
            rw [(hk.stmt hi.sk (List.mem_of_getElem? hs)).2.2, List.getD_eq_getElem?_getD,
              List.getElem?_append_right (by simpa using hj1), List.getElem?_replicate, if_pos (by simp; omega)]
            rfl
          · exact fun _ => hleg sol f1 f2 hbase
        have hleg' : LegalBase (addHyperplane p sol) base := by
          intro sol' g1 g2 g3 d hd hr hs s t q hinst
          exact hleg sol' ((solLen_appended hap sol').mp g1) ((padZero_appended hap sol').mp g2) g3 d hd hr hs s t q
            ((hap.inst d s t q).mp hinst)
        have hI' := hM.hyper p sol hi hI ⟨f1, f2, hleg sol f1 f2 hbase⟩ (by
          intro hkx
          obtain ⟨hK, he⟩ := hke hkx
          have hpad := inv_padded hk hi
          refine ⟨?_, fun i st hs hn => ?_⟩
          · by_contra hc
            push Not at hc
            exact hr ((C37_rows o L hK p hpad _ eager).mpr hc)
          · subst he
            exact C37_eager o L hK p hpad _ sol f1 (fun r hr => f3 r (by simp [addCst] at hr ⊢; tauto)) i st hs hn)
        rw [← h.1]
        exact ih (addHyperplane p sol) p1 m1 hi' hI' (by rw [hap.len, hap.nvar, hap.npar]; exact hwid) hleg' h2

theorem findPermutable_keeps (o : SearchOpts) (hL : FeasibleOracle L.solve) (hk : SkelOK k) (hM : Moves L.isEmpty k lz ke I)
    (eager : Bool) (hke : ke → KernelOracle L.kernel ∧ eager = true) (n : Nat) {p p' : Prog} (m : Nat) (hi : Inv True k p) (hI : I p)
    (h : findPermutable o L eager n p = some (p', m)) : I p' := by
  unfold findPermutable at h
  split_ifs at h
  · simp only [Option.some.injEq, Prod.mk.injEq] at h
    rw [← h.1]
    exact hI
  · have hperm := perm_wf o.rar o.nodepbound p (fun d hd => ⟨(hk.dep hi.sk hd).src, (hk.dep hi.sk hd).dest⟩)
    refine findLoop_keeps o hL hk hM _ eager hke n p p' m hi hI (Wid.add ⟨hperm.2, ?_⟩ (coeffBound_wid o p)) ?_ h
    · intro r hr
      rw [← hperm.2]
      exact hperm.1.2 r hr
    · intro sol h1 h2 h3 d hd hr hs s t q hinst
      rw [hk.inst hi.sk hd, sk_nvar hi.sk, sk_npar hi.sk] at hinst
      exact C39_added_rows_legal o.rar o.nodepbound p sol (fun d hd => hk.dep hi.sk hd) h1 h2
        (fun r hr => h3 r (by simp [addCst, hr])) d hd hr hs s t q hinst

theorem updateLevels_keeps (hE : EmptyOracle L.isEmpty) (hk : SkelOK k) (hM : Moves L.isEmpty k lz ke I) (n : Nat) :
    ∀ (a a' : Auto) (level : Nat), Inv True k a.p → I a.p → level + n ≤ a.p.hProps.length →
      updateLevels L.isEmpty a level n = some a' → I a'.p := by
  induction n with
  | zero =>
    intro a a' level _ hI _ h
    simp only [updateLevels, Option.some.injEq] at h
    rw [← h]; exact hI
  | succ n ih =>
    intro a a' level hi hI hl h
    simp only [updateLevels, Option.bind_eq_bind, Option.bind_eq_some_iff] at h
    obtain ⟨⟨p, m⟩, h1, h2⟩ := h
    obtain ⟨i1, i2, _, _⟩ := hi.update hE hk (by omega) h1
    refine ih _ a' (level + 1) i1 (hM.update _ _ _ _ hi hI (by omega) h1) ?_ h2
    have : p.hProps = a.p.hProps := by rw [i2]
    show _ ≤ p.hProps.length
    rw [this]; omega

theorem noFuseCut_keeps {o : AutoOpts} (hE : EmptyOracle L.isEmpty) (hk : SkelOK k) (hM : Moves L.isEmpty k lz ke I)
    (hi : AInv True k a) (hI : I a.p) (h : noFuseCut o L a = some a') : I a'.p := by
  unfold noFuseCut at h
  split_ifs at h
  · rw [Option.bind_eq_bind, Option.bind_eq_some_iff] at h
    obtain ⟨a1, h1, h2⟩ := h
    obtain ⟨⟨a2, n⟩, h3, h4⟩ := Option.map_eq_some_iff.mp h2
    subst h4
    exact cutAll_keeps hE hk hM (computeScc_spec hi h1) (by rw [(scc_facts h1).1]; exact hI) h3
  · simp only [Option.some.injEq] at h
    rw [← h]; exact hI

theorem fuseCut_keeps {o : AutoOpts} (hE : EmptyOracle L.isEmpty) (hk : SkelOK k) (hM : Moves L.isEmpty k lz ke I) {depth : Nat}
    (hi : CInv True k a) (hI : I a.p) (h : fuseCut o L depth a = some a') : I a'.p := by
  have key : (a.cutAll L.isEmpty).map (·.1) = some a' → I a'.p := by
    intro h
    obtain ⟨⟨a2, n⟩, h3, h4⟩ := Option.map_eq_some_iff.mp h
    subst h4
    exact cutAll_keeps hE hk hM hi hI h3
  unfold fuseCut at h
  cases hf : o.fuse with
  | no => rw [hf] at h; exact key h
  | smart => rw [hf] at h; exact cutSmart_keeps hE hk hM hi hI h
  | max =>
    rw [hf] at h
    simp only at h
    split_ifs at h
    · exact key h
    · exact cutConservative_keeps hE hk hM hi hI h

theorem noneStep_keeps {o : AutoOpts} (hE : EmptyOracle L.isEmpty) (hk : SkelOK k) (hM : Moves L.isEmpty k lz ke I) {s s' : LoopState}
    (hi : AInv True k s.a) (hI : I s.a.p) (h : noneStep o L s = some (.go s')) : I s'.a.p := by
  unfold noneStep at h
  rw [Option.bind_eq_bind, Option.bind_eq_some_iff] at h
  obtain ⟨a, h1, h⟩ := h
  have hc := computeScc_spec hi h1
  have hI' : I a.p := by rw [(scc_facts h1).1]; exact hI
  simp only at h
  split_ifs at h
  · rw [Option.bind_eq_some_iff] at h
    obtain ⟨a', h2, h3⟩ := h
    simp only [Option.pure_def, Option.some.injEq, StepRes.go.injEq] at h3
    subst h3
    exact fuseCut_keeps hE hk hM hc hI' h2
  all_goals
    simp only [Option.pure_def, Option.some.injEq, StepRes.go.injEq, reduceCtorEq] at h
    try (subst h; exact hI')

theorem foundStep_keeps (hE : EmptyOracle L.isEmpty) (hk : SkelOK k) (hM : Moves L.isEmpty k lz ke I) {s s' : LoopState} {n : Nat}
    (hi : Inv True k s.a.p) (hI : I s.a.p) (h : foundStep L noDiamond s n = some s') : I s'.a.p := by
  unfold foundStep at h
  rw [Option.bind_eq_bind, Option.bind_eq_some_iff] at h
  obtain ⟨s1, h1, h⟩ := h
  have hs1 : s1.a.p = s.a.p := by
    unfold diaStep at h1
    split_ifs at h1
    · rw [Option.bind_eq_bind, Option.bind_eq_some_iff] at h1
      obtain ⟨⟨p', c⟩, h2, h3⟩ := h1
      simp only [Option.pure_def, Option.some.injEq] at h3
      subst h3
      simp only [noDiamond, Option.some.injEq, Prod.mk.injEq] at h2
      exact h2.1.symm
    · simp only [Option.some.injEq] at h1
      subst h1
      rfl
  rw [← hs1] at hi hI
  rw [Option.bind_eq_bind, Option.bind_eq_some_iff] at h
  obtain ⟨m, h2, h⟩ := h
  have hm : m = s1.a.p.hProps.length := by
    unfold nrows0 at h2
    obtain ⟨st, h3, h4⟩ := Option.map_eq_some_iff.mp h2
    rw [← h4]
    exact (hi.rows st (List.mem_of_getElem? h3)).1
  split_ifs at h with hlt
  rw [Option.bind_eq_bind, Option.bind_eq_some_iff] at h
  obtain ⟨a, h3, h⟩ := h
  simp only [Option.pure_def, Option.some.injEq] at h
  rw [← h]
  exact updateLevels_keeps hE hk hM n _ a _ hi hI (by omega) h3

theorem endStep_keeps (hM : Moves L.isEmpty k lz ke I) {s s' : LoopState}
    (hi : Inv True k s.a.p) (hI : I s.a.p) (hz : s'.eager = false → lz) (h : endStep L s = some s') : I s'.a.p := by
  unfold endStep at h
  rw [Option.bind_eq_bind, Option.bind_eq_some_iff] at h
  obtain ⟨p, h1, h2⟩ := h
  simp only [Option.pure_def, Option.some.injEq] at h2
  rw [← h2]
  rw [← h2] at hz
  unfold preciseIfLazy at h1
  split_ifs at h1 with he
  · simp only [Option.some.injEq] at h1
    rw [← h1]; exact hI
  · obtain ⟨⟨p', m⟩, h3, h4⟩ := Option.map_eq_some_iff.mp h1
    simp only at h4
    subst h4
    exact hM.precise (hz (by simpa using he)) _ _ _ hi hI h3

theorem autoStep_keeps {o : AutoOpts} (hE : EmptyOracle L.isEmpty) (hL : FeasibleOracle L.solve) (hk : SkelOK k) (hM : Moves L.isEmpty k lz ke I)
    {req : Nat} {s s' : LoopState} (hke : ke → KernelOracle L.kernel ∧ s.eager = true) (hi : AInv True k s.a) (hI : I s.a.p) (hz : s'.eager = false → lz)
    (h : autoStep o L noDiamond req s = some (.go s')) : I s'.a.p := by
  unfold autoStep at h
  rw [Option.bind_eq_bind, Option.bind_eq_some_iff] at h
  obtain ⟨a, h1, h⟩ := h
  have ha := noFuseCut_spec hE hk hi h1
  have hI1 := noFuseCut_keeps hE hk hM hi hI h1
  simp only at h
  split_ifs at h
  rw [Option.bind_eq_bind, Option.bind_eq_some_iff] at h
  obtain ⟨⟨p, n⟩, h2, h⟩ := h
  obtain ⟨i1, i2, i3, i4⟩ := findPermutable_spec o.toSearchOpts L hL hk s.eager _ p n ha.inv h2
  have hI2 := findPermutable_keeps o.toSearchOpts hL hk hM s.eager hke _ n ha.inv hI1 h2
  have hp := ha.sameDeps hk i1 i2
  simp only at h
  split_ifs at h with hn
  · have hnl : n ≤ p.hProps.length := by rw [i3]; omega
    have he : True → Early p (p.hProps.length - n) := by
      rw [i3, Nat.add_sub_cancel]; exact i4
    rw [Option.bind_eq_bind, Option.bind_eq_some_iff] at h
    obtain ⟨s1, h3, h⟩ := h
    rw [Option.bind_eq_some_iff] at h
    obtain ⟨s2, h4, h⟩ := h
    simp only [Option.pure_def, Option.some.injEq, StepRes.go.injEq] at h
    subst h
    have i5 := foundStep_spec hE hk (noDiamond_ok k hk) i1 hp.gn hn hnl he h3
    exact endStep_keeps hM i5.inv (foundStep_keeps hE hk hM i1 hI2 h3) hz h4
  · rw [Option.bind_eq_bind, Option.bind_eq_some_iff] at h
    obtain ⟨r1, h3, h⟩ := h
    cases r1 with
    | fail s1 => simp at h
    | go s1 =>
      have hr := noneStep_spec hE hk hp h3
      simp only [Option.bind_eq_bind, Option.bind_eq_some_iff] at h
      obtain ⟨s2, h4, h⟩ := h
      simp only [Option.pure_def, Option.some.injEq, StepRes.go.injEq] at h
      subst h
      exact endStep_keeps hM (hr.1 s1 rfl).inv (noneStep_keeps hE hk hM hp hI2 h3) hz h4

theorem autoLoop_keeps {o : AutoOpts} (hE : EmptyOracle L.isEmpty) (hL : FeasibleOracle L.solve) (hk : SkelOK k) (hM : Moves L.isEmpty k lz ke I)
    {req : Nat} (hke : ke → KernelOracle L.kernel ∧ ¬ lz) (fuel : Nat) : ∀ (s : LoopState) (q : Prog), AInv True k s.a → I s.a.p →
      (ke → s.eager = true) → (lz ∨ EagerRun o L noDiamond req fuel s) →
      autoLoop o L noDiamond req fuel s = some (some (.inl q)) → I q := by
  induction fuel with
  | zero =>
    intro s q _ _ _ _ h
    simp [autoLoop] at h
  | succ fuel ih =>
    intro s q hi hI he hz h
    simp only [autoLoop, Option.bind_eq_bind, Option.bind_eq_some_iff] at h
    obtain ⟨r1, h1, h⟩ := h
    have hs := autoStep_spec hE hL hk (noDiamond_ok k hk) hi h1
    cases r1 with
    | fail s1 => simp at h
    | go s1 =>
      have hI1 : I s1.a.p := by
        refine autoStep_keeps hE hL hk hM (fun hx => ⟨(hke hx).1, he hx⟩) hi hI (fun he => ?_) h1
        rcases hz with hz | hz
        · exact hz
        · have := (hz s1 h1).1
          rw [he] at this; cases this
      simp only at h
      split_ifs at h with hc
      · refine ih s1 q (hs.1 s1 rfl) hI1 (fun hx => (hz.resolve_left (hke hx).2 s1 h1).1) ?_ h
        rcases hz with hz | hz
        · exact .inl hz
        · exact .inr ((hz s1 h1).2 hc)
      · simp only [Option.pure_def, Option.some.injEq, Sum.inl.injEq] at h
        rw [← h]; exact hI1

end

/-- What a successful run returns is what `denormalize_domains` makes of a program with the facts kept. -/
theorem auto_keeps {I : Prog → Prop} {lz ke : Prop} (o : AutoOpts) (L : Libs) (hE : EmptyOracle L.isEmpty) (hL : FeasibleOracle L.solve)
    (hke : ke → KernelOracle L.kernel ∧ ¬ lz) (fuel : Nat) (d0 : DfsState) (p0 p : Prog)
    (hM : ∀ k, SkelOK k → (∀ p, skel p = k → PadRel p0 (fun _ => p0.nvar) p) → Moves L.isEmpty k lz ke I)
    (h0 : ∀ m p, Fresh m p → p.hProps = [] → PadRel p0 (fun _ => p0.nvar) p → I p)
    (hp : p0.InputOK) (hz : lz ∨ EagerAuto o L noDiamond fuel d0 p0) (hne : p0.stmts ≠ [])
    (h : autoTransform o L noDiamond fuel d0 p0 = some (.success p)) :
    ∃ k q, SkelOK k ∧ Inv True k q ∧ PadRel p0 (fun _ => p0.nvar) q ∧ (∀ d ∈ q.deps, d.rar = false → d.satisfied = true) ∧
      denormalizeDomains q = some p ∧ I q := by
  unfold autoTransform at h
  simp only [Option.bind_eq_bind, Option.bind_eq_some_iff] at h
  obtain ⟨a, h1, h⟩ := h
  rw [if_neg hne] at h
  rw [Option.bind_eq_some_iff] at h
  obtain ⟨s, h2, h⟩ := h
  rw [Option.bind_eq_some_iff] at h
  obtain ⟨r, h3, h⟩ := h
  obtain ⟨p3, hc, m2, m3, m4, hcut⟩ := init_state (X := True) hp h1 h2
  have hk := pad_skelOK hp m2 m3
  have hM' := hM _ hk (fun p hs => m2.skel hs)
  have hI3 : I p3 := h0 _ _ m3 m4 m2
  have hse : s.eager = true := by
    unfold autoInit at h2
    simp only [Option.bind_eq_bind, Option.bind_eq_some_iff, Option.pure_def, Option.some.injEq] at h2
    obtain ⟨_, _, _, _, rfl⟩ := h2
    rfl
  have ha : AInv True (skel p3) s.a ∧ I s.a.p := by
    unfold initCut at hcut
    split_ifs at hcut
    · obtain ⟨⟨a2, n⟩, h5, h6⟩ := Option.map_eq_some_iff.mp hcut
      rw [← h6]
      exact ⟨(cutDimBased_spec hE hk hc h5).1.toAInv, cutDimBased_keeps hE hk hM' hc hI3 h5⟩
    · simp only [Option.some.injEq] at hcut
      rw [← hcut]
      exact ⟨hc.toAInv, hI3⟩
  match r with
  | none => simp at h
  | some (.inr q) =>
    simp only [Option.bind_eq_bind, Option.bind_eq_some_iff] at h
    obtain ⟨_, _, h⟩ := h
    simp at h
  | some (.inl q) =>
    simp only [Option.bind_eq_bind, Option.bind_eq_some_iff] at h
    obtain ⟨p', h4, h⟩ := h
    simp only [Option.pure_def, Option.some.injEq, Outcome.success.injEq] at h
    subst h
    obtain ⟨hi, hsat⟩ := (autoLoop_spec hE hL hk (noDiamond_ok _ hk) fuel s _ ha.1 h3).1 q rfl
    refine ⟨skel p3, q, hk, hi, m2.skel hi.sk, hsat, h4, ?_⟩
    refine autoLoop_keeps hE hL hk hM' hke fuel s q ha.1 ha.2 (fun _ => hse) ?_ h3
    rcases hz with hz | hz
    · exact .inl hz
    · exact .inr (hz a s h1 h2)

end Pluto
