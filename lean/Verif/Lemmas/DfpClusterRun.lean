import Verif.Lemmas.DfpCluster
import Verif.Lemmas.SkewRun

/-! Scaling and shifting in the clustered search, its levels and its result. -/

namespace Pluto

theorem coeffBound_rows_ne (o : SearchOpts) (p : Prog) : (coeffBoundConstraints o p).rows ≠ [] := by
  have lbne : ∀ (l : List Nat) (c : Cst), (l ≠ [] ∨ c.rows ≠ []) → (l.foldl (fun c i => addLb c i 0) c).rows ≠ [] := by
    intro l
    induction l with
    | nil => intro c h; simpa using h
    | cons x l ih =>
      intro c _
      rw [List.foldl_cons]
      exact ih _ (.inr (by simp [addLb]))
  have ubne : ∀ (b : Int) (l : List Nat) (c : Cst), c.rows ≠ [] → (l.foldl (fun c i => addUb c i b) c).rows ≠ [] := by
    intro b l
    induction l with
    | nil => intro c h; exact h
    | cons x l ih =>
      intro c _
      rw [List.foldl_cons]
      exact ih _ (by simp [addUb])
  have h0 := lbne (List.range (cstWidth p.nvar p.npar p.stmts.length - 1)) ⟨cstWidth p.nvar p.npar p.stmts.length, []⟩
    (.inl (by
      intro e
      have := congrArg List.length e
      simp [cstWidth] at this))
  unfold coeffBoundConstraints
  simp only
  split_ifs
  · exact ubne _ _ _ h0
  · exact ubne _ _ _ h0
  · exact h0

/-- Row added for loop `x.2.2` of statement `x.2.1` of component `x.1`. -/
def clRow (a : Auto) (w : Nat) (colour : List Nat) (c : Nat) (x : Nat × Nat × Nat) : Row :=
  let v := stmtOffset a.p.nvar a.p.npar x.2.1 + x.2.2
  let orig := ((a.p.stmts[x.2.1]?.map (·.isOrig)).getD []).getD x.2.2 false
  if a.maxDim x.1 < (c : Int) then
    if orig then ⟨false, unitRow w v 1 0⟩ else ⟨true, unitRow w v 1 0⟩
  else if colourOf colour (a.sccOffset x.1 + x.2.2) == c && orig then ⟨false, unitRow w v 1 (-1)⟩
  else ⟨true, unitRow w v 1 0⟩

theorem clColourCst_eq (a : Auto) (colour : List Nat) (c : Nat) (cst : Cst) :
    clColourCst a colour c cst = { cst with rows := cst.rows ++ a.clLoops.flatMap (fun x => [clRow a cst.ncols colour c x]) } := by
  unfold clColourCst
  refine append_fold cst.ncols _ (fun x => [clRow a cst.ncols colour c x]) _ ?_ cst rfl
  intro x _ c1 h1
  unfold clCoeffCst clRow
  dsimp only
  split_ifs <;> simp [addLb, setVar, h1]

theorem clColourCst_wid {a : Auto} {colour : List Nat} {c w : Nat} {cst : Cst} (h : Wid w cst) : Wid w (clColourCst a colour c cst) := by
  rw [clColourCst_eq]
  refine ⟨h.1, ?_⟩
  intro r hr
  rcases List.mem_append.mp hr with hr | hr
  · exact h.2 r hr
  · obtain ⟨x, _, hx⟩ := List.mem_flatMap.mp hr
    rw [List.mem_singleton] at hx
    rw [hx, ← h.1]
    unfold clRow
    dsimp only
    split_ifs <;> exact unitRow_len _ _ _ _

section
variable {k : Prog} {L : Libs} {o : SearchOpts} {lex : Lex} (hL : LexScales k lex) (hk : SkelOK k) (hk0 : k.stmts ≠ [])

/-- What a hyperplane found with constraints `cf` on the coefficients looks like. -/
structure ScaledBy (k : Prog) (cf : Cst) (p p' : Prog) : Prop where
  inv : Inv True k p'
  rows : ∀ i, rowsAt p i ⊆ rowsAt p' i
  live : ∀ d, Live p' d ↔ Live p d
  found : ∃ x : List ℚ, SolLen k x ∧ cf.Sat x ∧ ∀ i < k.stmts.length, ∃ r ∈ rowsAt p' i, ∃ m : ℚ, 0 < m ∧
    ∀ j < k.nvar, (coef r j : ℚ) = m * x.getD (stmtOffset k.nvar k.npar i + j) 0

include hL hk hk0 in
theorem found_by {b : Auto} {cf : Cst} {sol : List Int} (hb : CInv True k b)
    (hw : Wid (cstWidth k.nvar k.npar k.stmts.length) cf) (hne : cf.rows ≠ [])
    (h : lex b (addCst cf (permutabilityConstraints o.rar o.nodepbound b.p)) = some (some sol)) :
    ScaledBy k cf b.p (addHyperplane b.p sol) := by
  have hi1 := hb.inv
  have hgn := hb.gn
  have hge := hb.edges
  have hcov := hb.cover trivial
  generalize hp1 : b.p = p1 at *
  have hn : p1.nvar = k.nvar := (sk_nvar hi1.sk).symm
  have hm : p1.npar = k.npar := (sk_npar hi1.sk).symm
  have hlen : p1.stmts.length = k.stmts.length := (sk_len hi1.sk).symm
  have hw1 : Wid (cstWidth p1.nvar p1.npar p1.stmts.length) cf := by
    rw [hn, hm, hlen]
    exact hw
  have hperm := perm_wf o.rar o.nodepbound p1 (fun d hd => ⟨(hk.dep hi1.sk hd).src, (hk.dep hi1.sk hd).dest⟩)
  have hw2 : Wid (cstWidth p1.nvar p1.npar p1.stmts.length) (permutabilityConstraints o.rar o.nodepbound p1) :=
    ⟨hperm.2, fun r hr => by rw [← hperm.2]; exact hperm.1.2 r hr⟩
  have hall := hw1.add hw2
  have hne : (addCst cf (permutabilityConstraints o.rar o.nodepbound p1)).rows ≠ [] :=
    fun e => hne (List.append_eq_nil_iff.mp e).1
  obtain ⟨f1, f2, x, f, g1, g2, f3, g4, g5⟩ := hL b _ sol hge (by rw [hp1]; exact hgn) (by rw [hp1]; exact skel_stmts_ne hi1.sk hk0) (by rw [hp1]; exact hk.origOK hi1.sk)
    (hall.wf (by unfold cstWidth; omega)) hne (by rw [hp1]; exact hall.1) h
  rw [hp1] at f1 f2 g1 g2 g4 g5
  have hap := addHyperplane_appended p1 sol
  have hpermsat : (permutabilityConstraints o.rar o.nodepbound p1).Sat x := fun r hr => f3 r (by simp [addCst, hr])
  have hcolsat : cf.Sat x := fun r hr => f3 r (by simp [addCst, hr])
  refine ⟨?_, rowsAt_appended hap, live_appended hap, x, ?_, hcolsat, ?_⟩
  · refine hi1.append hk hap ?_ ?_
    · intro i st hs
      have hlt := (List.getElem?_eq_some_iff.mp hs).1
      refine ⟨(C39_row_value p1 sol f1 i hlt (List.replicate p1.nvar 0) (List.replicate p1.npar 0)
        (by simp) (by simp)).1, fun j hj1 hj2 => ?_⟩
      refine (C39_row_zero p1 sol f1 f2 i st hs j).1 hj2 ?_
      rw [(hk.stmt hi1.sk (List.mem_of_getElem? hs)).2.2, List.getD_eq_getElem?_getD,
        List.getElem?_append_right (by simpa using hj1), List.getElem?_replicate, if_pos (by simp; omega)]
      rfl
    · intro _ d hd hr hs s t q hinst
      rw [hk.inst hi1.sk hd, sk_nvar hi1.sk, sk_npar hi1.sk] at hinst
      have hok := hk.dep hi1.sk hd
      have hedge : b.g.Edge d.src d.dest := hcov d ⟨hd, hr, hs, s, t, q, by rw [hk.inst hi1.sk hd, sk_nvar hi1.sk, sk_npar hi1.sk]; exact hinst⟩
      have hdep := (permutability_sat o.rar o.nodepbound p1 x (fun d hd => ⟨(hk.dep hi1.sk hd).src, (hk.dep hi1.sk hd).dest⟩)).mp hpermsat d hd
        (by simp [hr]) hs
      have := scaled_legal hok hr f1 g1 g2 hdep g4 (g5 _ hok.src _ hok.dest (.single (.inl hedge))) s t q hinst
      rw [(C39_row_value p1 sol f1 d.src hok.src s q hinst.hs hinst.hp).2,
        (C39_row_value p1 sol f1 d.dest hok.dest t q hinst.ht hinst.hp).2]
      omega
  · unfold SolLen at g1 ⊢
    rw [← hn, ← hm, ← hlen]
    exact g1
  · intro i hi0
    have hi1' : i < p1.stmts.length := by rw [← sk_len hi1.sk]; exact hi0
    obtain ⟨k1, k2⟩ := g4 i hi1'
    refine ⟨_, rowsAt_last hap hi1', f i, by linarith, fun j hj => ?_⟩
    have hjn : j < p1.nvar := by rw [← sk_nvar hi1.sk]; exact hj
    rw [hyperplaneRow_coef sol f1 i hi1' j hjn]
    have k2 := k2 j (by omega)
    rw [hn, hm] at k2
    unfold stmtOffset
    rw [hn, hm]
    exact k2

omit hL hk0 in
theorem cutSmart_same {k : Prog} {isEmpty : Cst → Bool} (hk : SkelOK k) (hE : EmptyOracle isEmpty) {a a' : Auto} (hc : CInv True k a) (h : a.cutSmart isEmpty = some a') :
    a'.scc = a.scc ∧ a'.num = a.num := by
  have far : ∀ (l : List (Nat × Nat)) (a a' : Auto), CInv True k a → a.smartFar isEmpty l = some a' → a'.scc = a.scc ∧ a'.num = a.num := by
    intro l
    induction l with
    | nil =>
      intro a a' _ h
      simp only [Auto.smartFar, Option.some.injEq] at h
      rw [← h]; exact ⟨rfl, rfl⟩
    | cons x l ih =>
      intro a a' hc h
      obtain ⟨i, j⟩ := x
      simp only [Auto.smartFar, Option.bind_eq_bind, Option.bind_eq_some_iff] at h
      obtain ⟨n, _, h⟩ := h
      split_ifs at h
      · rw [Option.bind_eq_some_iff] at h
        obtain ⟨⟨a1, n1⟩, h1, h2⟩ := h
        obtain ⟨g1, g2, g3⟩ := cutBetween_spec hE hk hc h1
        rw [← g2, ← g3]
        exact ih a1 a' g1 h2
      · exact ih a a' hc h
      · rw [Option.bind_eq_some_iff] at h
        obtain ⟨⟨a1, n1⟩, h1, h2⟩ := h
        simp only [Option.pure_def, Option.some.injEq] at h2
        rw [← h2]
        exact (cutAll_spec hE hk hc h1).2
  unfold Auto.cutSmart at h
  split_ifs at h
  · simp only [Option.some.injEq] at h
    rw [← h]; exact ⟨rfl, rfl⟩
  · rw [Option.bind_eq_bind, Option.bind_eq_some_iff] at h
    obtain ⟨⟨a1, n1⟩, h1, h2⟩ := h
    simp only [Option.pure_def, Option.some.injEq] at h2
    rw [← h2]
    exact (cutAll_spec hE hk hc h1).2
  · rw [Option.bind_eq_bind, Option.bind_eq_some_iff] at h
    obtain ⟨⟨a1, n1⟩, h1, h⟩ := h
    obtain ⟨i1, i2, i3⟩ := cutDimBased_spec hE hk hc h1
    simp only at h
    split_ifs at h
    · simp only [Option.pure_def, Option.some.injEq] at h
      rw [← h]; exact ⟨i2, i3⟩
    · rw [Option.bind_eq_some_iff] at h
      obtain ⟨⟨a2, n2⟩, h2, h⟩ := h
      obtain ⟨j1, j2, j3⟩ := cutBetween_spec hE hk i1 h2
      simp only at h
      split_ifs at h
      · simp only [Option.pure_def, Option.some.injEq] at h
        rw [← h]; exact ⟨j2.trans i2, j3.trans i3⟩
      · obtain ⟨e1, e2⟩ := far _ a2 a' j1 h
        exact ⟨e1.trans (j2.trans i2), e2.trans (j3.trans i3)⟩

include hL hk hk0 in
theorem clScaleShift_spec (hE : EmptyOracle L.isEmpty) {delayedCut : Bool} {a a' : Auto} {colour : List Nat} {c : Nat} (hc : CInv True k a)
    (h : clScaleShift o delayedCut L lex a colour c = some a') :
    ∃ b : Auto, CInv True k b ∧ a' = { b with p := a'.p } ∧ (b.scc = a.scc ∧ b.num = a.num) ∧ (∀ i, rowsAt a.p i ⊆ rowsAt b.p i) ∧
      ScaledBy k (clColourCst a colour c (coeffBoundConstraints o a.p)) b.p a'.p := by
  have hw : Wid (cstWidth k.nvar k.npar k.stmts.length) (clColourCst a colour c (coeffBoundConstraints o a.p)) := by
    rw [sk_nvar hc.inv.sk, sk_npar hc.inv.sk, sk_len hc.inv.sk]
    exact clColourCst_wid (coeffBound_wid o a.p)
  have hne : (clColourCst a colour c (coeffBoundConstraints o a.p)).rows ≠ [] := by
    rw [clColourCst_eq]
    intro e
    exact coeffBound_rows_ne o a.p (List.append_eq_nil_iff.mp e).1
  unfold clScaleShift at h
  simp only [Option.bind_eq_bind] at h
  obtain ⟨r, h1, h⟩ := Option.bind_eq_some_iff.mp h
  cases r with
  | some sol =>
    simp only [Option.pure_def, Option.some.injEq] at h
    rw [← h]
    exact ⟨a, hc, rfl, ⟨rfl, rfl⟩, fun _ => List.Subset.refl _, found_by hL hk hk0 hc hw hne h1⟩
  | none =>
    simp only at h
    split_ifs at h
    obtain ⟨b, h2, h⟩ := Option.bind_eq_some_iff.mp h
    obtain ⟨r2, h3, h⟩ := Option.bind_eq_some_iff.mp h
    cases r2 with
    | none => cases h
    | some sol =>
      simp only [Option.pure_def, Option.some.injEq] at h
      have hb := cutSmart_spec hE hk hc h2
      rw [← h]
      exact ⟨b, hb, rfl, cutSmart_same hk hE hc h2,
        cutSmart_keeps hE hk (rows_moves hE hk (rowsAt a.p)) hc (fun _ => List.Subset.refl _) h2, found_by hL hk hk0 hb hw hne h3⟩

end

section
variable {k : Prog} {L : Libs} {o : SearchOpts} {co : ClOpts} {fcgOf : ClBuild} {fuse : Fuse} {fuel : Nat}
  {lex : Lex} (hE : EmptyOracle L.isEmpty) (hL : LexScales k lex) (hk : SkelOK k) (hk0 : k.stmts ≠ [])
include hE hL hk hk0

theorem clLevel_keep {c : Nat} {d d' : Cl} (hd : CInv True k d.a)
    (h : Cl.level o co L lex fcgOf fuse fuel c d = some d') : CInv True k d'.a ∧ ∀ i, rowsAt d.a.p i ⊆ rowsAt d'.a.p i := by
  unfold Cl.level at h
  simp only [Option.bind_eq_bind] at h
  obtain ⟨d1, h1, h⟩ := Option.bind_eq_some_iff.mp h
  obtain ⟨a2, h2, h⟩ := Option.bind_eq_some_iff.mp h
  obtain ⟨⟨p3, n3⟩, h3, h⟩ := Option.bind_eq_some_iff.mp h
  simp only [Option.pure_def, Option.some.injEq] at h
  have st := clColourFcg_keep hE hk _ _ _ _ { d with done := fun _ => false } _ hd h1
  obtain ⟨b, hb, e2, _, hr, sc⟩ := clScaleShift_spec hL hk hk0 hE st.inv h2
  have hgn : b.g.n = a2.p.stmts.length := by
    rw [hb.gn, ← sk_len hb.inv.sk, ← sk_len sc.inv.sk]
  have hupd : Inv True k p3 ∧ p3 = { a2.p with deps := p3.deps } ∧ ∀ d, Live p3 d → ∃ d', Live a2.p d' ∧ d'.src = d.src ∧ d'.dest = d.dest := by
    unfold satUpdateLast at h3
    rw [Option.bind_eq_bind, Option.bind_eq_some_iff] at h3
    obtain ⟨st0, hs, h3⟩ := h3
    have hl := (sc.inv.rows st0 (List.mem_of_getElem? hs)).1
    split_ifs at h3
    obtain ⟨x1, x2, x3, _⟩ := sc.inv.update hE hk (by omega) h3
    refine ⟨x1, x2, ?_⟩
    intro d hd
    rw [x2] at hd
    obtain ⟨d', hd', e⟩ := x3.live hd
    exact ⟨d', hd', (skel_src e).symm, (skel_dest e).symm⟩
  have hst : p3.stmts = a2.p.stmts := by rw [hupd.2.1]
  rw [← h]
  have elive : ∀ d, Live p3 d → ∃ d', Live b.p d' ∧ d'.src = d.src ∧ d'.dest = d.dest := by
    intro d hd
    obtain ⟨d', hd', e1, e2⟩ := hupd.2.2 d hd
    exact ⟨d', (sc.live d').mp hd', e1, e2⟩
  refine ⟨⟨⟨hupd.1, ?_, ?_, ?_⟩, ?_, ?_⟩, ?_⟩
  · show a2.g.n = p3.stmts.length
    rw [hst, ← hgn, e2]
  · intro hX d hd
    obtain ⟨d', hd', e3, e4⟩ := elive d hd
    show a2.g.Edge _ _
    rw [e2, ← e3, ← e4]
    exact hb.cover hX d' hd'
  · show EdgesOf k a2.g
    rw [e2]
    exact hb.edges
  · intro i hi
    show (0 : Int) ≤ a2.scc i ∧ a2.scc i < (a2.num : Int)
    rw [e2]
    refine hb.range i ?_
    have : i < p3.stmts.length := hi
    rw [hst, ← hgn, hb.gn] at this
    exact this
  · intro hX d hd
    obtain ⟨d', hd', e3, e4⟩ := elive d hd
    show a2.scc _ ≤ a2.scc _
    rw [e2, ← e3, ← e4]
    exact hb.mono hX d' hd'
  · intro i
    have e : rowsAt p3 i = rowsAt a2.p i := by
      unfold rowsAt
      rw [hst]
    show _ ⊆ rowsAt p3 i
    rw [e]
    exact List.Subset.trans (st.rows i) (List.Subset.trans (hr i) (sc.rows i))

theorem clLevels_keep (n : Nat) : ∀ (c : Nat) (d d' : Cl), CInv True k d.a →
    Cl.levels o co L lex fcgOf fuse fuel n c d = some d' → CInv True k d'.a ∧ ∀ i, rowsAt d.a.p i ⊆ rowsAt d'.a.p i := by
  induction n with
  | zero =>
    intro c d d' hd h
    simp only [Cl.levels, Option.some.injEq] at h
    rw [← h]; exact ⟨hd, fun _ => List.Subset.refl _⟩
  | succ n ih =>
    intro c d d' hd h
    simp only [Cl.levels, Option.bind_eq_bind] at h
    obtain ⟨d1, h1, h2⟩ := Option.bind_eq_some_iff.mp h
    obtain ⟨g1, g2⟩ := clLevel_keep hE hL hk hk0 hd h1
    obtain ⟨g3, g4⟩ := ih (c + 1) d1 d' g1 h2
    exact ⟨g3, fun i => List.Subset.trans (g2 i) (g4 i)⟩

end

/-- The state at the first level. -/
theorem clInit_spec {o : AutoOpts} {co : ClOpts} {L : Libs} (hE : EmptyOracle L.isEmpty) {fcgOf : ClBuild}
    {sten : Auto → Nat → Bool} {p0 : Prog} (hp : p0.InputOK) {a : Auto} {d0 : DfsState} {d : Cl}
    (h1 : (⟨{ p0 with deps := p0.deps.map (fun d => { d with satisfied := false }) },
      ddgCreate { p0 with deps := p0.deps.map (fun d => { d with satisfied := false }) }, d0, fun _ => -1, 0⟩ :
        Auto).computeScc = some a)
    (h2 : clInit o co L fcgOf sten a = some d) :
    ∃ k, SkelOK k ∧ CInv True k d.a ∧ (∀ {X : Prop} q, Inv X k q → PadRel p0 (fun _ => p0.nvar) q) ∧ k.nvar = p0.nvar ∧
      k.stmts.map (·.dimOrig) = p0.stmts.map (·.dimOrig) ∧ d.colour = List.replicate d.a.clSize 0 := by
  unfold clInit at h2
  simp only [Option.bind_eq_bind] at h2
  obtain ⟨s, h3, h2⟩ := Option.bind_eq_some_iff.mp h2
  obtain ⟨a4, h4, h2⟩ := Option.bind_eq_some_iff.mp h2
  simp only [Option.pure_def, Option.some.injEq] at h2
  obtain ⟨p3, hc, m2, m3, _, h5⟩ := init_state (X := True) hp h1 h3
  have hk := pad_skelOK hp m2 m3
  have hs : s.a = { a with p := p3 } := by
    unfold initCut at h5
    simp only [reduceCtorEq, if_false, Option.some.injEq] at h5
    exact h5.symm
  have hc4 : CInv True (skel p3) a4 := noFuseCut_cinv hE hk (by rw [hs]; exact hc) h4
  have hdims : (skel p3).stmts.map (·.dimOrig) = p0.stmts.map (·.dimOrig) := by
    apply List.ext_getElem?
    intro i
    simp only [skel, List.map_map, List.getElem?_map]
    have := m2.stmts i
    generalize p3.stmts[i]? = x at this
    generalize p0.stmts[i]? = y at this
    cases this with
    | none => rfl
    | some h =>
      simp only [Option.map_some, Function.comp, skelStmt, h.orig]
  rw [← h2]
  exact ⟨skel p3, hk, hc4, fun q hq => m2.skel hq.sk, m2.nvar, hdims, rfl⟩

/-- Everything about a successful run. -/
theorem cl_run {o : AutoOpts} {co : ClOpts} {L : Libs} {lex : Lex} (hE : EmptyOracle L.isEmpty) {d0 : DfsState} {p0 p : Prog}
    (hL : LexScales p0 lex) {fcgOf : ClBuild} {sten : Auto → Nat → Bool} {skew : Auto → Option Auto}
    (hS : ∀ k, LexScales k lex → SkewKeeps k skew) {fuel : Nat} (hp : p0.InputOK) (hne : p0.stmts ≠ [])
    (h : clTransform o co L lex fcgOf sten skew fuel d0 p0 = some p) :
    ∃ k q, Inv True k q ∧ PadRel p0 (fun _ => p0.nvar) q ∧ denormalizeDomains q = some p ∧
      ∀ d ∈ q.deps, d.rar = false → ∀ s t v, q.Inst d s t v → q.LexPos d s t v ∨
        (q.AllNonneg d s t v ∧ DepChain q d.dest d.src) := by
  unfold clTransform at h
  simp only [Option.bind_eq_bind] at h
  obtain ⟨a, h1, h⟩ := Option.bind_eq_some_iff.mp h
  rw [if_neg hne] at h
  obtain ⟨d, h2, h⟩ := Option.bind_eq_some_iff.mp h
  obtain ⟨d', h3, h⟩ := Option.bind_eq_some_iff.mp h
  obtain ⟨a4, h4, h⟩ := Option.bind_eq_some_iff.mp h
  obtain ⟨a5, h5, h6⟩ := Option.bind_eq_some_iff.mp h
  obtain ⟨k, hk, hb, hpad, hn, hdims, _⟩ := clInit_spec hE hp h1 h2
  have hk0 : k.stmts ≠ [] := by
    intro e
    rw [e] at hdims
    exact hne (List.map_eq_nil_iff.mp hdims.symm)
  have hLk := hL.pad (hpad _ hb.inv) hb.inv.sk
  have hb' := (clLevels_keep hE hLk hk hk0 _ _ _ _ hb h3).1
  obtain ⟨k1, k2, k3⟩ := hS k hLk _ _ hk hb'.inv hb'.gn h4
  obtain ⟨g1, g2, g3⟩ := dfpEnd_spec hE hk k1 k3 h5
  exact ⟨k, a5.p, g1, hpad _ g1, h6, g3⟩

/-- The shape of the result, with or without skewing. -/
theorem cl_shape {o : AutoOpts} {co : ClOpts} {L : Libs} {lex : Lex} (hE : EmptyOracle L.isEmpty) {d0 : DfsState} {p0 p : Prog}
    (hL : LexScales p0 lex) {fcgOf : ClBuild} {sten : Auto → Nat → Bool} {fuel : Nat} (hp : p0.InputOK)
    (hne : p0.stmts ≠ []) (h : clTransform o co L lex fcgOf sten (dfpSkew o.toSearchOpts L lex) fuel d0 p0 = some p) :
    PadRel p0 p0.dim p ∧ ∀ st ∈ p.stmts, st.trans.length = p.hProps.length ∧ ∀ r ∈ st.trans, r.length = st.dim + p0.npar + 1 := by
  unfold clTransform at h
  simp only [Option.bind_eq_bind] at h
  obtain ⟨a, h1, h⟩ := Option.bind_eq_some_iff.mp h
  rw [if_neg hne] at h
  obtain ⟨d, h2, h⟩ := Option.bind_eq_some_iff.mp h
  obtain ⟨d', h3, h⟩ := Option.bind_eq_some_iff.mp h
  obtain ⟨a4, h4, h⟩ := Option.bind_eq_some_iff.mp h
  obtain ⟨a5, h5, h6⟩ := Option.bind_eq_some_iff.mp h
  obtain ⟨k, hk, hb, hpad, hn, hdims, _⟩ := clInit_spec hE hp h1 h2
  have hk0 : k.stmts ≠ [] := by
    intro e
    rw [e] at hdims
    exact hne (List.map_eq_nil_iff.mp hdims.symm)
  have hLk := hL.pad (hpad _ hb.inv) hb.inv.sk
  have hb' := (clLevels_keep hE hLk hk hk0 _ _ _ _ hb h3).1
  obtain ⟨⟨a4', b⟩, h4', rfl⟩ := Option.map_eq_some_iff.mp h4
  obtain ⟨g1, _, g3, _⟩ := introduceSkew_spec hE hLk hk hb'.inv hb'.gn h4'
  have hi := dfpEnd_shape hE hk g3 g1 h5
  have hpad5 : PadRel p0 (fun _ => p0.nvar) a5.p := hpad _ hi
  obtain ⟨u2, u3, hu⟩ := unpad_facts hp hi hpad5 h6
  refine ⟨u2, ?_⟩
  intro st' hst'
  obtain ⟨i, hil, rfl⟩ := List.getElem_of_mem hst'
  obtain ⟨st, st', u⟩ := hu i (by rw [← u2.len]; exact hil)
  have e := u.getp
  rw [List.getElem?_eq_getElem hil, Option.some.injEq] at e
  rw [e, u.trans, u.dim, u3, List.length_map]
  refine ⟨u.len, ?_⟩
  intro r hr
  obtain ⟨r0, hr0, rfl⟩ := List.mem_map.mp hr
  have := u.row r0 hr0
  have := u.le
  simp only [cutRow, List.length_append, List.length_take, List.length_drop]
  omega

end Pluto
