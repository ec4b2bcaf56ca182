import Verif.Lemmas.DfpScale
import Verif.Lemmas.AutoUnpad

/-! The end of the search with `--dfp`. -/

namespace Pluto

section
variable {X : Prop} {k : Prog} {L : Libs}

theorem reset_inv {a : Auto} (hi : Inv X k a.p) : Inv X k (depSatReset a.p) := by
  refine ⟨?_, hi.rows, ?_⟩
  · rw [← hi.sk]
    simp only [skel, depSatReset, List.map_map]
    rfl
  · intro hX d' hd' hr s t q hinst
    obtain ⟨d, hd, rfl⟩ := List.mem_map.mp hd'
    rcases hi.legal hX d hd hr s t q hinst with h | h
    · exact .inl h
    · exact .inr ⟨rfl, h.2⟩

theorem satUpdates_inv (hE : EmptyOracle L.isEmpty) (hk : SkelOK k) {p : Prog} (hi : Inv X k p) (n : Nat) : ∀ p', n ≤ p.hProps.length →
    satUpdates L.isEmpty p n = some p' → Inv X k p' ∧ p' = { p with deps := p'.deps } := by
  induction n with
  | zero =>
    intro p' _ h
    simp only [satUpdates, Option.some.injEq] at h
    rw [← h]; exact ⟨hi, rfl⟩
  | succ n ih =>
    intro p' hn h
    simp only [satUpdates, Option.bind_eq_bind] at h
    obtain ⟨p1, h1, h⟩ := Option.bind_eq_some_iff.mp h
    obtain ⟨⟨p2, m⟩, h2, h⟩ := Option.bind_eq_some_iff.mp h
    simp only [Option.pure_def, Option.some.injEq] at h
    subst h
    obtain ⟨i1, e1⟩ := ih p1 (by omega) h1
    have hl : p1.hProps.length = p.hProps.length := by rw [e1]
    obtain ⟨i2, e2, _⟩ := i1.update hE hk (by omega) h2
    refine ⟨i2, ?_⟩
    rw [e1] at e2
    exact e2

/-- A chain of unsatisfied dependences is a chain of dependences. -/
theorem edge_dep {g : Graph} {p : Prog} {i j : Nat} (h : (ddgUpdate g p).Edge i j) : DepEdge p i j := by
  obtain ⟨_, _, h3⟩ := h
  have h3 : countDeps p.deps (fun _ _ => 0) i j ≠ 0 := h3
  rw [countDeps_spec, Nat.zero_add] at h3
  obtain ⟨d, hd, hh⟩ := List.countP_pos_iff.mp (Nat.pos_of_ne_zero h3)
  simp only [Bool.and_eq_true, beq_iff_eq, Bool.not_eq_true'] at hh
  exact ⟨d, hd, hh.1.2, hh.1.1.1, hh.1.1.2⟩

theorem depEdge_skel {p p' : Prog} (h : p'.deps.map skelDep = p.deps.map skelDep) {i j : Nat} (he : DepEdge p i j) : DepEdge p' i j := by
  obtain ⟨d, hd, h1, h2, h3⟩ := he
  have : skelDep d ∈ p'.deps.map skelDep := by rw [h]; exact List.mem_map_of_mem hd
  obtain ⟨d', hd', e⟩ := List.mem_map.mp this
  have e1 : d'.rar = d.rar := by have := congrArg Dep.rar e; exact this
  exact ⟨d', hd', e1.trans h1, (skel_src e).trans h2, (skel_dest e).trans h3⟩

theorem depChain_skel {p p' : Prog} (h : p'.deps.map skelDep = p.deps.map skelDep) {i j : Nat} (he : DepChain p i j) : DepChain p' i j :=
  Relation.ReflTransGen.mono (fun _ _ => depEdge_skel h) _ _ he

/-- The state after the last step: a pair that is not ordered is part of a cycle. -/
theorem dfpEnd_spec (hE : EmptyOracle L.isEmpty) (hk : SkelOK k) {a a' : Auto} (hi : Inv True k a.p) (hg : a.g.n = a.p.stmts.length)
    (h : dfpEnd L a = some a') :
    Inv True k a'.p ∧ (∀ i, rowsAt a.p i ⊆ rowsAt a'.p i) ∧
    ∀ d ∈ a'.p.deps, d.rar = false → ∀ s t q, a'.p.Inst d s t q → a'.p.LexPos d s t q ∨
      (a'.p.AllNonneg d s t q ∧ DepChain a'.p d.dest d.src) := by
  unfold dfpEnd at h
  simp only [Option.bind_eq_bind] at h
  obtain ⟨p1, h1, h⟩ := Option.bind_eq_some_iff.mp h
  obtain ⟨i1, e1⟩ := satUpdates_inv hE hk (reset_inv hi) _ p1 (le_refl _) h1
  have hst1 : p1.stmts = a.p.stmts := by rw [e1]; rfl
  have hrows1 : ∀ i, rowsAt p1 i = rowsAt a.p i := by
    intro i
    unfold rowsAt
    rw [hst1]
  split_ifs at h with hchk
  · simp only [Option.pure_def, Option.some.injEq] at h
    rw [← h]
    refine ⟨i1, fun i => by simp only [hrows1]; exact List.Subset.refl _, ?_⟩
    intro d hd hr s t q hinst
    rcases i1.legal trivial d hd hr s t q hinst with hx | hx
    · exact .inl hx
    · exfalso
      unfold depsSatCheck at hchk
      rw [List.all_eq_true] at hchk
      have := hchk d hd
      rw [hr, hx.1] at this
      cases this
  · obtain ⟨a2, h2, h⟩ := Option.bind_eq_some_iff.mp h
    obtain ⟨⟨a3, n⟩, h3, h⟩ := Option.bind_eq_some_iff.mp h
    simp only [Option.pure_def, Option.some.injEq] at h
    subst h
    have hai : AInv True k ({ a with p := p1, g := ddgUpdate a.g p1 } : Auto) := by
      refine ⟨i1, ?_, ?_, edges_update i1.sk⟩
      · show a.g.n = p1.stmts.length
        rw [hst1]; exact hg
      · intro _
        apply update_edge
        · rw [hst1]; exact hg
        · intro e he
          exact ⟨(hk.dep i1.sk he).src, (hk.dep i1.sk he).dest⟩
    have hc2 := computeScc_spec hai h2
    have g3 := cutAll_grow hE hk hc2 h3
    obtain ⟨q1, q2, ss, q3, q4, q5⟩ := computeScc_eq h2
    have hrows2 : ∀ i, rowsAt a2.p i = rowsAt a.p i := by
      intro i
      rw [q1]
      exact hrows1 i
    refine ⟨g3.inv.inv, fun i => by rw [← hrows2]; exact g3.rows i, ?_⟩
    intro d hd hr s t q hinst
    rcases g3.inv.inv.legal trivial d hd hr s t q hinst with hx | hx
    · exact .inl hx
    · have hlive : Live a3.p d := ⟨hd, hr, hx.1, s, t, q, hinst⟩
      have hmono := g3.inv.mono trivial d hlive
      have hok := hk.dep g3.inv.inv.sk hd
      have hskel : a3.p.deps.map skelDep = a2.p.deps.map skelDep := by
        have e := g3.inv.inv.sk.trans hc2.inv.sk.symm
        have := congrArg Prog.deps e
        exact this
      have hlen : a3.p.stmts.length = a2.p.stmts.length := (sk_len g3.inv.inv.sk).symm.trans (sk_len hc2.inv.sk)
      by_cases hs : a3.scc d.src = a3.scc d.dest
      · refine .inr ⟨hx.2, ?_⟩
        obtain ⟨s', hs', c1, _⟩ := C14_scc (ddgUpdate a.g p1) a.d
        have q3' : ddgComputeScc (ddgUpdate a.g p1) a.d = some ss := q3
        rw [q3'] at hs'
        cases hs'
        have hn : (ddgUpdate a.g p1).n = a3.p.stmts.length := by
          show a.g.n = _
          rw [hlen, q1]
          show _ = p1.stmts.length
          rw [hst1]; exact hg
        rw [g3.scc, ← q4] at hs
        have hreach := ((c1 d.src d.dest (by rw [hn]; exact hok.src) (by rw [hn]; exact hok.dest)).mp hs).2
        refine depChain_skel hskel ?_
        rw [q1]
        exact Relation.ReflTransGen.mono (fun _ _ => edge_dep) _ _ hreach
      · -- the new row separates the components
        left
        have hne : a3.scc d.src < a3.scc d.dest := by omega
        have hdim1 := hk.dim g3.inv.inv.sk hok.src
        have hdim2 := hk.dim g3.inv.inv.sk hok.dest
        rw [g3.scc] at hne
        unfold Auto.cutAll at h3
        split_ifs at h3 with hnum
        · simp only [Option.some.injEq, Prod.mk.injEq] at h3
          exfalso
          have r1 := hc2.range d.src (by rw [← hlen]; exact hok.src)
          have r2 := hc2.range d.dest (by rw [← hlen]; exact hok.dest)
          omega
        · rw [Option.bind_eq_bind, Option.bind_eq_some_iff] at h3
          obtain ⟨⟨p4, n4⟩, h4, h5⟩ := h3
          simp only [Option.pure_def, Option.some.injEq, Prod.mk.injEq] at h5
          have hap := scalar_appended (p := a2.p) (fun i => [a2.scc i]) a2.scc (fun _ _ => rfl)
          obtain ⟨_, e4, _, _⟩ := scalar_update hE hk hc2 (fun i => [a2.scc i]) a2.scc (fun i _ => rfl) hc2.mono h4
          have hp3 : a3.p = p4 := by rw [← h5.1]
          have hprops : a3.p.hProps.length = a2.p.hProps.length + 1 := by rw [hp3, e4]; exact hap.hlen
          refine ⟨a2.p.hProps.length, by omega, ?_, fun l' hl' => hx.2 l' (by omega)⟩
          have hrow : ∀ i < a3.p.stmts.length, a3.p.row i a2.p.hProps.length = zrow (a2.p.nvar + a2.p.npar) ++ [a2.scc i] := by
            intro i hi'
            rw [← hap.row_last (fun st hst => (hc2.inv.rows st hst).1) (by rw [← hlen]; exact hi'), hp3, e4]
            rfl
          have hnv : a3.p.nvar = a2.p.nvar := (sk_nvar g3.inv.inv.sk).symm.trans (sk_nvar hc2.inv.sk)
          have hnp : a3.p.npar = a2.p.npar := (sk_npar g3.inv.inv.sk).symm.trans (sk_npar hc2.inv.sk)
          have hhs := hinst.hs
          have hht := hinst.ht
          have hhq := hinst.hp
          rw [hdim1] at hhs
          rw [hdim2] at hht
          unfold Prog.comp Prog.phi
          rw [hrow _ hok.src, hrow _ hok.dest, aff_scalar _ _ (by rw [List.length_append]; omega),
            aff_scalar _ _ (by rw [List.length_append]; omega)]
          omega

theorem noFuseCut_cinv {o : AutoOpts} (hE : EmptyOracle L.isEmpty) (hk : SkelOK k) {a a' : Auto}
    (hi : CInv True k a) (h : noFuseCut o L a = some a') : CInv True k a' := by
  unfold noFuseCut at h
  split_ifs at h
  · rw [Option.bind_eq_bind, Option.bind_eq_some_iff] at h
    obtain ⟨a1, h1, h2⟩ := h
    obtain ⟨⟨a2, n⟩, h3, h4⟩ := Option.map_eq_some_iff.mp h2
    subst h4
    exact (cutAll_spec hE hk (computeScc_spec hi.toAInv h1) h3).1
  · simp only [Option.some.injEq] at h
    rw [← h]; exact hi

end

/-- The state at the first level. -/
theorem dfpInit_spec {o : AutoOpts} {L : Libs} (hE : EmptyOracle L.isEmpty) {fcgOf : Auto → List Nat → Nat → Graph}
    (hF : FcgOracle fcgOf) {p0 : Prog} (hp : p0.InputOK) {a : Auto} {d0 : DfsState} {d : Dfp}
    (h1 : (⟨{ p0 with deps := p0.deps.map (fun d => { d with satisfied := false }) },
      ddgCreate { p0 with deps := p0.deps.map (fun d => { d with satisfied := false }) }, d0, fun _ => -1, 0⟩ :
        Auto).computeScc = some a)
    (h2 : dfpInit o L fcgOf a = some d) :
    ∃ k, SkelOK k ∧ Between k 1 d ∧ (∀ {X : Prop} q, Inv X k q → PadRel p0 (fun _ => p0.nvar) q) ∧ k.nvar = p0.nvar ∧
      k.stmts.map (·.dimOrig) = p0.stmts.map (·.dimOrig) := by
  unfold dfpInit at h2
  simp only [Option.bind_eq_bind] at h2
  obtain ⟨s, h3, h2⟩ := Option.bind_eq_some_iff.mp h2
  obtain ⟨a4, h4, h2⟩ := Option.bind_eq_some_iff.mp h2
  simp only [Option.pure_def, Option.some.injEq] at h2
  obtain ⟨p3, hc, m2, m3, _, h5⟩ := init_state (X := True) hp h1 h3
  have hk := pad_skelOK hp m2 m3
  have hs : s.a = { a with p := p3 } := by
    unfold initCut at h5
    simp only [reduceCtorEq, if_false, Option.some.injEq] at h5
    exact h5.symm
  have hc4 : CInv True (skel p3) a4 := noFuseCut_cinv hE hk (by rw [hs]; exact hc) h4
  have hdims : (skel p3).stmts.map (·.dimOrig) = p0.stmts.map (·.dimOrig) := by
    apply List.ext_getElem?
    intro i
    simp only [skel, List.map_map, List.getElem?_map]
    have := m2.stmts i
    generalize p3.stmts[i]? = x at this
    generalize p0.stmts[i]? = y at this
    cases this with
    | none => rfl
    | some h =>
      simp only [Option.map_some, Function.comp, skelStmt, h.orig]
  have hF' : ∀ a colour c, skel a.p = skel p3 → FcgOK (skel p3) (fcgOf a colour c) := by
    intro a colour c e
    refine ⟨?_, (hF a colour c).2⟩
    rw [(hF a colour c).1]
    exact fcgSize_skel e
  refine ⟨skel p3, hk, ?_, fun q hq => m2.skel hq.sk, m2.nvar, hdims⟩
  rw [← h2]
  have hz : ∀ v, colourOf (List.replicate (fcgSize a4.p) 0) v = 0 := by
    intro v
    unfold colourOf
    simp [List.getD_eq_getElem?_getD, List.getElem?_replicate]
    split_ifs <;> rfl
  refine ⟨hc4, hF' _ _ _ hc4.inv.sk, rfl, fun hpos => ⟨⟨?_, ?_, ?_, ?_, ?_, fun _ _ hS => absurd trivial hS⟩, ?_⟩⟩
  · simp [fcgSize_skel hc4.inv.sk]
  · intro v; rw [hz]
  · intro i _ u v _ _ _ hne
    exact absurd (hz u) hne
  · intro i _ c' g1 g2
    omega
  · intro i hi _ _
    have := hpos i hi
    exact ⟨fcgOffset (skel p3) i, ⟨le_refl _, Nat.lt_add_of_pos_right this⟩, hz _⟩
  · intro i _ j _ g1
    rw [hz] at g1
    omega

/-- A step that keeps schedules as they are. -/
def SkewKeeps (k : Prog) (skew : Auto → Option Auto) : Prop :=
  ∀ a a', SkelOK k → Inv True k a.p → a.g.n = a.p.stmts.length → skew a = some a' →
    Inv True k a'.p ∧ a'.p.stmts = a.p.stmts ∧ a'.g.n = a'.p.stmts.length

/-- The edges are those of the padded program. -/
theorem LexScales.pad {p0 k q : Prog} {m : Nat → Nat} {lex : Lex} (h : LexScales p0 lex) (hq : PadRel p0 m q) (hk : skel q = k) : LexScales k lex := by
  refine h.mono ?_
  intro d hd
  rw [← hk] at hd
  obtain ⟨d1, hd1, rfl⟩ := List.mem_map.mp hd
  obtain ⟨d0, hd0, hp⟩ := hq.dep_mem hd1
  exact ⟨d0, hd0, hp.src.symm, hp.dest.symm⟩

/-- Everything about a successful run. -/
theorem dfp_run {o : AutoOpts} {delayedCut : Bool} {L : Libs} {lex : Lex} (hE : EmptyOracle L.isEmpty) {d0 : DfsState} {p0 p : Prog} (hL : LexScales p0 lex)
    {fcgOf : Auto → List Nat → Nat → Graph} (hF : FcgOracle fcgOf) {skew : Auto → Option Auto} (hS : ∀ k, LexScales k lex → SkewKeeps k skew) (hp : p0.InputOK)
    (hne : p0.stmts ≠ []) (h : dfpTransform o delayedCut L lex fcgOf skew d0 p0 = some p) :
    ∃ k q, SkelOK k ∧ Inv True k q ∧ PadRel p0 (fun _ => p0.nvar) q ∧ denormalizeDomains q = some p ∧
      (∀ d ∈ q.deps, d.rar = false → ∀ s t v, q.Inst d s t v → q.LexPos d s t v ∨
        (q.AllNonneg d s t v ∧ DepChain q d.dest d.src)) ∧
      ((∀ st ∈ p0.stmts, 0 < st.dim) → ∀ (i : Nat) (st : Stmt), p0.stmts[i]? = some st → ∀ j < st.dim,
        ∃ r ∈ rowsAt q i, LoopRow p0.nvar r j) := by
  unfold dfpTransform at h
  simp only [Option.bind_eq_bind] at h
  obtain ⟨a, h1, h⟩ := Option.bind_eq_some_iff.mp h
  rw [if_neg hne] at h
  obtain ⟨d, h2, h⟩ := Option.bind_eq_some_iff.mp h
  obtain ⟨d', h3, h⟩ := Option.bind_eq_some_iff.mp h
  obtain ⟨a4, h4, h⟩ := Option.bind_eq_some_iff.mp h
  obtain ⟨a5, h5, h6⟩ := Option.bind_eq_some_iff.mp h
  obtain ⟨k, hk, hb, hpad, hn, hdims⟩ := dfpInit_spec hE hF hp h1 h2
  have hk0 : k.stmts ≠ [] := by
    intro e
    rw [e] at hdims
    exact hne (List.map_eq_nil_iff.mp hdims.symm)
  have hLk := hL.pad (hpad _ hb.inv.inv) hb.inv.inv.sk
  have hF' : ∀ a colour c, skel a.p = k → FcgOK k (fcgOf a colour c) := by
    intro a colour c e
    refine ⟨?_, (hF a colour c).2⟩
    rw [(hF a colour c).1]
    exact fcgSize_skel e
  have hb' := levels_spec hE hLk hk hk0 hF' _ _ _ _ hb h3
  rw [← sk_nvar hb.inv.inv.sk, Nat.add_comm] at hb'
  obtain ⟨k1, k2, k3⟩ := hS k hLk _ _ hk hb'.inv.inv hb'.inv.gn h4
  obtain ⟨g1, g2, g3⟩ := dfpEnd_spec hE hk k1 k3 h5
  refine ⟨k, a5.p, hk, g1, hpad _ g1, h6, g3, ?_⟩
  intro hpos i st hst j hj
  have hlen : k.stmts.length = p0.stmts.length := by simpa using congrArg List.length hdims
  have hi0 := (List.getElem?_eq_some_iff.mp hst).1
  have hlo : ∀ i, loopsOf k i = loopsOf p0 i := by
    intro i
    unfold loopsOf
    rw [← List.getElem?_map, ← List.getElem?_map, hdims]
  have hpos' : ∀ i < k.stmts.length, 0 < loopsOf k i := by
    intro i hi
    rw [hlo]
    have hi' : i < p0.stmts.length := by omega
    have := hpos _ (List.getElem_mem hi')
    rw [(hp.stmts _ (List.getElem_mem hi')).1] at this
    simpa [loopsOf, List.getElem?_eq_getElem hi'] using this
  have hj' : j < loopsOf k i := by
    rw [hlo]
    rw [(hp.stmts _ (List.mem_of_getElem? hst)).1] at hj
    simpa [loopsOf, hst] using hj
  obtain ⟨r, hr1, hr2⟩ := all_loops hk hb' hpos' i (by omega) j hj'
  rw [hn] at hr2
  refine ⟨r, g2 i ?_, hr2⟩
  unfold rowsAt at hr1 ⊢
  rw [k2]; exact hr1

end Pluto
