import Verif.Lemmas.AutoInv
import Verif.Spec.Edges

/-! Cuts keep the invariant. -/

namespace Pluto

/-- Dependence that still has to be satisfied and has instances. -/
def Live (p : Prog) (d : Dep) : Prop :=
  d ∈ p.deps ∧ d.rar = false ∧ d.satisfied = false ∧ ∃ s t q, p.Inst d s t q

theorem edges_update {k p : Prog} {g : Graph} (hp : skel p = k) : EdgesOf k (ddgUpdate g p) := by
  intro i j h
  obtain ⟨_, _, h3⟩ := h
  have h3 : countDeps p.deps (fun _ _ => 0) i j ≠ 0 := h3
  rw [countDeps_spec, Nat.zero_add] at h3
  obtain ⟨d, hd, hh⟩ := List.countP_pos_iff.mp (Nat.pos_of_ne_zero h3)
  simp only [Bool.and_eq_true, beq_iff_eq, Bool.not_eq_true'] at hh
  refine ⟨skelDep d, ?_, hh.1.1.1, hh.1.1.2⟩
  rw [← hp]
  exact List.mem_map_of_mem hd

/-- Invariant of program and graph. -/
structure AInv (X : Prop) (k : Prog) (a : Auto) : Prop where
  inv : Inv X k a.p
  gn : a.g.n = a.p.stmts.length
  cover : X → ∀ d, Live a.p d → a.g.Edge d.src d.dest
  edges : EdgesOf k a.g

/-- The component numbers are in range and increase along live dependences. -/
structure SccOK (X : Prop) (a : Auto) : Prop where
  range : ∀ i < a.p.stmts.length, 0 ≤ a.scc i ∧ a.scc i < a.num
  mono : X → ∀ d, Live a.p d → a.scc d.src ≤ a.scc d.dest

structure CInv (X : Prop) (k : Prog) (a : Auto) : Prop extends AInv X k a, SccOK X a

section
variable {X : Prop} {k p : Prog}

theorem aff_scalar {n m : Nat} (c : Int) (x : List Int) (h : x.length = n + m) :
    aff (zrow (n + m) ++ [c]) x = c := by
  unfold aff
  rw [dot_append _ _ _ _ (by simp [zrow_length, h])]
  rw [show dot (zrow (n + m)) x = 0 from dot_zero _ _]
  simp [dot]

theorem coef_append_zrow (n j : Nat) (l : List Int) (h : j < n) : coef (zrow n ++ l) j = 0 := by
  unfold coef
  rw [List.getD_eq_getElem?_getD, List.getElem?_append_left (by simpa [zrow] using h)]
  have := coef_zrow n j
  unfold coef at this
  rwa [List.getD_eq_getElem?_getD] at this

theorem scalar_appended (f : Nat → List Int) (c : Nat → Int) (hf : ∀ i < p.stmts.length, f i = [c i]) :
    Appended p (addScalarRows p f) (fun i => zrow (p.nvar + p.npar) ++ [c i]) := by
  refine ⟨?_, rfl, by simp [addScalarRows], ?_⟩
  · unfold skel addScalarRows
    simp only [Prog.mk.injEq, true_and, and_true]
    apply List.ext_getElem?
    intro i
    simp only [List.getElem?_map, List.getElem?_mapIdx, Option.map_map]
    rfl
  · intro i
    simp only [addScalarRows, List.getElem?_mapIdx, Option.map_map]
    cases hs : p.stmts[i]? with
    | none => rfl
    | some st =>
      have := hf i (List.getElem?_eq_some_iff.mp hs).1
      simp [this]

theorem scalar_inv (hk : SkelOK k) (hi : Inv X k p) (f : Nat → List Int) (c : Nat → Int)
    (hf : ∀ i < p.stmts.length, f i = [c i]) (hm : X → ∀ d, Live p d → c d.src ≤ c d.dest) :
    Inv X k (addScalarRows p f) := by
  refine hi.append hk (scalar_appended f c hf) ?_ ?_
  · intro i st hs
    refine ⟨by simp [zrow_length'], ?_⟩
    intro j _ hj
    exact coef_append_zrow _ _ _ (by omega)
  · intro hX d hd hr hs s t q hinst
    have hn := hk.dep hi.sk hd
    have h1 := hinst.hs
    have h2 := hinst.ht
    rw [hk.dim hi.sk hn.src] at h1
    rw [hk.dim hi.sk hn.dest] at h2
    rw [aff_scalar _ _ (by rw [List.length_append, h1, hinst.hp]),
      aff_scalar _ _ (by rw [List.length_append, h2, hinst.hp])]
    exact hm hX d ⟨hd, hr, hs, s, t, q, hinst⟩
where zrow_length' (n : Nat) : (zrow n).length = n := by simp [zrow]

theorem drop_scalar (f : Nat → List Int) (c : Nat → Int) (hf : ∀ i < p.stmts.length, f i = [c i])
    (ds : List Dep) :
    dropLastRow { addScalarRows p f with deps := ds } = { p with deps := ds } := by
  unfold dropLastRow addScalarRows
  rw [Prog.mk.injEq]
  refine ⟨rfl, rfl, ?_, rfl, by simp⟩
  apply List.ext_getElem?
  intro i
  simp only [List.getElem?_map, List.getElem?_mapIdx, Option.map_map]
  cases hs : p.stmts[i]? with
  | none => rfl
  | some st =>
    have := hf i (List.getElem?_eq_some_iff.mp hs).1
    simp [this]

theorem update_edge (g : Graph) (p : Prog) (hn : g.n = p.stmts.length)
    (hd : ∀ d ∈ p.deps, d.src < p.stmts.length ∧ d.dest < p.stmts.length) :
    ∀ d, Live p d → (ddgUpdate g p).Edge d.src d.dest := by
  intro d h
  refine ⟨by show _ < g.n; rw [hn]; exact (hd d h.1).1, by show _ < g.n; rw [hn]; exact (hd d h.1).2, ?_⟩
  show countDeps p.deps (fun _ _ => 0) d.src d.dest ≠ 0
  rw [countDeps_spec, Nat.zero_add]
  have : 0 < p.deps.countP (fun e => e.src == d.src && e.dest == d.dest && !e.rar && !e.satisfied) := by
    rw [List.countP_pos_iff]
    exact ⟨d, h.1, by simp [h.2.1, h.2.2.1]⟩
  omega

theorem Grows.live {p : Prog} {ds : List Dep} (h : Grows p ds) {d' : Dep} (hl : Live { p with deps := ds } d') :
    ∃ d, Live p d ∧ skelDep d' = skelDep d := by
  obtain ⟨hm, hr, hs, s, t, q, hinst⟩ := hl
  obtain ⟨j, hj, rfl⟩ := List.getElem_of_mem hm
  have hf := List.forall₂_iff_get.mp h
  have hj' : j < p.deps.length := by rw [hf.1]; exact hj
  obtain ⟨h1, h2⟩ := hf.2 j hj' hj
  simp only [List.get_eq_getElem] at h1 h2
  have e := congrArg Dep.rar h1
  have hr' : p.deps[j].rar = false := e.symm.trans hr
  have hinst' : p.Inst p.deps[j] s t q := (inst_skel (p := p) h1 s t q).mp hinst
  refine ⟨p.deps[j], ⟨List.getElem_mem hj', hr', ?_, s, t, q, hinst'⟩, h1⟩
  cases hb : p.deps[j].satisfied with
  | false => rfl
  | true =>
    have := h2 hr' hb ⟨s, t, q, hinst'⟩
    exact absurd this (by simpa using hs)

theorem skel_src {d d' : Dep} (h : skelDep d' = skelDep d) : d'.src = d.src := by
  have := congrArg Dep.src h; exact this

theorem skel_dest {d d' : Dep} (h : skelDep d' = skelDep d) : d'.dest = d.dest := by
  have := congrArg Dep.dest h; exact this

theorem live_appended {p p' : Prog} {f : Nat → List Int} (h : Appended p p' f) (d : Dep) :
    Live p' d ↔ Live p d := by
  unfold Live
  rw [h.deps]
  simp only [h.inst]

end

section
variable {X : Prop} {k : Prog} {a : Auto} {isEmpty : Cst → Bool}

/-- One more scalar row, satisfaction update at it and graph update. -/
theorem scalar_update (hE : EmptyOracle isEmpty) (hk : SkelOK k) (hc : CInv X k a)
    (f : Nat → List Int) (c : Nat → Int) (hf : ∀ i < a.p.stmts.length, f i = [c i])
    (hm : X → ∀ d, Live a.p d → c d.src ≤ c d.dest) {p2 : Prog} {n : Nat}
    (h : satUpdateLast isEmpty (addScalarRows a.p f) = some (p2, n)) :
    CInv X k { a with p := p2, g := ddgUpdate a.g p2 } ∧
    p2 = { addScalarRows a.p f with deps := p2.deps } ∧
    (n = 0 → List.Forall₂ (fun d d' : Dep => skelDep d' = skelDep d ∧
        (d.rar = false → d'.satisfied = d.satisfied)) a.p.deps p2.deps) ∧
    depSatUpdate isEmpty (addScalarRows a.p f) a.p.hProps.length = some (p2, n) := by
  have hap := scalar_appended (p := a.p) f c hf
  have hinv := scalar_inv hk hc.inv f c hf hm
  have hdep : depSatUpdate isEmpty (addScalarRows a.p f) a.p.hProps.length = some (p2, n) := by
    unfold satUpdateLast at h
    rw [Option.bind_eq_bind, Option.bind_eq_some_iff] at h
    obtain ⟨st, hs, h⟩ := h
    have hl := (hinv.rows st (List.mem_of_getElem? hs)).1
    rw [hap.hlen] at hl
    rw [if_neg (by omega), hl] at h
    exact h
  obtain ⟨h1, h2, h3, h4⟩ := hinv.update hE hk (by rw [hap.hlen]; omega) hdep
  have hlen : p2.stmts.length = a.p.stmts.length := by rw [h2]; exact hap.len
  refine ⟨⟨⟨h1, ?_, ?_, edges_update h1.sk⟩, ?_, ?_⟩, h2, fun h0 => h4 h0, hdep⟩
  · show a.g.n = _
    rw [hlen]; exact hc.gn
  · intro _
    apply update_edge
    · rw [hlen]; exact hc.gn
    · intro d hd
      exact ⟨(hk.dep h1.sk hd).src, (hk.dep h1.sk hd).dest⟩
  · intro i hi
    exact hc.range i (by rw [← hlen]; exact hi)
  · intro hX d' hd'
    simp only at hd' ⊢
    rw [h2] at hd'
    obtain ⟨d, hd, e⟩ := h3.live hd'
    rw [skel_src e, skel_dest e]
    exact hc.mono hX d ((live_appended hap d).mp hd)

theorem keep_spec (hE : EmptyOracle isEmpty) (hk : SkelOK k) (hc : CInv X k a)
    (f : Nat → List Int) (c : Nat → Int) (hf : ∀ i < a.p.stmts.length, f i = [c i])
    (hm : X → ∀ d, Live a.p d → c d.src ≤ c d.dest) {a' : Auto} {n : Nat}
    (h : a.keepIfUseful isEmpty (addScalarRows a.p f) = some (a', n)) :
    CInv X k a' ∧ a'.scc = a.scc ∧ a'.num = a.num := by
  unfold Auto.keepIfUseful at h
  rw [Option.bind_eq_bind, Option.bind_eq_some_iff] at h
  obtain ⟨⟨p2, n'⟩, hu, h⟩ := h
  obtain ⟨h1, h2, h3, _⟩ := scalar_update hE hk hc f c hf hm hu
  simp only at h
  split_ifs at h with hn
  · simp only [Option.pure_def, Option.some.injEq, Prod.mk.injEq] at h
    rw [← h.1]
    exact ⟨h1, rfl, rfl⟩
  · simp only [Option.pure_def, Option.some.injEq, Prod.mk.injEq] at h
    have hfl := h3 (by omega)
    have e : dropLastRow p2 = { a.p with deps := p2.deps } := by
      conv_lhs => rw [h2]
      exact drop_scalar f c hf p2.deps
    rw [e] at h
    rw [← h.1]
    have hgr : Grows a.p p2.deps := hfl.imp (fun d d' hd => ⟨hd.1, fun hr hs _ => by rw [hd.2 hr, hs]⟩)
    refine ⟨⟨⟨?_, hc.gn, ?_, hc.edges⟩, hc.range, ?_⟩, rfl, rfl⟩
    · apply hc.inv.flags
      have hf2 := List.forall₂_iff_get.mp hfl
      rw [List.forall₂_iff_get]
      refine ⟨hf2.1, fun j h1 h2 => ⟨(hf2.2 j h1 h2).1, ?_⟩⟩
      intro hX hr hs s t q hinst
      rcases hc.inv.legal hX _ (List.get_mem _ _) hr s t q hinst with hx | hx
      · exact hx
      · rw [(hf2.2 j h1 h2).2 hr, hx.1] at hs; cases hs
    · intro hX d' hd'
      obtain ⟨d, hd, e⟩ := hgr.live hd'
      rw [skel_src e, skel_dest e]
      exact hc.cover hX d hd
    · intro hX d' hd'
      obtain ⟨d, hd, e⟩ := hgr.live hd'
      rw [skel_src e, skel_dest e]
      exact hc.mono hX d hd

theorem cutBetween_spec (hE : EmptyOracle isEmpty) (hk : SkelOK k) (hc : CInv X k a) {c1 c2 : Int}
    {a' : Auto} {n : Nat} (h : a.cutBetween isEmpty c1 c2 = some (a', n)) :
    CInv X k a' ∧ a'.scc = a.scc ∧ a'.num = a.num := by
  unfold Auto.cutBetween at h
  split_ifs at h with hcon
  · refine keep_spec hE hk hc _ (fun i => if a.scc i < c2 then 0 else 1) (fun i _ => rfl) ?_ h
    intro hX d hd
    have := hc.mono hX d hd
    split_ifs <;> omega
  · simp only [Option.some.injEq, Prod.mk.injEq] at h
    rw [← h.1]
    exact ⟨hc, rfl, rfl⟩

theorem cutAll_spec (hE : EmptyOracle isEmpty) (hk : SkelOK k) (hc : CInv X k a)
    {a' : Auto} {n : Nat} (h : a.cutAll isEmpty = some (a', n)) :
    CInv X k a' ∧ a'.scc = a.scc ∧ a'.num = a.num := by
  unfold Auto.cutAll at h
  split_ifs at h with hnum
  · simp only [Option.some.injEq, Prod.mk.injEq] at h
    rw [← h.1]
    exact ⟨hc, rfl, rfl⟩
  · rw [Option.bind_eq_bind, Option.bind_eq_some_iff] at h
    obtain ⟨⟨p2, n'⟩, hu, h⟩ := h
    simp only [Option.pure_def, Option.some.injEq, Prod.mk.injEq] at h
    obtain ⟨h1, _⟩ := scalar_update hE hk hc (fun i => [a.scc i]) a.scc (fun i _ => rfl) hc.mono hu
    rw [← h.1]
    exact ⟨h1, rfl, rfl⟩

theorem dimCount_mono (a : Auto) {i j : Nat} (h : i ≤ j) : a.dimCount i ≤ a.dimCount j := by
  induction j with
  | zero => rw [Nat.le_zero.mp h]
  | succ j ih =>
    by_cases hc : i = j + 1
    · rw [hc]
    · have := ih (by omega)
      simp only [Auto.dimCount]
      omega

theorem filter_range_eq (n : Nat) (v : Int) (h0 : 0 ≤ v) (h1 : v < n) :
    (List.range n).filter (fun k : Nat => decide (v = (k : Int))) = [v.toNat] := by
  induction n with
  | zero => omega
  | succ n ih =>
    rw [List.range_succ, List.filter_append]
    by_cases hv : v < n
    · rw [ih (by omega)]
      have : ¬ v = (n : Int) := by omega
      simp [this]
    · have e : v = (n : Int) := by omega
      have : (List.range n).filter (fun k : Nat => decide (v = (k : Int))) = [] := by
        rw [List.filter_eq_nil_iff]
        intro k hk
        have := List.mem_range.mp hk
        simp only [decide_eq_true_eq]; omega
      rw [this]
      simp [e]

theorem cutDimBased_spec (hE : EmptyOracle isEmpty) (hk : SkelOK k) (hc : CInv X k a)
    {a' : Auto} {n : Nat} (h : a.cutDimBased isEmpty = some (a', n)) :
    CInv X k a' ∧ a'.scc = a.scc ∧ a'.num = a.num := by
  unfold Auto.cutDimBased at h
  split_ifs at h with hnum
  · simp only [Option.some.injEq, Prod.mk.injEq] at h
    rw [← h.1]
    exact ⟨hc, rfl, rfl⟩
  · refine keep_spec hE hk hc _ (fun i => (a.dimCount (a.scc i).toNat : Int)) ?_ ?_ h
    · intro i hi
      obtain ⟨h0, h1⟩ := hc.range i hi
      rw [filter_range_eq _ _ h0 h1]
      rfl
    · intro hX d hd
      have := hc.mono hX d hd
      have := dimCount_mono a (i := (a.scc d.src).toNat) (j := (a.scc d.dest).toNat) (by omega)
      omega

theorem smartFar_spec (hE : EmptyOracle isEmpty) (hk : SkelOK k) (l : List (Nat × Nat)) :
    ∀ (a a' : Auto), CInv X k a → a.smartFar isEmpty l = some a' → CInv X k a' := by
  induction l with
  | nil =>
    intro a a' hc h
    simp only [Auto.smartFar, Option.some.injEq] at h
    rw [← h]; exact hc
  | cons x l ih =>
    intro a a' hc h
    obtain ⟨i, j⟩ := x
    simp only [Auto.smartFar, Option.bind_eq_bind, Option.bind_eq_some_iff] at h
    obtain ⟨n, _, h⟩ := h
    split_ifs at h
    · rw [Option.bind_eq_some_iff] at h
      obtain ⟨⟨a1, n1⟩, h1, h2⟩ := h
      exact ih a1 a' (cutBetween_spec hE hk hc h1).1 h2
    · exact ih a a' hc h
    · rw [Option.bind_eq_some_iff] at h
      obtain ⟨⟨a1, n1⟩, h1, h2⟩ := h
      simp only [Option.pure_def, Option.some.injEq] at h2
      rw [← h2]
      exact (cutAll_spec hE hk hc h1).1

theorem conservativeFar_spec (hE : EmptyOracle isEmpty) (hk : SkelOK k) (l : List (Nat × Nat)) :
    ∀ (a a' : Auto), CInv X k a → a.conservativeFar isEmpty l = some a' → CInv X k a' := by
  induction l with
  | nil =>
    intro a a' hc h
    simp only [Auto.conservativeFar, Option.some.injEq] at h
    rw [← h]; exact hc
  | cons x l ih =>
    intro a a' hc h
    obtain ⟨i, j⟩ := x
    simp only [Auto.conservativeFar, Option.bind_eq_bind, Option.bind_eq_some_iff] at h
    obtain ⟨n, _, h⟩ := h
    split_ifs at h
    · rw [Option.bind_eq_some_iff] at h
      obtain ⟨⟨a1, n1⟩, h1, h2⟩ := h
      have := (cutBetween_spec hE hk hc h1).1
      simp only at h2
      split_ifs at h2
      · simp only [Option.pure_def, Option.some.injEq] at h2
        rw [← h2]; exact this
      · exact ih a1 a' this h2
    · rw [Option.bind_eq_some_iff] at h
      obtain ⟨⟨a1, n1⟩, h1, h2⟩ := h
      simp only [Option.pure_def, Option.some.injEq] at h2
      rw [← h2]
      exact (cutAll_spec hE hk hc h1).1

theorem cutConservative_spec (hE : EmptyOracle isEmpty) (hk : SkelOK k) (hc : CInv X k a) {a' : Auto}
    (h : a.cutConservative isEmpty = some a') : CInv X k a' := by
  unfold Auto.cutConservative at h
  rw [Option.bind_eq_bind, Option.bind_eq_some_iff] at h
  obtain ⟨⟨a1, n1⟩, h1, h⟩ := h
  have i1 := (cutDimBased_spec hE hk hc h1).1
  simp only at h
  split_ifs at h
  · simp only [Option.pure_def, Option.some.injEq] at h
    rw [← h]; exact i1
  · rw [Option.bind_eq_some_iff] at h
    obtain ⟨⟨a2, n2⟩, h2, h⟩ := h
    have i2 := (cutBetween_spec hE hk i1 h2).1
    simp only at h
    split_ifs at h
    · simp only [Option.pure_def, Option.some.injEq] at h
      rw [← h]; exact i2
    · exact conservativeFar_spec hE hk _ a2 a' i2 h

theorem cutSmart_spec (hE : EmptyOracle isEmpty) (hk : SkelOK k) (hc : CInv X k a) {a' : Auto}
    (h : a.cutSmart isEmpty = some a') : CInv X k a' := by
  unfold Auto.cutSmart at h
  split_ifs at h
  · simp only [Option.some.injEq] at h
    rw [← h]; exact hc
  · rw [Option.bind_eq_bind, Option.bind_eq_some_iff] at h
    obtain ⟨⟨a1, n1⟩, h1, h2⟩ := h
    simp only [Option.pure_def, Option.some.injEq] at h2
    rw [← h2]
    exact (cutAll_spec hE hk hc h1).1
  · rw [Option.bind_eq_bind, Option.bind_eq_some_iff] at h
    obtain ⟨⟨a1, n1⟩, h1, h⟩ := h
    have i1 := (cutDimBased_spec hE hk hc h1).1
    simp only at h
    split_ifs at h
    · simp only [Option.pure_def, Option.some.injEq] at h
      rw [← h]; exact i1
    · rw [Option.bind_eq_some_iff] at h
      obtain ⟨⟨a2, n2⟩, h2, h⟩ := h
      have i2 := (cutBetween_spec hE hk i1 h2).1
      simp only at h
      split_ifs at h
      · simp only [Option.pure_def, Option.some.injEq] at h
        rw [← h]; exact i2
      · exact smartFar_spec hE hk _ a2 a' i2 h

/-- The components computed are those of `ddgComputeScc`. -/
theorem computeScc_eq {a a' : Auto} (h : a.computeScc = some a') :
    a'.p = a.p ∧ a'.g = a.g ∧ ∃ s, ddgComputeScc a.g a.d = some s ∧ s.scc = a'.scc ∧ s.num = a'.num := by
  unfold Auto.computeScc at h
  rw [Option.bind_eq_bind, Option.bind_eq_some_iff] at h
  obtain ⟨d, h1, h⟩ := h
  rw [Option.bind_eq_bind, Option.bind_eq_some_iff] at h
  obtain ⟨s, h2, h⟩ := h
  simp only [Option.pure_def, Option.some.injEq] at h
  rw [← h]
  refine ⟨rfl, rfl, s, ?_, rfl, rfl⟩
  unfold ddgComputeScc
  rw [h1]
  exact h2

theorem scc_facts {a a' : Auto} (h : a.computeScc = some a') :
    a'.p = a.p ∧ a'.g = a.g ∧ (∀ i < a.g.n, 0 ≤ a'.scc i ∧ a'.scc i < a'.num) ∧
      ∀ i j, a.g.Edge i j → a'.scc i ≤ a'.scc j := by
  obtain ⟨e1, e2, s, hs, e3, e4⟩ := computeScc_eq h
  obtain ⟨s', hs', h1, h2, h3⟩ := C14_scc a.g a.d
  rw [hs] at hs'
  cases hs'
  refine ⟨e1, e2, ?_, ?_⟩
  · intro i hi'
    rw [← e3, ← e4]
    exact (h3 (s.scc i)).mpr ⟨i, hi', rfl⟩
  · intro i j he
    rw [← e3]
    exact C14_order a.g a.d s hs _ _ (.tail .refl he)

theorem computeScc_spec (hi : AInv X k a) {a' : Auto} (h : a.computeScc = some a') : CInv X k a' := by
  obtain ⟨e1, e2, h1, h2⟩ := scc_facts h
  refine ⟨⟨by rw [e1]; exact hi.inv, by rw [e1, e2]; exact hi.gn, by rw [e1, e2]; exact hi.cover, by rw [e2]; exact hi.edges⟩, ?_, ?_⟩
  · intro i hi'
    rw [e1] at hi'
    exact h1 i (by rw [hi.gn]; exact hi')
  · intro hX d hd
    rw [e1] at hd
    exact h2 _ _ (hi.cover hX d hd)

end

end Pluto
