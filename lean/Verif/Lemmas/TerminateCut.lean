import Verif.Lemmas.Terminate

/-! Distribution of components with unsatisfied dependences between them satisfies one of these. -/

namespace Pluto

section
variable {k : Prog} {L : Libs} {a a' : Auto}

theorem scalar_comp (hk : SkelOK k) (hi : Inv True k a.p) (f : Nat → List Int) (c : Nat → Int)
    (hf : ∀ i < a.p.stmts.length, f i = [c i]) {d : Dep} (hd : d ∈ a.p.deps) {s t q : List Int} (h : a.p.Inst d s t q) :
    (addScalarRows a.p f).comp d a.p.hProps.length s t q = c d.dest - c d.src := by
  have hap := scalar_appended (p := a.p) f c hf
  have hl : ∀ st ∈ a.p.stmts, st.trans.length = a.p.hProps.length := fun st hs => (hi.rows st hs).1
  have hok := hk.dep hi.sk hd
  rw [hk.inst hi.sk hd, sk_nvar hi.sk, sk_npar hi.sk] at h
  obtain ⟨e1, e2, e3, _⟩ := h
  unfold Prog.comp Prog.phi
  rw [hap.row_last hl hok.src, hap.row_last hl hok.dest, aff_scalar _ _ (by simp [e2, e3]), aff_scalar _ _ (by simp [e1, e3])]

theorem scalar_lt (hE : EmptyOracle L.isEmpty) (hk : SkelOK k) (ha : Alive k) (hc : CInv True k a)
    (f : Nat → List Int) (c : Nat → Int) (hf : ∀ i < a.p.stmts.length, f i = [c i])
    (hm : ∀ d, Live a.p d → c d.src ≤ c d.dest) {p2 : Prog} {n : Nat}
    (h : satUpdateLast L.isEmpty (addScalarRows a.p f) = some (p2, n)) :
    (1 ≤ n → todo p2 < todo a.p) ∧ ((∃ d, Live a.p d ∧ c d.src < c d.dest) → 1 ≤ n) := by
  obtain ⟨_, e, _, h4⟩ := scalar_update hE hk hc f c hf (fun _ => hm) h
  have hap := scalar_appended (p := a.p) f c hf
  have hinv := scalar_inv hk hc.inv f c hf (fun _ => hm)
  obtain ⟨_, hfl, hn⟩ := C12_update hE _ p2 n (hinv.transOK hk) (fun d hd => hk.fits hinv.sk hd) _ h4
  constructor
  · intro h1
    rw [hn] at h1
    obtain ⟨⟨d, d'⟩, hmem⟩ := List.exists_mem_of_length_pos h1
    rw [List.mem_filter] at hmem
    simp only [Bool.and_eq_true, Bool.not_eq_true'] at hmem
    obtain ⟨hz, ⟨g1, g2⟩, g3⟩ := hmem
    have hlt := countP_forall₂_lt (P := fun d => !d.rar && !d.satisfied) (grows_unsat (by
      rintro x x' ⟨e1, e2, _⟩
      exact ⟨by rw [e1], fun _ hs => e2.mpr (.inl hs)⟩)) hfl hz (by simp [g1, g3]) (by simp [g2])
    have e1 : todo p2 = (∑ i ∈ Finset.range (addScalarRows a.p f).stmts.length, gapAt (addScalarRows a.p f) i) + unsatCount p2 := by
      rw [e]; rfl
    have e2 := hap.todo_le
    rw [e1]
    unfold todo at e2 ⊢
    unfold unsatCount at e2 ⊢
    omega
  · rintro ⟨d, hd, hlt⟩
    obtain ⟨j, hj, hg⟩ := List.getElem_of_mem hd.1
    have hf2 := List.forall₂_iff_get.mp hfl
    have hj1 : j < (addScalarRows a.p f).deps.length := hj
    have hj2 : j < p2.deps.length := by rw [← hf2.1]; exact hj1
    obtain ⟨_, b2, _⟩ := hf2.2 j hj1 hj2
    have hdd : (addScalarRows a.p f).deps.get ⟨j, hj1⟩ = d := hg
    rw [hdd] at b2
    have hs : (p2.deps.get ⟨j, hj2⟩).satisfied = true := by
      refine b2.mpr (.inr fun s t q hinst => ?_)
      rw [scalar_comp hk hc.inv f c hf hd.1 ((hap.inst d s t q).mp hinst)]
      omega
    rw [hn]
    refine List.length_pos_of_mem (a := (d, p2.deps.get ⟨j, hj2⟩)) ?_
    rw [List.mem_filter]
    refine ⟨?_, ?_⟩; swap
    · show (!d.satisfied && (p2.deps.get ⟨j, hj2⟩).satisfied && !d.rar) = true
      rw [hd.2.1, hd.2.2.1, hs]; rfl
    have : ((addScalarRows a.p f).deps.zip p2.deps)[j]? = some (d, p2.deps.get ⟨j, hj2⟩) := by
      rw [List.getElem?_zip_eq_some]
      exact ⟨by rw [← hdd]; exact List.getElem?_eq_getElem hj1, List.getElem?_eq_getElem hj2⟩
    exact List.mem_of_getElem? this

/-- `a'` has the components of `a` and the same unsatisfied dependences. -/
structure Stay (a a' : Auto) : Prop where
  scc : a'.scc = a.scc
  num : a'.num = a.num
  live : ∀ d, Live a.p d → ∃ d', Live a'.p d' ∧ d'.src = d.src ∧ d'.dest = d.dest
  todo : todo a'.p ≤ todo a.p

theorem keep_lt (hE : EmptyOracle L.isEmpty) (hk : SkelOK k) (ha : Alive k) (hc : CInv True k a)
    (f : Nat → List Int) (c : Nat → Int) (hf : ∀ i < a.p.stmts.length, f i = [c i])
    (hm : ∀ d, Live a.p d → c d.src ≤ c d.dest) {n : Nat}
    (h : a.keepIfUseful L.isEmpty (addScalarRows a.p f) = some (a', n)) :
    (1 ≤ n → todo a'.p < todo a.p) ∧ (n = 0 → Stay a a') ∧ ((∃ d, Live a.p d ∧ c d.src < c d.dest) → 1 ≤ n) := by
  unfold Auto.keepIfUseful at h
  rw [Option.bind_eq_bind, Option.bind_eq_some_iff] at h
  obtain ⟨⟨p2, n'⟩, hu, h⟩ := h
  obtain ⟨h1, h2, h3, _⟩ := scalar_update hE hk hc f c hf (fun _ => hm) hu
  obtain ⟨t1, t2⟩ := scalar_lt hE hk ha hc f c hf hm hu
  simp only at h
  split_ifs at h with hn
  · simp only [Option.pure_def, Option.some.injEq, Prod.mk.injEq] at h
    rw [← h.1, ← h.2]
    exact ⟨t1, fun h0 => by omega, t2⟩
  · simp only [Option.pure_def, Option.some.injEq, Prod.mk.injEq] at h
    have hfl := h3 (by omega)
    have e : dropLastRow p2 = { a.p with deps := p2.deps } := by
      conv_lhs => rw [h2]
      exact drop_scalar f c hf p2.deps
    rw [e] at h
    rw [← h.1, ← h.2]
    refine ⟨fun h0 => by omega, fun _ => ⟨rfl, rfl, fun d hd => ?_, ?_⟩, t2⟩
    · obtain ⟨j, hj, hg⟩ := List.getElem_of_mem hd.1
      have hf2 := List.forall₂_iff_get.mp hfl
      have hj2 : j < p2.deps.length := by rw [← hf2.1]; exact hj
      obtain ⟨b1, b2⟩ := hf2.2 j hj hj2
      have hdd : a.p.deps.get ⟨j, hj⟩ = d := hg
      rw [hdd] at b1 b2
      obtain ⟨_, g2, g3, s, t, q, g4⟩ := hd
      refine ⟨p2.deps.get ⟨j, hj2⟩, ⟨List.get_mem _ _, by rw [skel_rar b1, g2], by rw [b2 g2, g3], s, t, q, ?_⟩, skel_src b1, skel_dest b1⟩
      have e0 := congrArg Dep.dpoly b1
      simp only [skelDep] at e0
      unfold Prog.Inst at g4 ⊢
      rw [skel_src b1, skel_dest b1, e0]
      exact g4
    · refine todo_flags (p := a.p) (hfl.imp (fun d d' hd => ⟨skel_rar hd.1, fun hr hs => by rw [hd.2 hr, hs]⟩))

theorem cutBetween_lt (hE : EmptyOracle L.isEmpty) (hk : SkelOK k) (ha : Alive k) (hc : CInv True k a) {c1 c2 : Int} {n : Nat}
    (h : a.cutBetween L.isEmpty c1 c2 = some (a', n)) :
    (1 ≤ n → todo a'.p < todo a.p) ∧ (n = 0 → Stay a a') ∧
      ((∃ d, Live a.p d ∧ a.scc d.src = c1 ∧ a.scc d.dest = c2 ∧ c1 < c2) → 1 ≤ n) := by
  unfold Auto.cutBetween at h
  split_ifs at h with hcon
  · obtain ⟨t1, t2, t3⟩ := keep_lt hE hk ha hc _ (fun i => if a.scc i < c2 then 0 else 1) (fun i _ => rfl) (by
      intro d hd
      have := hc.mono trivial d hd
      split_ifs <;> omega) h
    refine ⟨t1, t2, ?_⟩
    rintro ⟨d, hd, e1, e2, hlt⟩
    refine t3 ⟨d, hd, ?_⟩
    rw [e1, e2, if_pos hlt, if_neg (by omega)]
    omega
  · simp only [Option.some.injEq, Prod.mk.injEq] at h
    obtain ⟨rfl, rfl⟩ := h
    refine ⟨fun h0 => by omega, fun _ => ⟨rfl, rfl, fun d hd => ⟨d, hd, rfl, rfl⟩, Nat.le_refl _⟩, ?_⟩
    rintro ⟨d, hd, e1, e2, hlt⟩
    exfalso
    apply hcon
    obtain ⟨b1, b2, b3⟩ := hc.cover trivial d hd
    rw [hc.gn] at b1 b2
    unfold Auto.connected
    simp only [List.any_eq_true, List.mem_range, Bool.and_eq_true, decide_eq_true_eq]
    exact ⟨d.src, b1, e1, d.dest, b2, e2, Nat.pos_of_ne_zero b3⟩

theorem cutAll_lt (hE : EmptyOracle L.isEmpty) (hk : SkelOK k) (ha : Alive k) (hc : CInv True k a) {n : Nat}
    (hd : ∃ d, Live a.p d ∧ a.scc d.src < a.scc d.dest) (h : a.cutAll L.isEmpty = some (a', n)) : todo a'.p < todo a.p := by
  unfold Auto.cutAll at h
  split_ifs at h with hnum
  · obtain ⟨d, hl, hlt⟩ := hd
    have hok := hk.dep hc.inv.sk hl.1
    have := hc.range _ hok.src
    have := hc.range _ hok.dest
    omega
  · rw [Option.bind_eq_bind, Option.bind_eq_some_iff] at h
    obtain ⟨⟨p2, n'⟩, hu, h⟩ := h
    simp only [Option.pure_def, Option.some.injEq, Prod.mk.injEq] at h
    rw [← h.1]
    obtain ⟨t1, t2⟩ := scalar_lt hE hk ha hc (fun i => [a.scc i]) a.scc (fun i _ => rfl) (hc.mono trivial) hu
    exact t1 (t2 hd)

theorem cutDimBased_lt (hE : EmptyOracle L.isEmpty) (hk : SkelOK k) (ha : Alive k) (hc : CInv True k a) {n : Nat}
    (h : a.cutDimBased L.isEmpty = some (a', n)) : (1 ≤ n → todo a'.p < todo a.p) ∧ (n = 0 → Stay a a') := by
  unfold Auto.cutDimBased at h
  split_ifs at h with hnum
  · simp only [Option.some.injEq, Prod.mk.injEq] at h
    obtain ⟨rfl, rfl⟩ := h
    exact ⟨fun h0 => by omega, fun _ => ⟨rfl, rfl, fun d hd => ⟨d, hd, rfl, rfl⟩, Nat.le_refl _⟩⟩
  · obtain ⟨t1, t2, _⟩ := keep_lt hE hk ha hc _ (fun i => (a.dimCount (a.scc i).toNat : Int)) (by
      intro i hi
      obtain ⟨h0, h1⟩ := hc.range i hi
      rw [filter_range_eq _ _ h0 h1]
      rfl) (by
      intro d hd
      have := hc.mono trivial d hd
      have := dimCount_mono a (i := (a.scc d.src).toNat) (j := (a.scc d.dest).toNat) (by omega)
      omega) h
    exact ⟨t1, t2⟩

/-- A dependence between components `i` and `j`. -/
def SccBetween (a : Auto) (i j : Nat) : Prop := ∃ d, Live a.p d ∧ a.scc d.src = (i : Int) ∧ a.scc d.dest = (j : Int) ∧ i < j

theorem Stay.between {a a' : Auto} (h : Stay a a') {i j : Nat} (hb : SccBetween a i j) : SccBetween a' i j := by
  obtain ⟨d, hd, e1, e2, hlt⟩ := hb
  obtain ⟨d', hd', e3, e4⟩ := h.live d hd
  exact ⟨d', hd', by rw [h.scc, e3, e1], by rw [h.scc, e4, e2], hlt⟩

theorem SccBetween.all {a : Auto} {i j : Nat} (hb : SccBetween a i j) : ∃ d, Live a.p d ∧ a.scc d.src < a.scc d.dest := by
  obtain ⟨d, hd, e1, e2, hlt⟩ := hb
  exact ⟨d, hd, by omega⟩

theorem smartFar_lt (hE : EmptyOracle L.isEmpty) (hk : SkelOK k) (ha : Alive k) {i j : Nat} (l : List (Nat × Nat)) :
    ∀ (a a' : Auto), CInv True k a → FlatScalar a.p → SccBetween a i j → (i, j) ∈ l → a.smartFar L.isEmpty l = some a' → todo a'.p < todo a.p := by
  induction l with
  | nil => intro _ _ _ _ _ hm; simp at hm
  | cons x l ih =>
    intro a a' hc hf hb hm h
    obtain ⟨i', j'⟩ := x
    simp only [Auto.smartFar, Option.bind_eq_bind, Option.bind_eq_some_iff] at h
    obtain ⟨n, _, h⟩ := h
    split_ifs at h with h0 hcon
    · rw [Option.bind_eq_some_iff] at h
      obtain ⟨⟨a1, n1⟩, h1, h2⟩ := h
      obtain ⟨t1, t2, t3⟩ := cutBetween_lt hE hk ha hc h1
      have hc1 := (cutBetween_spec hE hk hc h1).1
      have hk1 : Todo (todo a1.p) a1.p :=
        ⟨(cutBetween_keeps hE hk (todo_moves hE hk ha (todo a.p)) hc ⟨hf, Nat.le_refl _⟩ h1).1, Nat.le_refl _⟩
      rcases Nat.eq_zero_or_pos n1 with hz | hz
      · have hne : (i, j) ≠ (i', j') := by
          intro he
          rw [Prod.mk.injEq] at he
          obtain ⟨rfl, rfl⟩ := he
          obtain ⟨d, hd, e1, e2, hlt⟩ := hb
          have := t3 ⟨d, hd, e1, e2, by omega⟩
          omega
        have hst := t2 hz
        have := ih a1 a' hc1 hk1.1 (hst.between hb) ((List.mem_cons.mp hm).resolve_left hne) h2
        have := hst.todo
        omega
      · have := (smartFar_keeps hE hk (todo_moves hE hk ha (todo a1.p)) l a1 a' hc1 hk1 h2).2
        have := t1 hz
        omega
    · refine ih a a' hc hf hb ((List.mem_cons.mp hm).resolve_left ?_) h
      intro he
      rw [Prod.mk.injEq] at he
      obtain ⟨rfl, rfl⟩ := he
      apply hcon
      obtain ⟨d, hd, e1, e2, hlt⟩ := hb
      obtain ⟨b1, b2, b3⟩ := hc.cover trivial d hd
      rw [hc.gn] at b1 b2
      unfold Auto.connected
      simp only [List.any_eq_true, List.mem_range, Bool.and_eq_true, decide_eq_true_eq]
      exact ⟨d.src, b1, e1, d.dest, b2, e2, Nat.pos_of_ne_zero b3⟩
    · rw [Option.bind_eq_some_iff] at h
      obtain ⟨⟨a1, n1⟩, h1, h2⟩ := h
      simp only [Option.pure_def, Option.some.injEq] at h2
      rw [← h2]
      exact cutAll_lt hE hk ha hc hb.all h1

theorem conservativeFar_lt (hE : EmptyOracle L.isEmpty) (hk : SkelOK k) (ha : Alive k) {i j : Nat} (l : List (Nat × Nat)) :
    ∀ (a a' : Auto), CInv True k a → SccBetween a i j → (i, j) ∈ l → a.conservativeFar L.isEmpty l = some a' → todo a'.p < todo a.p := by
  induction l with
  | nil => intro _ _ _ _ hm; simp at hm
  | cons x l ih =>
    intro a a' hc hb hm h
    obtain ⟨i', j'⟩ := x
    simp only [Auto.conservativeFar, Option.bind_eq_bind, Option.bind_eq_some_iff] at h
    obtain ⟨n, _, h⟩ := h
    split_ifs at h with h0
    · rw [Option.bind_eq_some_iff] at h
      obtain ⟨⟨a1, n1⟩, h1, h2⟩ := h
      obtain ⟨t1, t2, t3⟩ := cutBetween_lt hE hk ha hc h1
      simp only at h2
      split_ifs at h2 with hz
      · simp only [Option.pure_def, Option.some.injEq] at h2
        rw [← h2]
        exact t1 (by omega)
      · simp only [ne_eq, not_not] at hz
        have hne : (i, j) ≠ (i', j') := by
          intro he
          rw [Prod.mk.injEq] at he
          obtain ⟨rfl, rfl⟩ := he
          obtain ⟨d, hd, e1, e2, hlt⟩ := hb
          have := t3 ⟨d, hd, e1, e2, by omega⟩
          omega
        have hst := t2 hz
        have := ih a1 a' (cutBetween_spec hE hk hc h1).1 (hst.between hb) ((List.mem_cons.mp hm).resolve_left hne) h2
        have := hst.todo
        omega
    · rw [Option.bind_eq_some_iff] at h
      obtain ⟨⟨a1, n1⟩, h1, h2⟩ := h
      simp only [Option.pure_def, Option.some.injEq] at h2
      rw [← h2]
      exact cutAll_lt hE hk ha hc hb.all h1

theorem mem_farPairs {n i j : Nat} (hi : i < j) (hj : j < n) : (i, j) ∈ farPairs n := by
  unfold farPairs
  rw [List.mem_flatMap]
  refine ⟨i, List.mem_range.mpr (by omega), ?_⟩
  rw [List.mem_map]
  refine ⟨j, ?_, rfl⟩
  rw [List.mem_reverse, List.mem_range'_1]
  omega

theorem SccBetween.lt_num {i j : Nat} (hk : SkelOK k) (hc : CInv True k a) (hb : SccBetween a i j) : i < j ∧ j < a.num := by
  obtain ⟨d, hd, e1, e2, hlt⟩ := hb
  have := hc.range _ (hk.dep hc.inv.sk hd.1).dest
  omega

theorem cutSmart_lt (hE : EmptyOracle L.isEmpty) (hk : SkelOK k) (ha : Alive k) (hc : CInv True k a) (hf : FlatScalar a.p) {i j : Nat}
    (hb : SccBetween a i j) (h : a.cutSmart L.isEmpty = some a') : todo a'.p < todo a.p := by
  have hnum := hb.lt_num hk hc
  unfold Auto.cutSmart at h
  rw [if_neg (by omega)] at h
  split_ifs at h
  · rw [Option.bind_eq_bind, Option.bind_eq_some_iff] at h
    obtain ⟨⟨a1, n1⟩, h1, h2⟩ := h
    simp only [Option.pure_def, Option.some.injEq] at h2
    rw [← h2]
    exact cutAll_lt hE hk ha hc hb.all h1
  · rw [Option.bind_eq_bind, Option.bind_eq_some_iff] at h
    obtain ⟨⟨a1, n1⟩, h1, h⟩ := h
    have i1 := (cutDimBased_spec hE hk hc h1).1
    have j1 := (cutDimBased_keeps hE hk (todo_moves hE hk ha (todo a.p)) hc ⟨hf, Nat.le_refl _⟩ h1).1
    obtain ⟨t1, t2⟩ := cutDimBased_lt hE hk ha hc h1
    simp only at h
    split_ifs at h with hz
    · simp only [Option.pure_def, Option.some.injEq] at h
      rw [← h]; exact t1 (by omega)
    · rw [Option.bind_eq_some_iff] at h
      obtain ⟨⟨a2, n2⟩, h2, h⟩ := h
      simp only [ne_eq, not_not] at hz
      have s1 := t2 hz
      have i2 := (cutBetween_spec hE hk i1 h2).1
      have j2 := (cutBetween_keeps hE hk (todo_moves hE hk ha (todo a1.p)) i1 ⟨j1, Nat.le_refl _⟩ h2).1
      obtain ⟨t3, t4, _⟩ := cutBetween_lt hE hk ha i1 h2
      simp only at h
      have l1 := s1.todo
      split_ifs at h with hz2
      · simp only [Option.pure_def, Option.some.injEq] at h
        have := t3 (by omega)
        rw [← h]; omega
      · simp only [ne_eq, not_not] at hz2
        have s2 := t4 hz2
        have l2 := s2.todo
        have hb2 := s2.between (s1.between hb)
        have hn2 := hb2.lt_num hk i2
        have := smartFar_lt hE hk ha _ a2 a' i2 j2 hb2 (mem_farPairs hn2.1 hn2.2) h
        omega

theorem cutConservative_lt (hE : EmptyOracle L.isEmpty) (hk : SkelOK k) (ha : Alive k) (hc : CInv True k a) {i j : Nat}
    (hb : SccBetween a i j) (h : a.cutConservative L.isEmpty = some a') : todo a'.p < todo a.p := by
  unfold Auto.cutConservative at h
  rw [Option.bind_eq_bind, Option.bind_eq_some_iff] at h
  obtain ⟨⟨a1, n1⟩, h1, h⟩ := h
  have i1 := (cutDimBased_spec hE hk hc h1).1
  obtain ⟨t1, t2⟩ := cutDimBased_lt hE hk ha hc h1
  simp only at h
  split_ifs at h with hz
  · simp only [Option.pure_def, Option.some.injEq] at h
    rw [← h]; exact t1 (by omega)
  · rw [Option.bind_eq_some_iff] at h
    obtain ⟨⟨a2, n2⟩, h2, h⟩ := h
    simp only [ne_eq, not_not] at hz
    have s1 := t2 hz
    have i2 := (cutBetween_spec hE hk i1 h2).1
    obtain ⟨t3, t4, _⟩ := cutBetween_lt hE hk ha i1 h2
    simp only at h
    have l1 := s1.todo
    split_ifs at h with hz2
    · simp only [Option.pure_def, Option.some.injEq] at h
      have := t3 (by omega)
      rw [← h]; omega
    · simp only [ne_eq, not_not] at hz2
      have s2 := t4 hz2
      have l2 := s2.todo
      have hb2 := s2.between (s1.between hb)
      have hn2 := hb2.lt_num hk i2
      have := conservativeFar_lt hE hk ha _ a2 a' i2 hb2 (mem_farPairs hn2.1 hn2.2) h
      omega

theorem inter_between (hk : SkelOK k) (ha : Alive k) (hc : CInv True k a) (h : 1 ≤ a.unsatInter) : ∃ i j, SccBetween a i j := by
  unfold Auto.unsatInter at h
  obtain ⟨d, hd, hh⟩ := List.countP_pos_iff.mp h
  simp only [Bool.and_eq_true, Bool.not_eq_true', decide_eq_true_eq] at hh
  have hok := hk.dep hc.inv.sk hd
  have hl : Live a.p d := ⟨hd, hh.1.1, hh.2, alive_inst hk ha hc.inv.sk hd hh.1.1⟩
  have h1 := hc.range _ hok.src
  have h2 := hc.range _ hok.dest
  have := hc.mono trivial d hl
  have := hh.1.2
  exact ⟨(a.scc d.src).toNat, (a.scc d.dest).toNat, d, hl, by omega, by omega, by omega⟩

/-- The cut of every fusion heuristic leaves less to do. -/
theorem fuseCut_lt {o : AutoOpts} (hE : EmptyOracle L.isEmpty) (hk : SkelOK k) (ha : Alive k) (hc : CInv True k a) (hf : FlatScalar a.p)
    {depth : Nat} (hu : 1 ≤ a.unsatInter) (h : fuseCut o L depth a = some a') : todo a'.p < todo a.p := by
  obtain ⟨i, j, hb⟩ := inter_between hk ha hc hu
  have key : (a.cutAll L.isEmpty).map (·.1) = some a' → todo a'.p < todo a.p := by
    intro h
    obtain ⟨⟨a2, n⟩, h3, h4⟩ := Option.map_eq_some_iff.mp h
    subst h4
    exact cutAll_lt hE hk ha hc hb.all h3
  unfold fuseCut at h
  cases hfu : o.fuse with
  | no => rw [hfu] at h; exact key h
  | smart => rw [hfu] at h; exact cutSmart_lt hE hk ha hc hf hb h
  | max =>
    rw [hfu] at h
    simp only at h
    split_ifs at h
    · exact key h
    · exact cutConservative_lt hE hk ha hc hb h

end

end Pluto
