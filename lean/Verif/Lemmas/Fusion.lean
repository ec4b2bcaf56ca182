import Verif.Lemmas.PrecutRun
import Verif.Spec.Fusion

/-! Fusion options: the first distribution. -/

namespace Pluto

/-! ### Components of the first graph -/

section
variable {p0 : Prog}

/-- The program with no dependence satisfied. -/
def unsat (p0 : Prog) : Prog := { p0 with deps := p0.deps.map (fun d => { d with satisfied := false }) }

theorem unsat_edge (hp : p0.InputOK) (i j : Nat) : (ddgCreate (unsat p0)).Edge i j ↔ p0.DepEdge i j := by
  have hw := (C47_weight (unsat p0) (ddgCreate (unsat p0)) i j).1
  unfold Graph.Edge
  rw [hw]
  constructor
  · rintro ⟨_, _, h⟩
    obtain ⟨d, hd, hh⟩ := List.countP_pos_iff.mp (Nat.pos_of_ne_zero h)
    simp only [Bool.and_eq_true, beq_iff_eq, Bool.not_eq_true'] at hh
    obtain ⟨d1, hd1, rfl⟩ := List.mem_map.mp hd
    exact ⟨d1, hd1, hh.1.2, hh.1.1.1, hh.1.1.2⟩
  · rintro ⟨d, hd, hr, rfl, rfl⟩
    obtain ⟨b1, b2, _⟩ := hp.deps d hd
    refine ⟨b1, b2, Nat.pos_iff_ne_zero.mp (List.countP_pos_iff.mpr ⟨{ d with satisfied := false }, List.mem_map_of_mem hd, ?_⟩)⟩
    simp [hr]

theorem unsat_reach (hp : p0.InputOK) (i j : Nat) : (ddgCreate (unsat p0)).Reach i j ↔ p0.DependsOn j i := by
  have : (ddgCreate (unsat p0)).Edge = p0.DepEdge := by
    funext i j
    exact propext (unsat_edge hp i j)
  unfold Graph.Reach Prog.DependsOn
  rw [this]

/-- What the numbers of the components of the first graph say. -/
structure SccNums (p0 : Prog) (a : Auto) : Prop where
  range : ∀ i < p0.stmts.length, 0 ≤ a.scc i ∧ a.scc i < a.num
  same : ∀ i < p0.stmts.length, ∀ j < p0.stmts.length, a.scc i = a.scc j ↔ p0.Mutual i j
  mono : ∀ i < p0.stmts.length, ∀ j < p0.stmts.length, p0.DependsOn j i → a.scc i ≤ a.scc j

theorem scc_nums (hp : p0.InputOK) {a a' : Auto} (h : a.computeScc = some a') (hg : a.g = ddgCreate (unsat p0)) : SccNums p0 a' := by
  obtain ⟨e1, e2, s, hs, e3, e4⟩ := computeScc_eq h
  obtain ⟨s', hs', h1, h2, h3⟩ := C14_scc a.g a.d
  rw [hs] at hs'
  cases hs'
  rw [hg] at h1 h3
  refine ⟨?_, ?_, ?_⟩
  · intro i hi
    rw [← e3, ← e4]
    exact (h3 (s.scc i)).mpr ⟨i, hi, rfl⟩
  · intro i hi j hj
    rw [← e3, h1 i j hi hj, unsat_reach hp, unsat_reach hp]
    exact ⟨fun h => ⟨h.2, h.1⟩, fun h => ⟨h.2, h.1⟩⟩
  · intro i _ j _ hr
    rw [← e3]
    refine C14_order a.g a.d s hs _ _ ?_
    rw [hg, unsat_reach hp]
    exact hr

end

/-! ### The first row stays -/

section
variable {p0 : Prog} {o : AutoOpts} {L : Libs} {k : Prog} {I : Prog → Prop} {lz ke : Prop}

theorem autoStep_keeps' (hE : EmptyOracle L.isEmpty) (hL : FeasibleOracle L.solve) (hk : SkelOK k) (hM : Moves L.isEmpty k lz ke I)
    {req : Nat} {s s' : LoopState} (hke : ke → KernelOracle L.kernel ∧ s.eager = true) (hi : AInv True k s.a)
    (hI : ∀ a, noFuseCut o L s.a = some a → I a.p) (hz : s'.eager = false → lz)
    (h : autoStep o L noDiamond req s = some (.go s')) : I s'.a.p := by
  unfold autoStep at h
  rw [Option.bind_eq_bind, Option.bind_eq_some_iff] at h
  obtain ⟨a, h1, h⟩ := h
  have ha := noFuseCut_spec hE hk hi h1
  have hI1 := hI a h1
  simp only at h
  split_ifs at h
  rw [Option.bind_eq_bind, Option.bind_eq_some_iff] at h
  obtain ⟨⟨p, n⟩, h2, h⟩ := h
  obtain ⟨i1, i2, i3, i4⟩ := findPermutable_spec o.toSearchOpts L hL hk s.eager _ p n ha.inv h2
  have hI2 := findPermutable_keeps o.toSearchOpts hL hk hM s.eager hke _ n ha.inv hI1 h2
  have hp := ha.sameDeps hk i1 i2
  simp only at h
  split_ifs at h with hn
  · have hnl : n ≤ p.hProps.length := by rw [i3]; omega
    have he : True → Early p (p.hProps.length - n) := by
      rw [i3, Nat.add_sub_cancel]; exact i4
    rw [Option.bind_eq_bind, Option.bind_eq_some_iff] at h
    obtain ⟨s1, h3, h⟩ := h
    rw [Option.bind_eq_some_iff] at h
    obtain ⟨s2, h4, h⟩ := h
    simp only [Option.pure_def, Option.some.injEq, StepRes.go.injEq] at h
    subst h
    have i5 := foundStep_spec hE hk (noDiamond_ok k hk) i1 hp.gn hn hnl he h3
    exact endStep_keeps hM i5.inv (foundStep_keeps hE hk hM i1 hI2 h3) hz h4
  · rw [Option.bind_eq_bind, Option.bind_eq_some_iff] at h
    obtain ⟨r1, h3, h⟩ := h
    cases r1 with
    | fail s1 => simp at h
    | go s1 =>
      have hr := noneStep_spec hE hk hp h3
      simp only [Option.bind_eq_bind, Option.bind_eq_some_iff] at h
      obtain ⟨s2, h4, h⟩ := h
      simp only [Option.pure_def, Option.some.injEq, StepRes.go.injEq] at h
      subst h
      exact endStep_keeps hM (hr.1 s1 rfl).inv (noneStep_keeps hE hk hM hp hI2 h3) hz h4

/-- Rows there after the cut of the first iteration stay. -/
theorem autoLoop_first (hE : EmptyOracle L.isEmpty) (hL : FeasibleOracle L.solve) (hk : SkelOK k) (R : Nat → List (List Int))
    {req : Nat} (fuel : Nat) (s : LoopState) (q : Prog) (hi : AInv True k s.a)
    (hI : ∀ a, noFuseCut o L s.a = some a → KeepsRows R a.p)
    (h : autoLoop o L noDiamond req fuel s = some (some (.inl q))) : KeepsRows R q := by
  have hM := keepsRows_moves L.isEmpty k R
  cases fuel with
  | zero => simp [autoLoop] at h
  | succ fuel =>
    simp only [autoLoop, Option.bind_eq_bind, Option.bind_eq_some_iff] at h
    obtain ⟨r1, h1, h⟩ := h
    have hs := autoStep_spec hE hL hk (noDiamond_ok k hk) hi h1
    cases r1 with
    | fail s1 => simp at h
    | go s1 =>
      have hI1 : KeepsRows R s1.a.p := autoStep_keeps' hE hL hk hM (fun hx => hx.elim) hi hI (fun _ => trivial) h1
      simp only at h
      split_ifs at h with hc
      · exact autoLoop_keeps hE hL hk hM (fun h => h.elim) fuel s1 q (hs.1 s1 rfl) hI1 (fun h => h.elim) (.inl trivial) h
      · simp only [Option.pure_def, Option.some.injEq, Sum.inl.injEq] at h
        rw [← h]; exact hI1

/-- One scalar row for every statement. -/
def splitRows (p0 : Prog) (c : Nat → Int) (i : Nat) : List (List Int) := [zrow (p0.nvar + p0.npar) ++ [c i]]

theorem splitRows_time (hp : p0.InputOK) (c : Nat → Int) {i : Nat} (hi : i < p0.stmts.length) {x q : List Int}
    (hx : x.length = p0.dim i) (hq : q.length = p0.npar) : rowTime p0 (splitRows p0 c) i x q = [c i] := by
  simp only [rowTime, splitRows, List.map_cons, List.map_nil, List.cons.injEq, and_true]
  have hd : p0.dim i ≤ p0.nvar := by
    have := (hp.stmts _ (List.getElem_mem hi)).2.1
    rw [← Prog.dim_of (List.getElem?_eq_getElem hi)] at this
    exact this
  have e : cutRow (p0.dim i) p0.nvar (zrow (p0.nvar + p0.npar) ++ [c i]) = zrow (p0.dim i + p0.npar) ++ [c i] := by
    unfold cutRow zrow
    rw [List.take_append_of_le_length (by simp; omega), List.take_replicate, List.drop_append_of_le_length (by simp), List.drop_replicate,
      ← List.append_assoc, List.replicate_append_replicate]
    congr 2
    omega
  rw [e, aff_scalar _ _ (by rw [List.length_append, hx, hq])]

theorem splitRows_added {p3 p2 : Prog} {f : Nat → List Int} {c : Nat → Int} (m2 : PadRel p0 (fun _ => p0.nvar) p3)
    (m3 : Fresh (fun _ => p0.nvar) p3) (hf : ∀ i < p3.stmts.length, f i = [c i])
    (h : p2 = { addScalarRows p3 f with deps := p2.deps }) : KeepsRows (splitRows p0 c) p2 := by
  intro i st hs
  rw [h] at hs
  simp only [addScalarRows, List.getElem?_mapIdx, Option.map_eq_some_iff] at hs
  obtain ⟨st3, hs3, rfl⟩ := hs
  rw [(m3.trans st3 (List.mem_of_getElem? hs3)).1, hf i (List.getElem?_eq_some_iff.mp hs3).1, m2.nvar, m2.npar]
  exact List.prefix_refl _

/-- From the first rows to the timestamps of the result. -/
theorem first_rows (hE : EmptyOracle L.isEmpty) (hL : FeasibleOracle L.solve) (fuel : Nat) (d0 : DfsState) (p : Prog) (hp : p0.InputOK)
    (hne : p0.stmts ≠ []) (c : Auto → Nat → Int) (C : Auto → Prop)
    (hcut : ∀ (a : Auto) (p3 : Prog) (a1 : Auto), SccNums p0 a → a.g = ddgCreate (unsat p0) → CInv True (skel p3) { a with p := p3 } →
      PadRel p0 (fun _ => p0.nvar) p3 → Fresh (fun _ => p0.nvar) p3 → p3.hProps = [] → SkelOK (skel p3) →
      initCut o L { a with p := p3 } = some a1 → ∃ b, SccNums p0 b ∧ C b ∧
        ∀ a2, noFuseCut o L a1 = some a2 → KeepsRows (splitRows p0 (c b)) a2.p)
    (h : autoTransform o L noDiamond fuel d0 p0 = some (.success p)) :
    ∃ b, SccNums p0 b ∧ C b ∧ p0.SplitBy p (c b) := by
  unfold autoTransform at h
  simp only [Option.bind_eq_bind, Option.bind_eq_some_iff] at h
  obtain ⟨a, h1, h⟩ := h
  rw [if_neg hne, Option.bind_eq_some_iff] at h
  obtain ⟨s, h2, h⟩ := h
  rw [Option.bind_eq_some_iff] at h
  obtain ⟨r, h3, h⟩ := h
  obtain ⟨p3, hc, m2, m3, m4, hs⟩ := init_state (X := True) hp h1 h2
  have hk := pad_skelOK hp m2 m3
  obtain ⟨k, hk', hia, hpad⟩ := init_spec (X := True) hE hp h1 h2
  obtain ⟨b, b1, b2, b3⟩ := hcut a p3 s.a (scc_nums hp h1 rfl) (scc_facts h1).2.1 hc m2 m3 m4 hk hs
  refine ⟨b, b1, b2, ?_⟩
  have hl := autoLoop_spec hE hL hk' (noDiamond_ok k hk') fuel s r hia h3
  match r with
  | none => simp at h
  | some (.inr q) =>
    simp only [Option.bind_eq_bind, Option.bind_eq_some_iff] at h
    obtain ⟨_, _, h⟩ := h
    simp at h
  | some (.inl q) =>
    simp only [Option.bind_eq_bind, Option.bind_eq_some_iff] at h
    obtain ⟨p', h4, h⟩ := h
    simp only [Option.pure_def, Option.some.injEq, Outcome.success.injEq] at h
    subst h
    obtain ⟨hi, hsat⟩ := hl.1 q rfl
    have hpq := hpad q hi
    have hkeep : KeepsRows (splitRows p0 (c b)) q := autoLoop_first hE hL hk' _ fuel s q hia b3 h3
    have hrow : ∀ st ∈ q.stmts, ∀ r ∈ st.trans, r.length = p0.nvar + p0.npar + 1 := by
      intro st hst r hr
      rw [← hpq.nvar, ← hpq.npar]
      exact ((hi.rows st hst).2 r hr).1
    obtain ⟨p'', d1, _, _, d4⟩ := denormalize_spec hp hpq hrow
    rw [h4, Option.some.injEq] at d1
    subst d1
    intro i hi0 x v hx hv
    obtain ⟨st, g1, _⟩ := hpq.get (List.getElem?_eq_getElem hi0)
    have e := d4 i
    rw [g1, Option.map_some] at e
    obtain ⟨st', k1, k2⟩ := Option.map_eq_some_iff.mp e
    simp only [sched, Prod.mk.injEq] at k2
    have hpre : rowTime p0 (splitRows p0 (c b)) i x v <+: p'.timestamp i x v := by
      unfold rowTime Prog.timestamp
      rw [k1]
      simp only [Option.map_some, Option.getD_some]
      rw [k2.1, List.map_map]
      exact (hkeep i st g1).map _
    rw [splitRows_time hp _ hi0 hx hv] at hpre
    obtain ⟨z, hz⟩ := hpre
    rw [← hz]
    rfl

/-! ### Cuts by dimensionality -/

theorem maxDepth_fold (l : List (Int × Nat)) (kk m : Int) :
    let r := l.foldl (fun m x => if x.1 = kk then max m (x.2 : Int) else m) m
    m ≤ r ∧ (∀ x ∈ l, x.1 = kk → (x.2 : Int) ≤ r) ∧ (r = m ∨ ∃ x ∈ l, x.1 = kk ∧ r = (x.2 : Int)) := by
  induction l generalizing m with
  | nil => simp
  | cons y l ih =>
    simp only [List.foldl_cons]
    obtain ⟨i1, i2, i3⟩ := ih (if y.1 = kk then max m (y.2 : Int) else m)
    refine ⟨?_, ?_, ?_⟩
    · refine le_trans ?_ i1
      split_ifs <;> omega
    · intro x hx hxk
      rcases List.mem_cons.mp hx with rfl | hx
      · refine le_trans ?_ i1
        rw [if_pos hxk]
        omega
      · exact i2 x hx hxk
    · rcases i3 with i3 | ⟨x, hx, hxk, i3⟩
      · by_cases hy : y.1 = kk
        · rw [if_pos hy] at i3 ⊢
          rcases le_total m (y.2 : Int) with h | h
          · right
            refine ⟨y, by simp, hy, ?_⟩
            rw [i3]
            omega
          · left
            rw [i3]
            omega
        · rw [if_neg hy] at i3 ⊢
          exact .inl i3
      · exact .inr ⟨x, by simp [hx], hxk, i3⟩

/-- `get_max_orig_dim_in_scc` for the component of statement `i`. -/
theorem maxDepth_spec (hp : p0.InputOK) {a : Auto} {p3 : Prog} (hs : SccNums p0 a) (m2 : PadRel p0 (fun _ => p0.nvar) p3)
    {i n : Nat} (hi : i < p0.stmts.length) (hd : p0.NestDepth i n) :
    ({ a with p := p3 } : Auto).maxDim (a.scc i).toNat = n := by
  obtain ⟨⟨j, st, hj, hm, hn⟩, hmax⟩ := hd
  have hj' := (List.getElem?_eq_some_iff.mp hj).1
  have hr := hs.range i hi
  unfold Auto.maxDim
  simp only
  have hkk : ((a.scc i).toNat : Int) = a.scc i := by omega
  rw [hkk]
  obtain ⟨_, r2, r3⟩ := maxDepth_fold (p3.stmts.mapIdx (fun i st => (a.scc i, st.dimOrig))) (a.scc i) (-1)
  obtain ⟨st3, g1, g2⟩ := m2.get hj
  have hod : st3.dimOrig = n := by
    rw [g2.orig, ← (hp.stmts st (List.mem_of_getElem? hj)).1, hn]
  have hmem : (a.scc j, st3.dimOrig) ∈ p3.stmts.mapIdx (fun i st => (a.scc i, st.dimOrig)) := by
    rw [List.mem_mapIdx]
    obtain ⟨hb, hb'⟩ := List.getElem?_eq_some_iff.mp g1
    exact ⟨j, hb, by rw [hb']⟩
  have h1 := r2 _ hmem ((hs.same j hj' i hi).mpr ⟨hm.2, hm.1⟩)
  simp only at h1
  rw [hod] at h1
  rcases r3 with r3 | ⟨x, hx, hxk, r3⟩
  · omega
  · rw [r3] at h1 ⊢
    obtain ⟨j2, hj2, rfl⟩ := List.mem_mapIdx.mp hx
    simp only at hxk h1 ⊢
    have hj2' : j2 < p0.stmts.length := by rw [← m2.len]; exact hj2
    obtain ⟨st4, g3, g4⟩ := m2.get (List.getElem?_eq_getElem hj2')
    have e4 : p3.stmts[j2] = st4 := by
      rw [List.getElem?_eq_getElem hj2] at g3
      exact Option.some.inj g3
    have := hmax j2 _ (List.getElem?_eq_getElem hj2') ((hs.same i hi j2 hj2').mp hxk.symm)
    rw [e4, g4.orig, ← (hp.stmts _ (List.getElem_mem hj2')).1] at h1 ⊢
    omega

theorem dimCount_lt (a : Auto) {i j : Nat} (h : i < j) (hd : a.maxDim i ≠ a.maxDim j) : a.dimCount i < a.dimCount j := by
  induction j with
  | zero => omega
  | succ j ih =>
    simp only [Auto.dimCount]
    by_cases hc : a.maxDim (j + 1) = a.maxDim j
    · have hij : i ≠ j := by
        rintro rfl
        exact hd hc.symm
      have := ih (by omega) (by rw [← hc]; exact hd)
      omega
    · rw [if_pos hc]
      have := dimCount_mono a (i := i) (j := j) (by omega)
      omega

/-- A row that separates the ends of a dependence satisfies it. -/
theorem update_counts (hE : EmptyOracle L.isEmpty) (hk : SkelOK k) {a : Auto} (hc : CInv True k a) (f : Nat → List Int) (c : Nat → Int)
    (hf : ∀ i < a.p.stmts.length, f i = [c i]) (hm : ∀ d, Live a.p d → c d.src ≤ c d.dest) {p2 : Prog} {n : Nat}
    (h : satUpdateLast L.isEmpty (addScalarRows a.p f) = some (p2, n)) {d : Dep} (hd : d ∈ a.p.deps) (hr : d.rar = false)
    (hs : d.satisfied = false) (hlt : c d.src < c d.dest) : 1 ≤ n := by
  obtain ⟨_, _, _, h4⟩ := scalar_update hE hk hc f c hf (fun _ => hm) h
  have hap := scalar_appended (p := a.p) f c hf
  have hinv := scalar_inv hk hc.inv f c hf (fun _ => hm)
  obtain ⟨_, hF, hn⟩ := depSatUpdate_spec hE _ p2 n (hinv.transOK hk) (fun d hd => hk.fits hinv.sk hd) _ h4
  rw [hap.deps] at hF hn
  obtain ⟨j, hj, rfl⟩ := List.getElem_of_mem hd
  have hg := List.forall₂_iff_get.mp hF
  have hj2 : j < p2.deps.length := by rw [← hg.1]; exact hj
  obtain ⟨_, g2, _⟩ := hg.2 j hj hj2
  simp only [List.get_eq_getElem] at g2
  have hsat : p2.deps[j].satisfied = true := by
    refine g2.mpr (.inr ?_)
    intro s t q hi
    have hi' := (hap.inst _ _ _ _).mp hi
    have hb := hk.dep hc.inv.sk (List.getElem_mem hj)
    have e1 := hi'.hs
    have e2 := hi'.ht
    rw [hk.dim hc.inv.sk hb.src] at e1
    rw [hk.dim hc.inv.sk hb.dest] at e2
    unfold Prog.comp Prog.phi
    rw [hap.row_last (fun st hst => (hc.inv.rows st hst).1) hb.src, hap.row_last (fun st hst => (hc.inv.rows st hst).1) hb.dest,
      aff_scalar _ _ (by rw [List.length_append, e2, hi'.hp]), aff_scalar _ _ (by rw [List.length_append, e1, hi'.hp])]
    omega
  rw [hn]
  refine List.length_pos_of_mem (a := (a.p.deps[j], p2.deps[j])) (List.mem_filter.mpr ⟨?_, ?_⟩)
  · rw [List.mem_iff_getElem]
    exact ⟨j, by rw [List.length_zip]; omega, by rw [List.getElem_zip]⟩
  · simp [hs, hsat, hr]

end

end Pluto
