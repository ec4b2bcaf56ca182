import Verif.Lemmas.AutoEven

/-! A quantity that the iterations of the main loop of the automatic transformation decrease. -/

namespace Pluto

/-- Number of loops of a statement that its schedule does not have yet. -/
noncomputable def gap (st : Stmt) : Nat := st.dimOrig - rowRank st.dimOrig (st.trans.map (·.take st.dimOrig))

noncomputable def gapAt (p : Prog) (i : Nat) : Nat := (p.stmts[i]?.map gap).getD 0

def unsatCount (p : Prog) : Nat := p.deps.countP (fun d => !d.rar && !d.satisfied)

/-- Loops and dependences still to be dealt with. -/
noncomputable def todo (p : Prog) : Nat := (∑ i ∈ Finset.range p.stmts.length, gapAt p i) + unsatCount p

/-- No dependence is empty. -/
def Alive (k : Prog) : Prop := ∀ d ∈ k.deps, d.rar = false → ∃ s t q : List Int, DepInst d.dpoly k.nvar k.nvar k.npar s t q

/-- Scalar levels do not depend on the loops. -/
def FlatScalar (p : Prog) : Prop := ∀ st ∈ p.stmts, ∀ (l : Nat) (row : List Int), st.trans[l]? = some row →
  p.hProps[l]? = some HypType.scalar → ∀ v ∈ row.take st.dimOrig, v = 0

theorem countP_forall₂ {α : Type} {R : α → α → Prop} {P : α → Bool} (hR : ∀ a b, R a b → P b = true → P a = true) {l l' : List α}
    (h : List.Forall₂ R l l') : l'.countP P ≤ l.countP P := by
  induction h with
  | nil => simp
  | @cons a b l l' hab _ ih =>
    rw [List.countP_cons, List.countP_cons]
    have := hR a b hab
    split_ifs with h1 h2 h2
    · omega
    · exact absurd (this h1) h2
    · omega
    · omega

theorem countP_forall₂_lt {α : Type} {R : α → α → Prop} {P : α → Bool} (hR : ∀ a b, R a b → P b = true → P a = true) {l l' : List α}
    (h : List.Forall₂ R l l') {a b : α} (hab : (a, b) ∈ l.zip l') (ha : P a = true) (hb : P b = false) :
    l'.countP P < l.countP P := by
  induction h with
  | nil => simp at hab
  | @cons x y l l' hxy ht ih =>
    rw [List.countP_cons, List.countP_cons]
    have h0 := hR x y hxy
    have hle := countP_forall₂ hR ht
    rw [List.zip_cons_cons, List.mem_cons] at hab
    rcases hab with hab | hab
    · rw [Prod.mk.injEq] at hab
      obtain ⟨rfl, rfl⟩ := hab
      rw [if_pos ha, if_neg (by rw [hb]; simp)]
      omega
    · have := ih hab
      split_ifs with h1 h2 h2
      · omega
      · exact absurd (h0 h1) h2
      · omega
      · omega

theorem rowRank_mono (n : Nat) (rows : List (List Int)) (r : List Int) : rowRank n rows ≤ rowRank n (rows ++ [r]) := by
  unfold rowRank
  rw [rowSpace_append]
  exact Submodule.finrank_mono le_sup_left

section
variable {k p p' : Prog} {f : Nat → List Int}

theorem Appended.get (h : Appended p p' f) {i : Nat} {st : Stmt} (hs : p.stmts[i]? = some st) :
    ∃ st', p'.stmts[i]? = some st' ∧ st'.dimOrig = st.dimOrig ∧ st'.trans = st.trans ++ [f i] := by
  have h1 := h.trans i
  rw [hs, Option.map_some] at h1
  obtain ⟨st', h2, h3⟩ := Option.map_eq_some_iff.mp h1
  refine ⟨st', h2, ?_, h3⟩
  have := congrArg (fun p : Prog => p.stmts[i]?.map (·.dimOrig)) h.sk
  simp only [skel, List.getElem?_map, Option.map_map] at this
  rw [hs, h2] at this
  simpa [skelStmt] using this

theorem Appended.gap_le (h : Appended p p' f) (i : Nat) : gapAt p' i ≤ gapAt p i := by
  unfold gapAt
  cases hs : p.stmts[i]? with
  | none =>
    have h1 := h.trans i
    rw [hs, Option.map_none, Option.map_eq_none_iff] at h1
    rw [h1]
  | some st =>
    obtain ⟨st', h1, h2, h3⟩ := h.get hs
    rw [h1]
    simp only [Option.map_some, Option.getD_some]
    unfold gap
    rw [h2, h3, List.map_append, List.map_singleton]
    have := rowRank_mono st.dimOrig (st.trans.map (·.take st.dimOrig)) ((f i).take st.dimOrig)
    omega

theorem Appended.todo_le (h : Appended p p' f) : todo p' ≤ todo p := by
  unfold todo unsatCount
  rw [h.len, h.deps]
  exact Nat.add_le_add_right (Finset.sum_le_sum (fun i _ => h.gap_le i)) _

theorem Appended.todo_lt (h : Appended p p' f) {i : Nat} {st : Stmt} (hs : p.stmts[i]? = some st) (hn : NeedsLoops st)
    (hnew : qvec st.dimOrig ((f i).take st.dimOrig) ∉ rowSpace st.dimOrig (st.trans.map (·.take st.dimOrig))) : todo p' < todo p := by
  unfold todo unsatCount
  rw [h.len, h.deps]
  refine Nat.add_lt_add_right (Finset.sum_lt_sum (fun i _ => h.gap_le i) ⟨i, ?_, ?_⟩) _
  · exact Finset.mem_range.mpr (List.getElem?_eq_some_iff.mp hs).1
  · obtain ⟨st', h1, h2, h3⟩ := h.get hs
    unfold gapAt
    rw [h1, hs]
    simp only [Option.map_some, Option.getD_some]
    unfold gap
    rw [h2, h3, List.map_append, List.map_singleton, rowRank_new hnew]
    unfold NeedsLoops at hn
    omega

theorem skel_rar {d d' : Dep} (h : skelDep d' = skelDep d) : d'.rar = d.rar := by
  have := congrArg Dep.rar h
  exact this

theorem alive_inst (hk : SkelOK k) (ha : Alive k) (h : skel p = k) {d : Dep} (hd : d ∈ p.deps) (hr : d.rar = false) :
    ∃ s t q, p.Inst d s t q := by
  obtain ⟨s, t, q, hi⟩ := ha (skelDep d) (by rw [← h]; exact List.mem_map_of_mem hd) hr
  exact ⟨s, t, q, (hk.inst h hd s t q).mpr hi⟩

/-- What `Grows` says when no dependence is empty. -/
theorem Grows.strong (hk : SkelOK k) (ha : Alive k) (h : skel p = k) {ds : List Dep} (hg : Grows p ds) :
    List.Forall₂ (fun d d' : Dep => d'.rar = d.rar ∧ (d.rar = false → d.satisfied = true → d'.satisfied = true)) p.deps ds := by
  unfold Grows at hg
  rw [List.forall₂_iff_get] at hg ⊢
  refine ⟨hg.1, fun i h1 h2 => ?_⟩
  obtain ⟨e1, e2⟩ := hg.2 i h1 h2
  exact ⟨skel_rar e1, fun hr hs => e2 hr hs (alive_inst hk ha h (List.get_mem _ _) hr)⟩

theorem grows_unsat {R : Dep → Dep → Prop} (hR : ∀ d d', R d d' → d'.rar = d.rar ∧ (d.rar = false → d.satisfied = true → d'.satisfied = true))
    (a b : Dep) (h : R a b) (hb : (!b.rar && !b.satisfied) = true) : (!a.rar && !a.satisfied) = true := by
  obtain ⟨h1, h2⟩ := hR a b h
  rw [h1] at hb
  simp only [Bool.and_eq_true, Bool.not_eq_true'] at hb ⊢
  refine ⟨hb.1, ?_⟩
  cases hc : a.satisfied with
  | false => rfl
  | true => rw [h2 hb.1 hc] at hb; exact absurd hb.2 (by simp)

theorem todo_flags {ds : List Dep}
    (h : List.Forall₂ (fun d d' : Dep => d'.rar = d.rar ∧ (d.rar = false → d.satisfied = true → d'.satisfied = true)) p.deps ds) :
    todo { p with deps := ds } ≤ todo p := by
  unfold todo
  refine Nat.add_le_add (le_of_eq rfl) ?_
  exact countP_forall₂ (grows_unsat (fun _ _ h => h)) h

/-- The facts are kept by every step. -/
def Todo (N : Nat) (p : Prog) : Prop := FlatScalar p ∧ todo p ≤ N

theorem take_scalar {n w : Nat} (h : n ≤ w) (c : Int) : ∀ v ∈ (zrow w ++ [c]).take n, v = 0 := by
  rw [List.take_append_of_le_length (by simp [zrow]; omega)]
  intro v hv
  have := List.mem_of_mem_take hv
  simp [zrow] at this
  exact this.2

theorem todo_moves {isEmpty : Cst → Bool} (hE : EmptyOracle isEmpty) (hk : SkelOK k) (ha : Alive k) (N : Nat) :
    Moves isEmpty k True False (Todo N) where
  hyper := by
    rintro p sol hi ⟨h1, h2⟩ _ _
    have hap := addHyperplane_appended p sol
    refine ⟨fun st' hst' l row hl ht => ?_, Nat.le_trans hap.todo_le h2⟩
    unfold addHyperplane at hst' ht
    obtain ⟨j, hj, rfl⟩ := List.mem_mapIdx.mp hst'
    have hm := List.getElem_mem hj
    obtain ⟨l1, _⟩ := hi.rows _ hm
    simp only at ht
    rcases getElem?_snoc hl with hl | ⟨rfl, rfl⟩
    · have hlt := (List.getElem?_eq_some_iff.mp hl).1
      rw [List.getElem?_append_left (by omega)] at ht
      exact h1 _ hm l row hl ht
    · rw [l1] at ht
      simp at ht
  scalar := by
    rintro p f c hi ⟨h1, h2⟩ hf _
    have hap := scalar_appended (p := p) f c hf
    refine ⟨fun st' hst' l row hl ht => ?_, Nat.le_trans hap.todo_le h2⟩
    unfold addScalarRows at hst' ht
    obtain ⟨j, hj, rfl⟩ := List.mem_mapIdx.mp hst'
    have hm := List.getElem_mem hj
    obtain ⟨l1, _⟩ := hi.rows _ hm
    simp only at ht hl
    rw [hf j hj] at hl
    simp only [List.map_singleton] at hl
    rcases getElem?_snoc hl with hl | ⟨rfl, rfl⟩
    · have hlt := (List.getElem?_eq_some_iff.mp hl).1
      rw [List.getElem?_append_left (by omega)] at ht
      exact h1 _ hm l row hl ht
    · have := (hk.stmt hi.sk hm).2.1
      exact take_scalar (by simp only; omega) _
  update := by
    rintro p p' l m hi ⟨h1, h2⟩ hl h
    obtain ⟨_, e, g, _⟩ := hi.update hE hk hl h
    rw [e]
    exact ⟨h1, Nat.le_trans (todo_flags (g.strong hk ha hi.sk)) h2⟩
  drop := by
    rintro p ds hi ⟨h1, h2⟩ h
    refine ⟨h1, Nat.le_trans (todo_flags ?_) h2⟩
    exact h.imp (fun d d' hd => ⟨skel_rar hd.1, fun hr hs => by rw [hd.2 hr, hs]⟩)
  precise := by
    rintro _ p p' n hi ⟨h1, h2⟩ h
    obtain ⟨_, e, g⟩ := hi.precise hE hk h
    rw [e]
    exact ⟨h1, Nat.le_trans (todo_flags ((g trivial).strong hk ha hi.sk)) h2⟩

theorem flat_span {st : Stmt} (hlen : st.trans.length = p.hProps.length) (hf : FlatScalar p) (hst : st ∈ p.stmts) :
    rowSpace st.dimOrig (st.trans.map (·.take st.dimOrig)) ≤ loopSpan p st := by
  unfold rowSpace
  rw [Submodule.span_le]
  rintro v ⟨r, hr, rfl⟩
  obtain ⟨row, hrow, rfl⟩ := List.mem_map.mp hr
  obtain ⟨l, hl, hg⟩ := List.getElem_of_mem hrow
  have hg' : st.trans[l]? = some row := by rw [List.getElem?_eq_getElem hl, hg]
  have ht : p.hProps[l]? = some (p.hProps[l]'(by omega)) := List.getElem?_eq_getElem _
  by_cases hc : p.hProps[l]'(by omega) = HypType.scalar
  · rw [hc] at ht
    rw [qvec_zero (hf st hst l row hg' ht)]
    exact Submodule.zero_mem _
  · exact Submodule.subset_span ⟨l, row, _, hg', ht, hc, rfl⟩

/-- A hyperplane that is new for some statement that still needs loops leaves less to do. -/
theorem hyper_lt (hk : SkelOK k) (hi : Inv True k p) (hf : FlatScalar p) {sol : List Int} (hs : SolLen p sol) {i : Nat} {st : Stmt}
    (hst : p.stmts[i]? = some st) (hn : NeedsLoops st) (hnew : qvec st.dimOrig (stmtCoeffs p i st sol) ∉ loopSpan p st) :
    todo (addHyperplane p sol) < todo p := by
  have hm := List.mem_of_getElem? hst
  have hj := (List.getElem?_eq_some_iff.mp hst).1
  have hle := (hk.stmt hi.sk hm).2.1
  refine (addHyperplane_appended p sol).todo_lt hst hn ?_
  have etake : (hyperplaneRow p.nvar p.npar sol i).take st.dimOrig = stmtCoeffs p i st sol := by
    unfold hyperplaneRow stmtCoeffs
    have hlen : st.dimOrig ≤ ((sol.drop (stmtOffset p.nvar p.npar i)).take p.nvar).length := by
      unfold SolLen at hs
      have hb := stmtOffset_bound p.nvar p.npar p.stmts.length i hj
      rw [List.length_take, List.length_drop]
      unfold cstWidth at hb
      omega
    rw [List.append_assoc, List.take_append_of_le_length hlen, List.take_take, Nat.min_eq_left hle]
    rfl
  rw [etake]
  exact fun hx => hnew (flat_span (hi.rows st hm).1 hf hm hx)

/-- A search that finds a hyperplane leaves less to do. -/
theorem findLoop_lt (o : SearchOpts) {L : Libs} (hE : EmptyOracle L.isEmpty) (hL : FeasibleOracle L.solve) (hK : KernelOracle L.kernel) (hk : SkelOK k)
    (ha : Alive k) (base : Cst)
    (eager : Bool) (n : Nat) (p p' : Prog) (m : Nat) (hi : Inv True k p) (hf : FlatScalar p)
    (hwid : Wid (cstWidth p.nvar p.npar p.stmts.length) base) (hleg : LegalBase p base)
    (h : findLoop o L base eager n p = some (p', m)) (hm : 1 ≤ m) : Todo (todo p - 1) p' ∧ 1 ≤ todo p := by
  have stop : some (p, 0) = some (p', m) → False := by
    intro h
    simp only [Option.some.injEq, Prod.mk.injEq] at h
    omega
  cases n with
  | zero => exact (stop h).elim
  | succ n =>
    have ho := hk.origOK hi.sk
    simp only [findLoop] at h
    split_ifs at h with hr
    · exact (stop h).elim
    · rw [Option.bind_eq_bind, Option.bind_eq_some_iff] at h
      obtain ⟨r, h1, h⟩ := h
      cases r with
      | none => exact (stop h).elim
      | some sol =>
        simp only [Option.bind_eq_bind, Option.bind_eq_some_iff] at h
        obtain ⟨⟨p1, m1⟩, h2, h⟩ := h
        simp only [Option.pure_def, Option.some.injEq, Prod.mk.injEq] at h
        have hall := (hwid.add (nonTrivial_wid p eager)).add (linearInd_wid o L p ho
          (addCst base (nonTrivialConstraints p eager)) eager)
        have hw1 : 1 ≤ cstWidth p.nvar p.npar p.stmts.length := by unfold cstWidth; omega
        obtain ⟨f1, f2, f3⟩ := progLexmin_feasible o.dfp L.solve hL p ho _ (hall.wf hw1)
          (fun hn => hr (List.append_eq_nil_iff.mp hn).2) sol h1
        have hap := addHyperplane_appended p sol
        have hbase : base.Sat sol := fun r hr => f3 r (by simp [addCst, hr])
        have hi' : Inv True k (addHyperplane p sol) := by
          refine hi.append hk hap ?_ ?_
          · intro i st hs
            have hlt := (List.getElem?_eq_some_iff.mp hs).1
            refine ⟨(C39_row_value p sol f1 i hlt (List.replicate p.nvar 0) (List.replicate p.npar 0)
              (by simp) (by simp)).1, fun j hj1 hj2 => ?_⟩
            refine (C39_row_zero p sol f1 f2 i st hs j).1 hj2 ?_
            rw [(hk.stmt hi.sk (List.mem_of_getElem? hs)).2.2, List.getD_eq_getElem?_getD,
              List.getElem?_append_right (by simpa using hj1), List.getElem?_replicate, if_pos (by simp; omega)]
            rfl
          · exact fun _ => hleg sol f1 f2 hbase
        have hleg' : LegalBase (addHyperplane p sol) base := by
          intro sol' g1 g2 g3 d hd hr hs s t q hinst
          exact hleg sol' ((solLen_appended hap sol').mp g1) ((padZero_appended hap sol').mp g2) g3 d hd hr hs s t q
            ((hap.inst d s t q).mp hinst)
        have hpad := inv_padded hk hi
        have hneed : ∃ st ∈ p.stmts, NeedsLoops st := by
          by_contra hc
          push Not at hc
          exact hr ((C37_rows o L hK p hpad _ eager).mpr hc)
        have hind : (linearIndConstraints o L p (addCst base (nonTrivialConstraints p eager)) eager).Sat sol :=
          fun r hr => f3 r (by simp [addCst] at hr ⊢; tauto)
        have hlt : todo (addHyperplane p sol) < todo p := by
          cases eager with
          | true =>
            obtain ⟨st, hst, hn⟩ := hneed
            obtain ⟨i, hg⟩ := List.getElem?_of_mem hst
            exact hyper_lt hk hi hf f1 hg hn (C37_eager o L hK p hpad _ sol f1 hind i st hg hn)
          | false =>
            obtain ⟨i, st, hg, hn, hnew⟩ := C37_lazy o L hK p hpad _ sol f1 hind hneed
            exact hyper_lt hk hi hf f1 hg hn hnew
        have hf' : FlatScalar (addHyperplane p sol) :=
          ((todo_moves hE hk ha (todo p)).hyper p sol hi ⟨hf, Nat.le_refl _⟩ ⟨f1, f2, hleg sol f1 f2 hbase⟩ (fun h => h.elim)).1
        have := findLoop_keeps o hL hk (todo_moves hE hk ha (todo (addHyperplane p sol))) base eager (fun h => h.elim) n
          (addHyperplane p sol) p1 m1 hi' ⟨hf', Nat.le_refl _⟩ (by rw [hap.len, hap.nvar, hap.npar]; exact hwid) hleg' h2
        rw [← h.1]
        exact ⟨⟨this.1, by have := this.2; omega⟩, by omega⟩

theorem findPermutable_lt (o : SearchOpts) {L : Libs} (hE : EmptyOracle L.isEmpty) (hL : FeasibleOracle L.solve) (hK : KernelOracle L.kernel) (hk : SkelOK k)
    (ha : Alive k) (eager : Bool) (n : Nat) (p p' : Prog) (m : Nat) (hi : Inv True k p) (hf : FlatScalar p)
    (h : findPermutable o L eager n p = some (p', m)) (hm : 1 ≤ m) : Todo (todo p - 1) p' ∧ 1 ≤ todo p := by
  unfold findPermutable at h
  split_ifs at h
  · simp only [Option.some.injEq, Prod.mk.injEq] at h
    omega
  · have hperm := perm_wf o.rar o.nodepbound p (fun d hd => ⟨(hk.dep hi.sk hd).src, (hk.dep hi.sk hd).dest⟩)
    refine findLoop_lt o hE hL hK hk ha _ eager n p p' m hi hf (Wid.add ⟨hperm.2, ?_⟩ (coeffBound_wid o p)) ?_ h hm
    · intro r hr
      rw [← hperm.2]
      exact hperm.1.2 r hr
    · intro sol h1 h2 h3 d hd hr hs s t q hinst
      rw [hk.inst hi.sk hd, sk_nvar hi.sk, sk_npar hi.sk] at hinst
      exact C39_added_rows_legal o.rar o.nodepbound p sol (fun d hd => hk.dep hi.sk hd) h1 h2
        (fun r hr => h3 r (by simp [addCst, hr])) d hd hr hs s t q hinst

end

end Pluto
