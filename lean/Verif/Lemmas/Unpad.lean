import Verif.Lemmas.PadProg

/-! Removing the padding. -/

namespace Pluto

variable {p0 p : Prog} {m : Nat → Nat}

/-- A schedule row without the columns `d .. e - 1`. -/
def cutRow (d e : Nat) (r : List Int) : List Int := r.take d ++ r.drop e

theorem cutRow_same (d : Nat) (r : List Int) : cutRow d d r = r := List.take_append_drop d r

theorem cutRow_erase {d e : Nat} (h : d < e) (r : List Int) :
    cutRow d (e - 1) (r.eraseIdx d) = cutRow d e r := by
  unfold cutRow
  obtain ⟨k, rfl⟩ : ∃ k, e = k + 1 := ⟨e - 1, by omega⟩
  simp only [Nat.add_sub_cancel]
  apply List.ext_getElem?
  intro j
  by_cases hd : d ≤ r.length
  · by_cases hd' : d < r.length
    · simp only [List.getElem?_append, List.length_take, List.length_eraseIdx_of_lt hd', List.getElem?_take,
        List.getElem?_drop, List.getElem?_eraseIdx]
      ifs_idx
    · have : d = r.length := by omega
      rw [List.eraseIdx_of_length_le (by omega), List.drop_eq_nil_of_le (i := k) (by omega),
        List.drop_eq_nil_of_le (i := k + 1) (by omega)]
  · rw [List.eraseIdx_of_length_le (by omega), List.drop_eq_nil_of_le (i := k) (by omega),
        List.drop_eq_nil_of_le (i := k + 1) (by omega)]

theorem remove_eq {i pos : Nat} {st : Stmt} (hs : p.stmts[i]? = some st) (h1 : pos ≤ st.dim)
    (h2 : st.dim + 1 ≤ st.domain.ncols) :
    stmtRemoveDim p i pos = some { p with
      stmts := p.stmts.set i (stmtRemoveDimAt st pos)
      deps := p.deps.map (depRemoveDim { p with stmts := p.stmts.set i (stmtRemoveDimAt st pos) } i pos) } := by
  unfold stmtRemoveDim
  simp only [hs, Option.bind_eq_bind, Option.bind_some]
  rw [if_neg (by omega)]
  rfl

theorem padDep_remove {i k : Nat} {d0 d : Dep} {q : Prog}
    (hi : m i = k + 1) (hk : p0.dim i ≤ k)
    (hm : ∀ j < p0.stmts.length, p0.dim j ≤ m j)
    (hs : d0.src < p0.stmts.length) (ht : d0.dest < p0.stmts.length) (hf : p0.DepFits d0)
    (hq : dimOf q d0.src = upd m i k d0.src)
    (h : PadDep p0 m d0 d) : PadDep p0 (upd m i k) d0 (depRemoveDim q i (p0.dim i) d) := by
  obtain ⟨h1, h2, h3, h4⟩ := h
  have hr : ∀ r ∈ d0.dpoly.rows, p0.dim d0.src + p0.dim d0.dest ≤ r.val.length := by
    intro r hr'
    rw [hf.wf.2 r hr', hf.cols]; omega
  have ms := hm _ hs
  have mt := hm _ ht
  unfold depRemoveDim
  by_cases c1 : d.src = i <;> by_cases c2 : d.dest = i
  · simp only [c1, c2, if_true]
    have e1 : d0.src = i := by rw [← h1, c1]
    have e2 : d0.dest = i := by rw [← h2, c2]
    refine ⟨by simp [c1, e1], by simp [c2, e2], h3, ?_⟩
    simp only
    rw [h4]
    rw [e1] at hq hr ⊢
    rw [e2] at hr ⊢
    rw [hi, padCst_erase_src hk hr, hq]
    simp only [upd, if_true]
    exact padCst_erase_dest hk hk hr
  · simp only [c1, c2, if_true, if_false]
    have e1 : d0.src = i := by rw [← h1, c1]
    have e2 : d0.dest ≠ i := by rw [← h2]; exact c2
    refine ⟨by simp [c1, e1], h2, h3, ?_⟩
    simp only [upd, e1, e2, if_true, if_false]
    rw [h4]
    rw [e1] at hr ⊢
    rw [hi]
    exact padCst_erase_src hk hr
  · simp only [c1, c2, if_true, if_false]
    have e1 : d0.src ≠ i := by rw [← h1]; exact c1
    have e2 : d0.dest = i := by rw [← h2, c2]
    refine ⟨h1, by simp [c2, e2], h3, ?_⟩
    simp only
    rw [h1, hq, h4]
    simp only [upd, e1, e2, if_true, if_false]
    rw [e2] at hr
    rw [hi]
    exact padCst_erase_dest ms hk hr
  · simp only [c1, c2, if_false]
    have e1 : d0.src ≠ i := by rw [← h1]; exact c1
    have e2 : d0.dest ≠ i := by rw [← h2]; exact c2
    refine ⟨h1, h2, h3, ?_⟩
    simp only [upd, e1, e2, if_false]
    exact h4

theorem isOrig_erase (d k : Nat) :
    (List.replicate d true ++ List.replicate (k + 1) false).eraseIdx d =
      List.replicate d true ++ List.replicate k false := by
  rw [List.replicate_succ, eraseIdx_mid _ _ _ _ (by simp)]

/-- Schedule and row types of a statement. -/
def sched (st : Stmt) : List (List Int) × List HypType := (st.trans, st.hypTypes)

theorem remove_step (hp : p0.InputOK) (h : PadRel p0 m p) {i k : Nat} (hi : i < p0.stmts.length)
    (hmi : m i = k + 1) (hk : p0.dim i ≤ k) :
    ∃ p', stmtRemoveDim p i (p0.dim i) = some p' ∧ PadRel p0 (upd m i k) p' ∧ p'.hProps = p.hProps ∧
      ∀ j, p'.stmts[j]?.map sched = p.stmts[j]?.map (fun st =>
        if j = i then (st.trans.map (fun r => r.eraseIdx (p0.dim i)), st.hypTypes) else sched st) := by
  have h0 := List.getElem?_eq_getElem hi
  obtain ⟨st, hs, hps⟩ := h.get h0
  have hi' : i < p.stmts.length := by rw [h.len]; exact hi
  have hd : p0.dim i = (p0.stmts[i]).dim := by simp [Prog.dim, h0]
  have e := remove_eq (pos := p0.dim i) hs (by rw [hps.dim]; omega) (by rw [hps.dim, hps.dom.cols]; omega)
  refine ⟨_, e, ⟨h.nvar, h.npar, ?_, ?_⟩, rfl, ?_⟩
  · refine rel_set h.stmts h0 hi' (fun j hj => by simp [upd, hj]) ?_
    simp only [upd, if_true]
    refine ⟨by simp [stmtRemoveDimAt, hps.dim, hmi], by omega, hps.orig, ?_, ?_⟩
    · simp only [stmtRemoveDimAt, hps.isOrig, hd]
      rw [show m i - p0.stmts[i].dim = (k - p0.stmts[i].dim) + 1 by omega]
      exact isOrig_erase _ _
    · simp only [stmtRemoveDimAt, hd]
      have := hps.dom
      rw [hmi] at this
      exact padDom_erase this (by omega) (InputOK.rows hp h0)
  · rw [List.forall₂_map_right_iff]
    have := List.forall₂_iff_get.mp h.deps
    rw [List.forall₂_iff_get]
    refine ⟨this.1, fun k' hk1 hk2 => ?_⟩
    have hd' := this.2 k' hk1 hk2
    obtain ⟨a1, a2, a3, _⟩ := hp.deps (p0.deps.get ⟨k', hk1⟩) (List.get_mem _ _)
    refine padDep_remove hmi hk (fun j hj => h.ge hj) a1 a2 a3 ?_ hd'
    rw [dimOf_set hi']
    simp only [upd, stmtRemoveDimAt, hps.dim, hmi]
    split_ifs with c
    · rfl
    · exact h.dimOf a1
  · intro j
    by_cases hj : j = i
    · subst hj
      simp only [List.getElem?_set_self hi', hs, Option.map_some, if_true]
      rfl
    · simp only [List.getElem?_set_ne (Ne.symm hj), if_neg hj]

theorem unpad_spec (hp : p0.InputOK) {i : Nat} (hi : i < p0.stmts.length) :
    ∀ (n pos : Nat) (m : Nat → Nat) (p : Prog), PadRel p0 m p → pos ≤ p0.dim i →
      n = (p0.dim i - pos) + (m i - p0.dim i) →
      ∃ p', unpadStmt p i n pos = some p' ∧ PadRel p0 (upd m i (p0.dim i)) p' ∧ p'.hProps = p.hProps ∧
        ∀ j, p'.stmts[j]?.map sched = p.stmts[j]?.map (fun st =>
          if j = i then (st.trans.map (cutRow (p0.dim i) (m i)), st.hypTypes) else sched st) := by
  intro n
  induction n with
  | zero =>
    intro pos m p h hpos hn
    have := h.ge hi
    have e : m i = p0.dim i := by omega
    refine ⟨p, rfl, by rw [← e, upd_same]; exact h, rfl, ?_⟩
    intro j
    congr 1
    funext st
    rw [e]
    split_ifs
    · rw [show cutRow (p0.dim i) (p0.dim i) = id from funext (cutRow_same _), List.map_id]; rfl
    · rfl
  | succ n ih =>
    intro pos m p h hpos hn
    have hge := h.ge hi
    have h0 := List.getElem?_eq_getElem hi
    obtain ⟨st, hs, hps⟩ := h.get h0
    have hd : p0.dim i = (p0.stmts[i]).dim := by simp [Prog.dim, h0]
    by_cases hp' : pos < p0.dim i
    · have hb : st.isOrig[pos]? = some true := by
        rw [hps.isOrig, List.getElem?_append_left (by simp; omega), List.getElem?_replicate,
          if_pos (by omega)]
      obtain ⟨p', e1, e2⟩ := ih (pos + 1) m p h (by omega) (by omega)
      refine ⟨p', ?_, e2⟩
      unfold unpadStmt
      simp only [hs, hb, Option.bind_eq_bind, Option.bind_some, if_true]
      exact e1
    · have epos : pos = p0.dim i := by omega
      have hb : st.isOrig[pos]? = some false := by
        rw [hps.isOrig, List.getElem?_append_right (by simp; omega), List.getElem?_replicate,
          if_pos (by simp; omega)]
      obtain ⟨k, hk⟩ : ∃ k, m i = k + 1 := ⟨m i - 1, by omega⟩
      obtain ⟨p1, a1, a2, a3, a4⟩ := remove_step hp h hi hk (by omega)
      obtain ⟨p', e1, e2, e3, e4⟩ := ih pos (upd m i k) p1 a2 hpos (by simp only [upd, if_true]; omega)
      refine ⟨p', ?_, by rw [upd_upd] at e2; exact e2, by rw [e3, a3], ?_⟩
      · unfold unpadStmt
        simp only [hs, hb, Option.bind_eq_bind, Option.bind_some, if_false, Bool.false_eq_true]
        rw [epos, a1]
        simp only [Option.bind_some]
        rw [← epos]
        exact e1
      · intro j
        rw [e4]
        have := a4 j
        generalize hx : p1.stmts[j]? = x at this ⊢
        generalize hy : p.stmts[j]? = y at this ⊢
        cases x <;> cases y <;> simp only [Option.map_some, Option.map_none, reduceCtorEq] at this ⊢
        rename_i s1 s2
        rw [Option.some.injEq] at this ⊢
        split_ifs at this ⊢ with c
        · simp only [sched, Prod.mk.injEq] at this
          rw [this.1, this.2, List.map_map]
          simp only [upd, if_true]
          congr 1
          apply List.map_congr_left
          intro r _
          simp only [Function.comp]
          have := cutRow_erase (d := p0.dim i) (e := m i) (by omega) r
          rw [hk] at this ⊢
          exact this
        · exact this

/-- The statement `denormalize_domains` leaves: dimensions, flags and domain of the input. -/
theorem denormalizeStmt_spec (hp : p0.InputOK) (h : PadRel p0 m p) {i : Nat} (hi : i < p0.stmts.length)
    (hm : m i = p0.nvar)
    (ht : ∀ st, p.stmts[i]? = some st → ∀ r ∈ st.trans, r.length = p0.nvar + p0.npar + 1) :
    ∃ p', denormalizeStmt p i = some p' ∧ PadRel p0 (upd m i (p0.dim i)) p' ∧ p'.hProps = p.hProps ∧
      ∀ j, p'.stmts[j]?.map sched = p.stmts[j]?.map (fun st =>
        if j = i then (st.trans.map (cutRow (p0.dim i) p0.nvar), st.hypTypes) else sched st) := by
  have hge := h.ge hi
  obtain ⟨p1, a1, a2, a3, a4⟩ := unpad_spec hp hi p0.nvar 0 m p h (by omega) (by omega)
  rw [hm] at a4
  have h0 := List.getElem?_eq_getElem hi
  have hd : p0.dim i = (p0.stmts[i]).dim := by simp [Prog.dim, h0]
  obtain ⟨st1, hs1, hps1⟩ := a2.get h0
  obtain ⟨st, hs, hps⟩ := h.get h0
  have hi1 : i < p1.stmts.length := by rw [a2.len]; exact hi
  have hsch := a4 i
  rw [hs1, hs] at hsch
  simp only [Option.map_some, if_true, Option.some.injEq, sched, Prod.mk.injEq] at hsch
  simp only [upd, if_true] at hps1
  have hO : List.replicate st1.dim true = st1.isOrig := by
    rw [hps1.isOrig, hps1.dim, hd]; simp
  refine ⟨p1, ?_, a2, a3, a4⟩
  unfold denormalizeStmt
  rw [h.nvar]
  simp only [a1, hs1, Option.bind_eq_bind, Option.bind_some]
  rw [if_neg]
  · simp only [Option.pure_def, Option.some.injEq]
    have : ({ st1 with isOrig := List.replicate st1.dim true } : Stmt) = st1 := by rw [hO]
    rw [this]
    have : p1.stmts.set i st1 = p1.stmts := by
      apply List.ext_getElem?
      intro j
      rw [List.getElem?_set]
      split_ifs with c
      · rw [← c, hs1]
      · rfl
    rw [this]
  · push Not
    refine ⟨by rw [hps1.dom.cols, hps1.dim, a2.npar], ?_⟩
    rw [Ne, Bool.not_eq_true, List.any_eq_false]
    intro r hr
    rw [hsch.1] at hr
    obtain ⟨r0, hr0, rfl⟩ := List.mem_map.mp hr
    have := ht st hs r0 hr0
    simp only [decide_eq_true_eq, not_not, cutRow, List.length_append, List.length_take, List.length_drop]
    rw [hps1.dim, a2.npar, this]
    omega

theorem denormalize_spec (hp : p0.InputOK) (h : PadRel p0 (fun _ => p0.nvar) p)
    (ht : ∀ st ∈ p.stmts, ∀ r ∈ st.trans, r.length = p0.nvar + p0.npar + 1) :
    ∃ p', denormalizeDomains p = some p' ∧ PadRel p0 p0.dim p' ∧ p'.hProps = p.hProps ∧
      ∀ j : Nat, p'.stmts[j]?.map sched = p.stmts[j]?.map (fun st : Stmt =>
        (st.trans.map (cutRow (p0.dim j) p0.nvar), st.hypTypes)) := by
  have key : ∀ (l : List Nat) (m : Nat → Nat) (p : Prog), l.Nodup → (∀ i ∈ l, i < p0.stmts.length) →
      (∀ i ∈ l, m i = p0.nvar) → PadRel p0 m p →
      (∀ i ∈ l, ∀ st, p.stmts[i]? = some st → ∀ r ∈ st.trans, r.length = p0.nvar + p0.npar + 1) →
      ∃ p', l.foldlM denormalizeStmt p = some p' ∧
        PadRel p0 (fun i => if i ∈ l then p0.dim i else m i) p' ∧ p'.hProps = p.hProps ∧
        ∀ j, p'.stmts[j]?.map sched = p.stmts[j]?.map (fun st =>
          if j ∈ l then (st.trans.map (cutRow (p0.dim j) p0.nvar), st.hypTypes) else sched st) := by
    intro l
    induction l with
    | nil => intro m p _ _ _ h _; exact ⟨p, rfl, by simpa using h, rfl, by simp⟩
    | cons i l ih =>
      intro m p hnd hl hm h ht
      rw [List.nodup_cons] at hnd
      obtain ⟨p1, a1, a2, a3, a4⟩ := denormalizeStmt_spec hp h (hl i List.mem_cons_self)
        (hm i List.mem_cons_self) (ht i List.mem_cons_self)
      have hne : ∀ j ∈ l, j ≠ i := fun j hj e => hnd.1 (e ▸ hj)
      obtain ⟨p2, b1, b2, b3, b4⟩ := ih (upd m i (p0.dim i)) p1 hnd.2
        (fun j hj => hl j (List.mem_cons_of_mem _ hj))
        (fun j hj => by simp only [upd, if_neg (hne j hj)]; exact hm j (List.mem_cons_of_mem _ hj)) a2
        (by
          intro j hj st hst r hr
          have := a4 j
          rw [hst] at this
          simp only [if_neg (hne j hj), Option.map_some] at this
          obtain ⟨st', h1, h2⟩ := Option.map_eq_some_iff.mp this.symm
          have : st.trans = st'.trans := (congrArg Prod.fst h2).symm
          exact ht j (List.mem_cons_of_mem _ hj) st' h1 r (this ▸ hr))
      refine ⟨p2, ?_, ?_, by rw [b3, a3], ?_⟩
      · rw [List.foldlM_cons, a1]; exact b1
      · convert b2 using 1
        funext j
        simp only [upd, List.mem_cons]
        by_cases h1 : j ∈ l <;> by_cases h2 : j = i <;> simp [h1, h2]
      · intro j
        rw [b4]
        have := a4 j
        generalize hx : p1.stmts[j]? = x at this ⊢
        generalize hy : p.stmts[j]? = y at this ⊢
        cases x <;> cases y <;> simp only [Option.map_some, Option.map_none, reduceCtorEq] at this ⊢
        rename_i s1 s2
        rw [Option.some.injEq] at this ⊢
        by_cases h1 : j ∈ l
        · rw [if_pos h1, if_pos (List.mem_cons_of_mem _ h1)]
          rw [if_neg (hne j h1)] at this
          simp only [sched, Prod.mk.injEq] at this
          rw [this.1, this.2]
        · rw [if_neg h1, this]
          by_cases h2 : j = i
          · subst h2; simp
          · simp [h1, h2]
  obtain ⟨p', a1, a2, a3, a4⟩ := key (List.range p.stmts.length) _ p List.nodup_range
    (fun i hi => by rw [← h.len]; exact List.mem_range.mp hi) (fun _ _ => rfl) h
    (fun i _ st hst => ht st (List.mem_of_getElem? hst))
  refine ⟨p', a1, a2.congr hp ?_, a3, ?_⟩
  · intro i hi
    rw [if_pos (by rw [h.len]; exact List.mem_range.mpr hi)]
  · intro j
    rw [a4]
    cases hs : p.stmts[j]? with
    | none => rfl
    | some st =>
      have : j < p.stmts.length := (List.getElem?_eq_some_iff.mp hs).1
      simp [this]

end Pluto
