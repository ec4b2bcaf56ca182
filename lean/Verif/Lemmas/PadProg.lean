import Verif.Lemmas.Pad

/-! Padding and unpadding whole programs. -/

namespace Pluto

variable {p0 p : Prog} {m : Nat → Nat}

/-- The statement after `pluto_sink_statement` at its last dimension. -/
def sunk (st : Stmt) : Stmt :=
  { st with
    domain := setVar (addDim st.domain st.dim) st.dim 0
    dim := st.dim + 1
    trans := st.trans.map (fun r => r.insertIdx st.dim 0)
    isOrig := (st.isOrig.insertIdx st.dim true).set st.dim false }

theorem dimOf_set {i j : Nat} {st : Stmt} {q : Prog} (hi : i < q.stmts.length) :
    dimOf { q with stmts := q.stmts.set i st } j = if j = i then st.dim else dimOf q j := by
  unfold dimOf
  simp only [List.getElem?_set]
  split_ifs with h1 h2 h2
  · subst h1; simp [hi]
  · exact absurd h1.symm h2
  · exact absurd h2.symm h1
  · rfl

theorem depAddDim_congr {p q : Prog} (i pos : Nat) (d : Dep) (h : dimOf p d.src = dimOf q d.src) :
    depAddDim p i pos d = depAddDim q i pos d := by
  unfold depAddDim
  simp only
  by_cases h1 : d.src = i <;> simp only [h1, if_true, if_false] <;> (split_ifs <;> simp_all)

theorem sink_eq {i : Nat} {st : Stmt} (hs : p.stmts[i]? = some st)
    (hc : st.domain.ncols = st.dim + p.npar + 1) :
    sinkStatement p i st.dim 0 = some { p with
      stmts := p.stmts.set i (sunk st)
      deps := p.deps.map (depAddDim { p with stmts := p.stmts.set i (sunk st) } i st.dim) } := by
  have hi : i < p.stmts.length := (List.getElem?_eq_some_iff.mp hs).1
  unfold sinkStatement stmtAddDim
  simp only [hs, Option.bind_eq_bind, Option.bind_some]
  rw [if_neg (by simpa using hc), if_neg (by omega), if_neg (by simp)]
  simp only [Option.bind_some, Option.pure_def]
  rw [List.getElem?_set_self hi]
  simp only [Option.bind_some, Option.some.injEq]
  rw [Prog.mk.injEq]
  refine ⟨rfl, rfl, ?_, ?_, rfl⟩
  · rw [List.set_set]; rfl
  · apply List.map_congr_left
    intro d hd
    apply depAddDim_congr
    rw [dimOf_set hi, dimOf_set hi]
    rfl

theorem padDep_add {i : Nat} {d0 d : Dep} {q : Prog} (hi : i < p0.stmts.length)
    (hm : ∀ j < p0.stmts.length, p0.dim j ≤ m j)
    (hs : d0.src < p0.stmts.length) (ht : d0.dest < p0.stmts.length) (hf : p0.DepFits d0)
    (hq : dimOf q d0.src = upd m i (m i + 1) d0.src)
    (h : PadDep p0 m d0 d) : PadDep p0 (upd m i (m i + 1)) d0 (depAddDim q i (m i) d) := by
  obtain ⟨h1, h2, h3, h4⟩ := h
  have hr : ∀ r ∈ d0.dpoly.rows, p0.dim d0.src + p0.dim d0.dest ≤ r.val.length := by
    intro r hr'
    rw [hf.wf.2 r hr', hf.cols]; omega
  have ms := hm _ hs
  have mt := hm _ ht
  unfold depAddDim
  by_cases c1 : d.src = i <;> by_cases c2 : d.dest = i
  · simp only [c1, c2, if_true]
    refine ⟨by simp [← h1, c1], by simp [← h2, c2], h3, ?_⟩
    have e1 : d0.src = i := by rw [← h1, c1]
    have e2 : d0.dest = i := by rw [← h2, c2]
    simp only
    rw [h4]
    rw [e1] at hq ms hr ⊢
    rw [e2] at mt hr ⊢
    rw [padCst_insert_src ms hr, hq]
    simp only [upd, if_true]
    exact padCst_insert_dest (by omega) mt hr
  · simp only [c1, c2, if_true, if_false]
    have e1 : d0.src = i := by rw [← h1, c1]
    have e2 : d0.dest ≠ i := by rw [← h2]; exact c2
    refine ⟨by simp [c1, e1], h2, h3, ?_⟩
    simp only [upd, e1, e2, if_true, if_false]
    rw [h4]
    rw [e1] at ms hr ⊢
    exact padCst_insert_src ms hr
  · simp only [c1, c2, if_true, if_false]
    have e1 : d0.src ≠ i := by rw [← h1]; exact c1
    have e2 : d0.dest = i := by rw [← h2, c2]
    refine ⟨h1, by simp [c2, e2], h3, ?_⟩
    simp only
    rw [h1, hq, h4]
    simp only [upd, e1, e2, if_true, if_false]
    rw [e2] at mt hr
    exact padCst_insert_dest ms mt hr
  · simp only [c1, c2, if_false]
    have e1 : d0.src ≠ i := by rw [← h1]; exact c1
    have e2 : d0.dest ≠ i := by rw [← h2]; exact c2
    refine ⟨h1, h2, h3, ?_⟩
    simp only [upd, e1, e2, if_false]
    exact h4

theorem InputOK.rows (hp : p0.InputOK) {i : Nat} {st0 : Stmt} (h0 : p0.stmts[i]? = some st0) :
    ∀ r ∈ st0.domain.rows, st0.dim ≤ r.val.length := by
  intro r hr
  obtain ⟨_, _, _, hw, hc⟩ := hp.stmts st0 (List.mem_of_getElem? h0)
  rw [hw.2 r hr, hc]; omega

theorem rel_set {i : Nat} {st0 st' : Stmt} {m' : Nat → Nat}
    (h : ∀ j, Option.Rel (PadStmt p0.npar (m j)) p0.stmts[j]? p.stmts[j]?)
    (h0 : p0.stmts[i]? = some st0) (hi : i < p.stmts.length)
    (hm : ∀ j, j ≠ i → m' j = m j) (hs : PadStmt p0.npar (m' i) st0 st') :
    ∀ j, Option.Rel (PadStmt p0.npar (m' j)) p0.stmts[j]? (p.stmts.set i st')[j]? := by
  intro j
  by_cases hj : j = i
  · subst hj
    rw [h0, List.getElem?_set_self hi]
    exact .some hs
  · rw [List.getElem?_set_ne (Ne.symm hj), hm j hj]
    exact h j

theorem sink_step (hp : p0.InputOK) (h : PadRel p0 m p) {i : Nat} (hi : i < p0.stmts.length) :
    ∃ st p', p.stmts[i]? = some st ∧ st.dim = m i ∧ sinkStatement p i (m i) 0 = some p' ∧
      p' = { p with
        stmts := p.stmts.set i (sunk st)
        deps := p.deps.map (depAddDim p' i (m i)) } ∧
      PadRel p0 (upd m i (m i + 1)) p' := by
  have h0 := List.getElem?_eq_getElem hi
  obtain ⟨st, hs, hps⟩ := h.get h0
  have hi' : i < p.stmts.length := by rw [h.len]; exact hi
  have e := sink_eq hs (by rw [hps.dom.cols, hps.dim, h.npar])
  rw [hps.dim] at e
  refine ⟨st, _, hs, hps.dim, e, ?_, ?_⟩
  · rw [Prog.mk.injEq]
    refine ⟨rfl, rfl, rfl, ?_, rfl⟩
    apply List.map_congr_left
    intro d _
    exact depAddDim_congr _ _ _ rfl
  · refine ⟨h.nvar, h.npar, ?_, ?_⟩
    · refine rel_set h.stmts h0 hi' (fun j hj => by simp [upd, hj]) ?_
      simp only [upd, if_true]
      refine ⟨by simp [sunk, hps.dim], by have := hps.ge; omega, hps.orig, ?_, ?_⟩
      · simp only [sunk, hps.isOrig, hps.dim]
        exact isOrig_sink _ _ hps.ge
      · simp only [sunk, hps.dim]
        exact padDom_sink hps.dom hps.ge (InputOK.rows hp h0)
    · rw [List.forall₂_map_right_iff]
      have := List.forall₂_iff_get.mp h.deps
      rw [List.forall₂_iff_get]
      refine ⟨this.1, fun k hk1 hk2 => ?_⟩
      have hd := this.2 k hk1 hk2
      obtain ⟨a1, a2, a3, _⟩ := hp.deps (p0.deps.get ⟨k, hk1⟩) (List.get_mem _ _)
      refine padDep_add hi (fun j hj => h.ge hj) a1 a2 a3 ?_ hd
      rw [dimOf_set hi']
      simp only [upd, sunk, hps.dim]
      split_ifs with c
      · rfl
      · exact h.dimOf a1

/-- What the padding must not disturb and what it establishes besides `PadRel`. -/
structure Fresh (m : Nat → Nat) (p : Prog) : Prop where
  trans : ∀ st ∈ p.stmts, st.trans = [] ∧ st.hypTypes = []
  deps : ∀ d ∈ p.deps, d.satisfied = false ∧ d.bpoly.WF ∧
    d.bpoly.ncols = m d.src + m d.dest + p.npar + 1

theorem addDim_wf {c : Cst} {pos : Nat} (h : c.WF) (hp : pos ≤ c.ncols) : (addDim c pos).WF := by
  refine ⟨by simp [addDim], ?_⟩
  intro r hr
  obtain ⟨r0, h0, rfl⟩ := List.mem_map.mp hr
  simp only [addDim]
  rw [List.length_insertIdx_of_le_length (by rw [h.2 r0 h0]; exact hp), h.2 r0 h0]

theorem fresh_sink {i : Nat} {st : Stmt} {p' : Prog} (hs : p.stmts[i]? = some st)
    (hd : ∀ d ∈ p.deps, dimOf p' d.src = upd m i (m i + 1) d.src)
    (e : p' = { p with
        stmts := p.stmts.set i (sunk st)
        deps := p.deps.map (depAddDim p' i (m i)) })
    (h : Fresh m p) : Fresh (upd m i (m i + 1)) p' := by
  have es : p'.stmts = p.stmts.set i (sunk st) := by rw [e]
  have ed : p'.deps = p.deps.map (depAddDim p' i (m i)) := by
    conv_lhs => rw [e]
  have en : p'.npar = p.npar := by rw [e]
  constructor
  · rw [es]
    intro s hs'
    rcases List.mem_or_eq_of_mem_set hs' with h' | h'
    · exact h.trans s h'
    · subst h'
      have := h.trans st (List.mem_of_getElem? hs)
      simp [sunk, this]
  · rw [ed]
    intro d hd'
    obtain ⟨d, hm, rfl⟩ := List.mem_map.mp hd'
    obtain ⟨h1, h2, h3⟩ := h.deps d hm
    have hq := hd d hm
    rw [en]
    unfold depAddDim
    by_cases c1 : d.src = i <;> by_cases c2 : d.dest = i
    · simp only [c1, c2, if_true]
      rw [c1] at hq h3
      rw [c2] at h3
      rw [hq]
      simp only [upd, if_true]
      have w1 := addDim_wf (pos := m i) h2 (by omega)
      refine ⟨h1, addDim_wf w1 (by simp only [addDim]; omega), by simp only [addDim]; omega⟩
    · simp only [c1, c2, if_true, if_false]
      rw [c1] at h3
      simp only [upd, c1, c2, if_true, if_false]
      exact ⟨h1, addDim_wf h2 (by omega), by simp only [addDim]; omega⟩
    · simp only [c1, c2, if_true, if_false]
      rw [c2] at h3
      rw [hq]
      simp only [upd, c1, c2, if_true, if_false]
      exact ⟨h1, addDim_wf h2 (by omega), by simp only [addDim]; omega⟩
    · simp only [c1, c2, if_false, upd]
      exact ⟨h1, h2, h3⟩

theorem upd_upd {α : Type} (a : Nat → α) (i : Nat) (v w : α) : upd (upd a i v) i w = upd a i w := by
  funext j; simp only [upd]; split_ifs <;> rfl

theorem upd_same {α : Type} (a : Nat → α) (i : Nat) : upd a i (a i) = a := by
  funext j; simp only [upd]; split_ifs with h
  · rw [h]
  · rfl

theorem padStmt_spec (hp : p0.InputOK) (n : Nat) {i : Nat} (hi : i < p0.stmts.length) :
    ∀ (m : Nat → Nat) (p : Prog), PadRel p0 m p → Fresh m p →
      ∃ p', padStmt p i n = some p' ∧ PadRel p0 (upd m i (m i + n)) p' ∧ Fresh (upd m i (m i + n)) p' ∧
        p'.hProps = p.hProps := by
  induction n with
  | zero =>
    intro m p h hf
    refine ⟨p, rfl, ?_⟩
    rw [Nat.add_zero, upd_same]
    exact ⟨h, hf, rfl⟩
  | succ n ih =>
    intro m p h hf
    obtain ⟨st, p', hs, hm, hk, e, hrel⟩ := sink_step hp h hi
    have hfr : Fresh (upd m i (m i + 1)) p' := by
      refine fresh_sink hs ?_ e hf
      intro d hd
      refine hrel.dimOf ?_
      obtain ⟨d0, h0, hpd⟩ : ∃ d0 ∈ p0.deps, PadDep p0 m d0 d := by
        obtain ⟨k, hk, rfl⟩ := List.getElem_of_mem hd
        have := List.forall₂_iff_get.mp h.deps
        have hk' : k < p0.deps.length := by rw [this.1]; exact hk
        exact ⟨_, List.getElem_mem hk', this.2 k hk' hk⟩
      rw [hpd.src]
      exact (hp.deps d0 h0).1
    obtain ⟨p'', h1, h2, h3, h4⟩ := ih _ p' hrel hfr
    refine ⟨p'', ?_, ?_, ?_, ?_⟩
    · unfold padStmt
      simp only [hs, Option.bind_eq_bind, Option.bind_some, hm, hk]
      exact h1
    · simp only [upd, if_true] at h2
      convert h2 using 1
      funext j; simp only [upd]; split_ifs <;> omega
    · simp only [upd, if_true] at h3
      convert h3 using 1
      funext j; simp only [upd]; split_ifs <;> omega
    · rw [h4, e]

theorem padAll_spec (hp : p0.InputOK) : ∀ (l : List Nat) (m : Nat → Nat) (p : Prog),
    (∀ i ∈ l, i < p0.stmts.length) → (∀ i < p0.stmts.length, m i ≤ p0.nvar) → PadRel p0 m p → Fresh m p →
      ∃ p', l.foldlM (fun (p : Prog) i => do
          let st ← p.stmts[i]?
          padStmt p i (p.nvar - st.dim)) p = some p' ∧
        PadRel p0 (fun i => if i ∈ l then p0.nvar else m i) p' ∧
        Fresh (fun i => if i ∈ l then p0.nvar else m i) p' ∧ p'.hProps = p.hProps := by
  intro l
  induction l with
  | nil =>
    intro m p _ _ h hf
    refine ⟨p, rfl, ?_⟩
    simpa using ⟨h, hf⟩
  | cons i l ih =>
    intro m p hl hm h hf
    have hi := hl i List.mem_cons_self
    obtain ⟨st, hs, hps⟩ := h.get (List.getElem?_eq_getElem hi)
    obtain ⟨p1, e1, r1, f1, hp1⟩ := padStmt_spec hp (p0.nvar - m i) hi m p h hf
    have hmi := hm i hi
    rw [show m i + (p0.nvar - m i) = p0.nvar by omega] at r1 f1
    obtain ⟨p2, e2, r2, f2, hp2⟩ := ih (upd m i p0.nvar) p1 (fun j hj => hl j (List.mem_cons_of_mem _ hj))
      (by intro j hj; simp only [upd]; split_ifs; · exact le_rfl
          · exact hm j hj) r1 f1
    have em : (fun j => if j ∈ l then p0.nvar else upd m i p0.nvar j) =
        (fun j => if j ∈ i :: l then p0.nvar else m j) := by
      funext j
      simp only [upd, List.mem_cons]
      by_cases h1 : j ∈ l <;> by_cases h2 : j = i <;> simp [h1, h2]
    rw [em] at r2 f2
    refine ⟨p2, ?_, r2, f2, by rw [hp2, hp1]⟩
    rw [List.foldlM_cons]
    simp only [hs, Option.bind_eq_bind, Option.bind_some, hps.dim, h.nvar, e1]
    exact e2

theorem PadRel.congr {m' : Nat → Nat} (hp : p0.InputOK) (h : PadRel p0 m p)
    (hm : ∀ i < p0.stmts.length, m i = m' i) : PadRel p0 m' p := by
  refine ⟨h.nvar, h.npar, ?_, ?_⟩
  · intro i
    by_cases hi : i < p0.stmts.length
    · rw [← hm i hi]; exact h.stmts i
    · have := h.stmts i
      rw [List.getElem?_eq_none (by omega), List.getElem?_eq_none (by rw [h.len]; omega)]
      exact .none
  · have := List.forall₂_iff_get.mp h.deps
    rw [List.forall₂_iff_get]
    refine ⟨this.1, fun k hk1 hk2 => ?_⟩
    obtain ⟨a1, a2, a3, a4⟩ := this.2 k hk1 hk2
    obtain ⟨b1, b2, _⟩ := hp.deps (p0.deps.get ⟨k, hk1⟩) (List.get_mem _ _)
    refine ⟨a1, a2, a3, ?_⟩
    rw [← hm _ b1, ← hm _ b2]; exact a4

theorem PadRel.dep_mem (h : PadRel p0 m p) {d : Dep} (hd : d ∈ p.deps) : ∃ d0 ∈ p0.deps, PadDep p0 m d0 d := by
  obtain ⟨k, hk, rfl⟩ := List.getElem_of_mem hd
  have := List.forall₂_iff_get.mp h.deps
  have hk' : k < p0.deps.length := by rw [this.1]; exact hk
  exact ⟨_, List.getElem_mem hk', this.2 k hk' hk⟩

theorem front_ncols (c : Cst) (n : Nat) : (fmEliminateFront c n).ncols = c.ncols - n := by
  induction n generalizing c with
  | zero => rfl
  | succ n ih =>
    unfold fmEliminateFront
    rw [ih, fmEliminate_ncols]; omega

theorem context_some (npar limit : Nat) (sts : List Stmt)
    (h : ∀ st ∈ sts, st.domain.ncols = st.dimOrig + npar + 1) :
    ∀ count acc, ∃ rows, paramContextRows npar limit sts count acc = some rows := by
  induction sts with
  | nil => intro count acc; exact ⟨acc, rfl⟩
  | cons st sts ih =>
    intro count acc
    unfold paramContextRows
    simp only
    rw [if_neg (by rw [front_ncols, h st List.mem_cons_self]; omega)]
    split_ifs
    · exact ih (fun s hs => h s (List.mem_cons_of_mem _ hs)) _ _
    · exact ⟨acc, rfl⟩

theorem contextBound_ok {npar : Nat} {ctx : Cst} {d : Dep} (hw : d.dpoly.WF)
    (hn : npar + 1 ≤ d.dpoly.ncols) :
    (contextBound npar ctx d).bpoly.WF ∧ (contextBound npar ctx d).bpoly.ncols = d.dpoly.ncols := by
  refine ⟨⟨hw.1, ?_⟩, rfl⟩
  intro r hr
  simp only [contextBound, addCst] at hr ⊢
  rcases List.mem_append.mp hr with h | h
  · exact hw.2 r h
  · obtain ⟨r0, _, rfl⟩ := List.mem_map.mp h
    simp [zrow_length]; omega

theorem addNegParams_ok {d : Dep} (hw : d.bpoly.WF) :
    (addNegParams p d).bpoly.WF ∧ (addNegParams p d).bpoly.ncols = d.bpoly.ncols := by
  refine ⟨⟨hw.1, ?_⟩, rfl⟩
  intro r hr
  simp only [addNegParams] at hr ⊢
  rcases List.mem_append.mp hr with h | h
  · exact hw.2 r h
  · obtain ⟨r0, _, rfl⟩ := List.mem_map.mp h
    simp [zrow_length]

/-- The program handed to `normalize_domains`. -/
def stripped (p : Prog) : Prog :=
  { p with
    stmts := p.stmts.map (fun st => { st with trans := [], hypTypes := [] })
    deps := p.deps.map (fun d => { d with satisfied := false }) }

theorem stripped_rel (hp : p0.InputOK) (f : Dep → Dep)
    (hf : ∀ d, (f d).src = d.src ∧ (f d).dest = d.dest ∧ (f d).rar = d.rar ∧ (f d).dpoly = d.dpoly ∧
      (f d).satisfied = d.satisfied)
    (hb : ∀ d ∈ p0.deps, (f { d with satisfied := false }).bpoly.WF ∧
      (f { d with satisfied := false }).bpoly.ncols = p0.dim d.src + p0.dim d.dest + p0.npar + 1) :
    PadRel p0 p0.dim { stripped p0 with deps := (stripped p0).deps.map f } ∧
    Fresh p0.dim { stripped p0 with deps := (stripped p0).deps.map f } := by
  refine ⟨⟨rfl, rfl, ?_, ?_⟩, ?_, ?_⟩
  · intro i
    simp only [stripped, List.getElem?_map]
    cases hs : p0.stmts[i]? with
    | none => exact .none
    | some st =>
      obtain ⟨a1, a2, a3, a4, a5⟩ := hp.stmts st (List.mem_of_getElem? hs)
      have hd : p0.dim i = st.dim := by simp [Prog.dim, hs]
      refine .some ⟨hd.symm, by omega, rfl, by simp [hd, a3], ?_, [], ?_, by simp⟩
      · rw [hd]; exact a5
      · simp [hd, padRow_same]
  · simp only [stripped, List.map_map]
    rw [List.forall₂_map_right_iff]
    apply List.forall₂_same.mpr
    intro d _
    obtain ⟨b1, b2, b3, b4, _⟩ := hf { d with satisfied := false }
    refine ⟨b1, b2, b3, ?_⟩
    rw [padCst_same]; exact b4
  · intro st hst
    simp only [stripped] at hst
    obtain ⟨s, _, rfl⟩ := List.mem_map.mp hst
    exact ⟨rfl, rfl⟩
  · intro d hd
    simp only [stripped, List.map_map] at hd
    obtain ⟨d, hm, rfl⟩ := List.mem_map.mp hd
    obtain ⟨b1, b2, b3, b4, b5⟩ := hf { d with satisfied := false }
    obtain ⟨c1, c2⟩ := hb d hm
    simp only [Function.comp]
    refine ⟨by rw [b5], c1, ?_⟩
    rw [c2, b1, b2]; rfl

theorem normalize_spec (hp : p0.InputOK) :
    ∃ p', normalizeDomains (stripped p0) = some p' ∧ PadRel p0 (fun _ => p0.nvar) p' ∧
      Fresh (fun _ => p0.nvar) p' ∧ p'.hProps = p0.hProps := by
  have hdim : ∀ i < p0.stmts.length, p0.dim i ≤ p0.nvar := by
    intro i hi
    have := (hp.stmts _ (List.getElem_mem hi)).2.1
    simpa [Prog.dim, List.getElem?_eq_getElem hi] using this
  -- context
  obtain ⟨p1, e1, r1, f1, h1⟩ : ∃ p1, addContext (stripped p0) = some p1 ∧ PadRel p0 p0.dim p1 ∧
      Fresh p0.dim p1 ∧ p1.hProps = p0.hProps := by
    unfold addContext
    split_ifs with hn
    · obtain ⟨rows, hr⟩ := context_some (stripped p0).npar ((stripped p0).stmts.length * (stripped p0).npar)
        (stripped p0).stmts (by
          intro st hst
          simp only [stripped] at hst ⊢
          obtain ⟨s, hs, rfl⟩ := List.mem_map.mp hst
          obtain ⟨a1, _, _, _, a5⟩ := hp.stmts s hs
          rw [a1] at a5
          exact a5) 0 []
      simp only [hr, Option.bind_eq_bind, Option.bind_some, Option.pure_def]
      have := stripped_rel hp (contextBound (stripped p0).npar (simplify ⟨(stripped p0).npar + 1, rows⟩))
        (fun d => ⟨rfl, rfl, rfl, rfl, rfl⟩) (by
          intro d hd
          obtain ⟨_, _, a3, _⟩ := hp.deps d hd
          have := contextBound_ok (npar := (stripped p0).npar)
            (ctx := simplify ⟨(stripped p0).npar + 1, rows⟩) (d := { d with satisfied := false }) a3.wf
            (by have := a3.cols; simp only [stripped]; omega)
          refine ⟨this.1, ?_⟩
          rw [this.2]; exact a3.cols)
      exact ⟨_, rfl, this.1, this.2, rfl⟩
    · have := stripped_rel hp id (fun d => ⟨rfl, rfl, rfl, rfl, rfl⟩) (by
          intro d hd
          obtain ⟨_, _, _, a4, a5⟩ := hp.deps d hd
          exact ⟨a4, a5⟩)
      rw [List.map_id] at this
      exact ⟨_, rfl, this.1, this.2, rfl⟩
  obtain ⟨p2, e2, r2, f2, h2⟩ := padAll_spec hp (List.range p0.stmts.length) p0.dim p1
    (fun i hi => List.mem_range.mp hi) hdim r1 f1
  have hm : ∀ i < p0.stmts.length, (fun i => if i ∈ List.range p0.stmts.length then p0.nvar else p0.dim i) i =
      (fun _ => p0.nvar) i := by
    intro i hi
    simp [hi]
  have r3 := r2.congr hp hm
  have hall : p2.deps.all (fun d => decide (d.dpoly.ncols = dimOf p2 d.src + dimOf p2 d.dest + p2.npar + 1)) := by
    rw [List.all_eq_true]
    intro d hd
    obtain ⟨d0, h0, a1, a2, a3, a4⟩ := r3.dep_mem hd
    obtain ⟨b1, b2, b3, _⟩ := hp.deps d0 h0
    have c1 := hdim _ b1
    have c2 := hdim _ b2
    have c3 := b3.cols
    rw [decide_eq_true_eq, a1, a2, r3.dimOf b1, r3.dimOf b2, r3.npar, a4]
    simp only [padCst]
    omega
  have f3 : ∀ d ∈ p2.deps, d.satisfied = false ∧ d.bpoly.WF ∧
      d.bpoly.ncols = p0.nvar + p0.nvar + p2.npar + 1 := by
    intro d hd
    obtain ⟨a1, a2, a3⟩ := f2.deps d hd
    refine ⟨a1, a2, ?_⟩
    obtain ⟨d0, h0, b⟩ := r3.dep_mem hd
    obtain ⟨b1, b2, _⟩ := hp.deps d0 h0
    rw [a3, b.src, b.dest]
    simp [b1, b2]
  refine ⟨{ p2 with deps := p2.deps.map (addNegParams p2) }, ?_, ⟨r3.nvar, r3.npar, r3.stmts, ?_⟩,
    ⟨f2.trans, ?_⟩, by rw [← h1, ← h2]⟩
  · unfold normalizeDomains
    simp only [e1, Option.bind_eq_bind, Option.bind_some]
    rw [r1.len]
    simp only [Option.bind_eq_bind] at e2
    rw [e2]
    simp only [Option.bind_some]
    rw [if_pos hall]
    rfl
  · rw [List.forall₂_map_right_iff]
    exact r3.deps.imp (fun a b h => ⟨h.src, h.dest, h.rar, h.poly⟩)
  · intro d hd
    obtain ⟨d, hm', rfl⟩ := List.mem_map.mp hd
    obtain ⟨a1, a2, a3⟩ := f3 d hm'
    obtain ⟨b1, b2⟩ := addNegParams_ok (p := p2) a2
    exact ⟨a1, b1, by rw [b2, a3]⟩

end Pluto
