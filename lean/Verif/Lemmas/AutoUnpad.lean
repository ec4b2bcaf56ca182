import Verif.Lemmas.AutoTypes

/-! The result of the automatic transformation, from the padded program it is computed on. -/

namespace Pluto

/-- Statement `i` before and after unpadding. -/
structure UnpadStmt (p0 q p : Prog) (i : Nat) (st st' : Stmt) : Prop where
  getq : q.stmts[i]? = some st
  getp : p.stmts[i]? = some st'
  trans : st'.trans = st.trans.map (cutRow (p0.dim i) p0.nvar)
  types : st'.hypTypes = st.hypTypes
  dim : st'.dim = p0.dim i
  le : p0.dim i ≤ p0.nvar
  len : st.trans.length = q.hProps.length
  row : ∀ r ∈ st.trans, r.length = p0.nvar + p0.npar + 1
  zero : ∀ r ∈ st.trans, ∀ j, p0.dim i ≤ j → j < p0.nvar → coef r j = 0
  dom : PadDom p0.npar st'.dim st'.dim ((p0.stmts[i]?.map (·.domain)).getD ⟨0, []⟩) st'.domain

section
variable {X : Prop} {p0 q p k : Prog} (hp : p0.InputOK) (hi : Inv X k q) (hpad : PadRel p0 (fun _ => p0.nvar) q)
  (h : denormalizeDomains q = some p)
include hp hi hpad h

theorem unpad_facts : PadRel p0 p0.dim p ∧ p.hProps = q.hProps ∧ ∀ i < p0.stmts.length, ∃ st st', UnpadStmt p0 q p i st st' := by
  have hrow : ∀ st ∈ q.stmts, ∀ r ∈ st.trans, r.length = p0.nvar + p0.npar + 1 := by
    intro st hst r hr
    rw [← hpad.nvar, ← hpad.npar]
    exact ((hi.rows st hst).2 r hr).1
  obtain ⟨p', h1, h2, h3, h4⟩ := denormalize_spec hp hpad hrow
  rw [h, Option.some.injEq] at h1
  subst h1
  refine ⟨h2, h3, fun i hi0 => ?_⟩
  obtain ⟨st, g1, g2⟩ := hpad.get (List.getElem?_eq_getElem hi0)
  obtain ⟨st', g1', g2'⟩ := h2.get (List.getElem?_eq_getElem hi0)
  have hm := List.mem_of_getElem? g1
  obtain ⟨r1, r2⟩ := hi.rows st hm
  have e := h4 i
  rw [g1, g1', Option.map_some, Option.map_some, Option.some.injEq] at e
  simp only [sched, Prod.mk.injEq] at e
  have hd : p0.dim i = p0.stmts[i].dim := Prog.dim_of (List.getElem?_eq_getElem hi0)
  refine ⟨st, st', g1, g1', e.1, e.2, g2'.dim, hpad.ge hi0, r1, hrow st hm, ?_, ?_⟩
  · intro r hr j hj1 hj2
    refine (r2 r hr).2 j ?_ (by rw [hpad.nvar]; exact hj2)
    have := (hp.stmts _ (List.getElem_mem hi0)).1
    rw [g2.orig, ← this, ← hd]
    exact hj1
  · rw [List.getElem?_eq_getElem hi0]
    have := g2'.dom
    rw [← hd, ← g2'.dim] at this
    exact this

theorem unpad_phi {i l : Nat} (hi0 : i < p0.stmts.length) (hl : l < q.hProps.length) {x v : List Int} (hx : x.length = p0.dim i)
    (hv : v.length = p0.npar) : p.phi i l x v = q.phi i l (x ++ zrow (p0.nvar - p0.dim i)) v := by
  obtain ⟨_, _, hu⟩ := unpad_facts hp hi hpad h
  obtain ⟨st, st', u⟩ := hu i hi0
  have hl1 : l < st.trans.length := by rw [u.len]; exact hl
  have hm := List.getElem_mem hl1
  unfold Prog.phi Prog.row
  rw [u.getq, u.getp]
  simp only [Option.bind_some]
  rw [u.trans, List.getElem?_map, List.getElem?_eq_getElem hl1]
  simp only [Option.map_some, Option.getD_some]
  have hle := u.le
  exact aff_cutRow hx (by simp [zrow]; omega) (by rw [u.row _ hm, hv]) (u.zero _ hm)

theorem unpad_ok (hT : Typed q) : p.OK := by
  obtain ⟨h2, h3, hu⟩ := unpad_facts hp hi hpad h
  have hst : ∀ st' ∈ p.stmts, ∃ i st, i < p0.stmts.length ∧ UnpadStmt p0 q p i st st' := by
    intro st' hst'
    obtain ⟨i, hil, rfl⟩ := List.getElem_of_mem hst'
    have hi0 : i < p0.stmts.length := by rw [← h2.len]; exact hil
    obtain ⟨st, st', u⟩ := hu i hi0
    have := u.getp
    rw [List.getElem?_eq_getElem hil, Option.some.injEq] at this
    rw [this]
    exact ⟨i, st, hi0, u⟩
  refine ⟨fun st' hst' => ?_, fun st' hst' => ?_, fun d hd => ?_⟩
  · obtain ⟨i, st, hi0, u⟩ := hst st' hst'
    obtain ⟨_, _, _, i4, i5⟩ := hp.stmts _ (List.getElem_mem hi0)
    have hd : p0.dim i = p0.stmts[i].dim := Prog.dim_of (List.getElem?_eq_getElem hi0)
    rw [h2.npar]
    have hdom := u.dom
    rw [List.getElem?_eq_getElem hi0, Option.map_some, Option.getD_some] at hdom
    refine ⟨⟨?_, ?_⟩, hdom.cols, ?_, ?_⟩
    · rw [hdom.cols]; omega
    · intro r hr
      rw [hdom.cols]
      obtain ⟨ext, he1, he2⟩ := hdom.rows
      rw [he1] at hr
      rcases List.mem_append.mp hr with hr | hr
      · obtain ⟨r0, hr0, rfl⟩ := List.mem_map.mp hr
        simp only [padRow_same]
        rw [i4.2 r0 hr0, i5, u.dim, hd]
      · exact (he2 r hr).2.1
    · intro r hr
      rw [u.trans] at hr
      obtain ⟨r0, hr0, rfl⟩ := List.mem_map.mp hr
      have := u.row r0 hr0
      have := u.le
      simp only [cutRow, List.length_append, List.length_take, List.length_drop, u.dim]
      omega
    · rw [u.types, u.trans, List.length_map]
      exact ((hT st (List.mem_of_getElem? u.getq)).length_eq).symm
  · obtain ⟨i, st, hi0, u⟩ := hst st' hst'
    rw [u.trans, List.length_map, u.len, h3]
  · obtain ⟨d0, hd0, hpd⟩ := h2.dep_mem hd
    obtain ⟨b1, b2, b3, _⟩ := hp.deps d0 hd0
    have hdp : d.dpoly = d0.dpoly := by rw [hpd.poly]; exact padCst_same
    rw [hpd.src, hpd.dest, h2.len]
    refine ⟨b1, b2, ?_⟩
    refine ⟨by rw [hdp]; exact b3.wf, ?_⟩
    rw [hdp, hpd.src, hpd.dest, h2.dim b1, h2.dim b2, h2.npar]
    exact b3.cols

omit hp hi h in
/-- Entries of a row after unpadding. -/
theorem unpad_rowTyped (hT : Typed q) {i l : Nat} {st st' : Stmt} (u : UnpadStmt p0 q p i st st') {r : List Int} {ty : HypType}
    (hr : st'.trans[l]? = some r) (hty : st'.hypTypes[l]? = some ty) :
    (ty = .scalar ↔ ∀ v ∈ r.take st'.dim, v = 0) ∧ ∀ j, st'.dim ≤ j → j < st'.dim + p0.npar → coef r j = 0 := by
  rw [u.trans, List.getElem?_map] at hr
  obtain ⟨r0, hr0, rfl⟩ := Option.map_eq_some_iff.mp hr
  rw [u.types] at hty
  have hm := List.mem_of_getElem? u.getq
  have hf := hT st hm
  rw [List.forall₂_iff_get] at hf
  obtain ⟨hl1, e1⟩ := List.getElem?_eq_some_iff.mp hr0
  obtain ⟨hl2, e2⟩ := List.getElem?_eq_some_iff.mp hty
  have hrt := hf.2 l hl1 hl2
  simp only [List.get_eq_getElem, e1, e2] at hrt
  rw [hpad.nvar, hpad.npar] at hrt
  have hlen := u.row r0 (List.mem_of_getElem? hr0)
  have hle := u.le
  have hz := u.zero r0 (List.mem_of_getElem? hr0)
  rw [u.dim]
  constructor
  · rw [hrt.1, take_zero_iff]
    constructor
    · intro hh j hj
      have := hh j (by omega)
      unfold coef cutRow at *
      rw [List.getD_eq_getElem?_getD] at this ⊢
      rw [List.getElem?_append_left (by simp; omega), List.getElem?_take_of_lt hj]
      exact this
    · intro hh j hj
      by_cases hc : j < p0.dim i
      · have := hh j hc
        unfold coef cutRow at *
        rw [List.getD_eq_getElem?_getD] at this ⊢
        rw [List.getElem?_append_left (by simp; omega), List.getElem?_take_of_lt hc] at this
        exact this
      · exact hz j (by omega) hj
  · intro j hj1 hj2
    have := hrt.2 (j + (p0.nvar - p0.dim i)) (by omega) (by omega)
    unfold coef cutRow at *
    rw [List.getD_eq_getElem?_getD] at this ⊢
    rw [List.getElem?_append_right (by simp; omega), List.getElem?_drop]
    rw [← this]
    congr 2
    simp only [List.length_take]
    omega

theorem unpad_typesRight (hT : Typed q) : TypesRight p := by
  have hok := unpad_ok hp hi hpad h hT
  obtain ⟨h2, h3, hu⟩ := unpad_facts hp hi hpad h
  intro i hil l hl
  obtain ⟨st, st', u⟩ := hu i (by rw [← h2.len]; exact hil)
  have hm := List.mem_of_getElem? u.getp
  have hl1 : l < st'.trans.length := by rw [hok.levels st' hm]; exact hl
  have hl2 : l < st'.hypTypes.length := by rw [(hok.stmts st' hm).types]; exact hl1
  have key := unpad_rowTyped hpad hT u (List.getElem?_eq_getElem hl1) (List.getElem?_eq_getElem hl2)
  unfold Prog.ScalarType Prog.Scalar
  constructor
  · rintro ⟨s1, g1, g2⟩
    rw [u.getp, Option.some.injEq] at g1
    subst g1
    rw [List.getElem?_eq_getElem hl2, Option.some.injEq] at g2
    exact ⟨st', _, u.getp, List.getElem?_eq_getElem hl1, key.1.mp g2⟩
  · rintro ⟨s1, r, g1, g2, g3⟩
    rw [u.getp, Option.some.injEq] at g1
    subst g1
    rw [List.getElem?_eq_getElem hl1, Option.some.injEq] at g2
    subst g2
    exact ⟨st', u.getp, by rw [List.getElem?_eq_getElem hl2, key.1.mpr g3]⟩

theorem unpad_pureScalars (hT : Typed q) : PureScalars p := by
  have hok := unpad_ok hp hi hpad h hT
  obtain ⟨h2, h3, hu⟩ := unpad_facts hp hi hpad h
  rintro i l x v ⟨s1, r, g1, g2, g3⟩ hx hv
  have hil : i < p.stmts.length := (List.getElem?_eq_some_iff.mp g1).1
  obtain ⟨st, st', u⟩ := hu i (by rw [← h2.len]; exact hil)
  obtain rfl : st' = s1 := by rw [u.getp, Option.some.injEq] at g1; exact g1
  have hm := List.mem_of_getElem? u.getp
  obtain ⟨hl1, _⟩ := List.getElem?_eq_some_iff.mp g2
  have hl2 : l < st'.hypTypes.length := by rw [(hok.stmts st' hm).types]; exact hl1
  have key := unpad_rowTyped hpad hT u g2 (List.getElem?_eq_getElem hl2)
  have hlen := (hok.stmts st' hm).trans r (List.mem_of_getElem? g2)
  have hz : ∀ j < st'.dim + p.npar, coef r j = 0 := by
    intro j hj
    by_cases hc : j < st'.dim
    · exact (take_zero_iff r st'.dim).mp g3 j hc
    · exact key.2 j (by omega) (by rw [← h2.npar]; exact hj)
  have hr : r = zrow (st'.dim + p.npar) ++ [coef r (st'.dim + p.npar)] := by
    apply List.ext_getElem?
    intro j
    rcases Nat.lt_trichotomy j (st'.dim + p.npar) with hc | hc | hc
    · rw [List.getElem?_append_left (by simpa [zrow] using hc)]
      have := hz j hc
      unfold coef at this
      rw [List.getD_eq_getElem?_getD, List.getElem?_eq_getElem (by omega)] at this
      rw [List.getElem?_eq_getElem (by omega)]
      simp only [Option.getD_some] at this
      rw [this]
      simp [zrow, hc]
    · subst hc
      rw [List.getElem?_append_right (by simp [zrow])]
      simp only [zrow, List.length_replicate, Nat.sub_self, List.getElem?_cons_zero]
      unfold coef
      rw [List.getD_eq_getElem?_getD, List.getElem?_eq_getElem (by omega)]
      rfl
    · rw [List.getElem?_eq_none (by omega), List.getElem?_eq_none (by simp [zrow]; omega)]
  have hrow : p.row i l = r := by
    unfold Prog.row
    rw [u.getp]
    simp only [Option.bind_some]
    rw [g2]
    rfl
  unfold Prog.phi Prog.const
  rw [hrow]
  rw [Prog.dim_of u.getp] at hx
  conv_lhs => rw [hr]
  rw [aff_scalar _ _ (by rw [List.length_append, hx, hv])]
  conv_rhs => rw [hr]
  simp

theorem unpad_stepwise (hS : Steps q) (hsat : ∀ d ∈ q.deps, d.rar = false → d.satisfied = true) : Stepwise p := by
  obtain ⟨h2, h3, _⟩ := unpad_facts hp hi hpad h
  have f1 := List.forall₂_iff_get.mp hpad.deps
  have f2 := List.forall₂_iff_get.mp h2.deps
  intro d hd hr
  obtain ⟨j, hj, rfl⟩ := List.getElem_of_mem hd
  have hj0 : j < p0.deps.length := by rw [f2.1]; exact hj
  have hjq : j < q.deps.length := by rw [← f1.1]; exact hj0
  have a1 := f1.2 j hj0 hjq
  have a2 := f2.2 j hj0 hj
  simp only [List.get_eq_getElem] at a1 a2
  obtain ⟨b1, b2, _⟩ := hp.deps _ (List.getElem_mem hj0)
  have hrq : q.deps[j].rar = false := by rw [a1.rar, ← a2.rar]; exact hr
  have hdp : p.deps[j].dpoly = p0.deps[j].dpoly := by rw [a2.poly]; exact padCst_same
  have hin : ∀ s t v, p.Inst p.deps[j] s t v → q.Inst q.deps[j] (s ++ zrow (p0.nvar - p0.dim q.deps[j].src))
      (t ++ zrow (p0.nvar - p0.dim q.deps[j].dest)) v ∧ ∀ l < q.hProps.length,
        p.comp p.deps[j] l s t v = q.comp q.deps[j] l (s ++ zrow (p0.nvar - p0.dim q.deps[j].src))
          (t ++ zrow (p0.nvar - p0.dim q.deps[j].dest)) v := by
    intro s t v hx
    have hx0 : p0.Inst p0.deps[j] s t v := by
      unfold Prog.Inst at hx ⊢
      rw [hdp, a2.src, a2.dest, h2.dim b1, h2.dim b2, h2.npar] at hx
      exact hx
    refine ⟨inst_pad hp hpad (List.getElem_mem hj0) a1 hx0, fun l hl => ?_⟩
    unfold Prog.comp
    rw [a1.src, a1.dest, a2.src, a2.dest, unpad_phi hp hi hpad h b1 hl hx0.hs hx0.hp,
      unpad_phi hp hi hpad h b2 hl hx0.ht hx0.hp]
  rw [h3]
  rcases hS _ (List.getElem_mem hjq) hrq with ⟨l0, g0, g1, g2⟩ | ⟨g1, _⟩
  · refine ⟨l0, g0, fun s t v hx => ?_, fun l hl s t v hx => ?_⟩
    · obtain ⟨c1, c2⟩ := hin s t v hx
      rw [c2 l0 g0]
      exact g1 _ _ _ c1
    · obtain ⟨c1, c2⟩ := hin s t v hx
      rw [c2 l (by omega)]
      exact g2 l hl _ _ _ c1
  · rw [hsat _ (List.getElem_mem hjq) hrq] at g1
    cases g1

end

/-- Shape of the result of a successful run. -/
theorem auto_shape (o : AutoOpts) (L : Libs) (hE : EmptyOracle L.isEmpty) (hL : FeasibleOracle L.solve)
    (fuel : Nat) (d0 : DfsState) (p0 p : Prog) (hp : p0.InputOK)
    (h : autoTransform o L noDiamond fuel d0 p0 = some (.success p)) : p.OK ∧ TypesRight p ∧ PureScalars p := by
  by_cases hne : p0.stmts = []
  · have hd : p0.deps = [] := by
      by_contra hc
      obtain ⟨d, hd⟩ := List.exists_mem_of_ne_nil _ hc
      have := (hp.deps d hd).1
      rw [hne] at this
      simp at this
    have hps : p.stmts = [] ∧ p.deps = [] := by
      unfold autoTransform at h
      simp only [Option.bind_eq_bind, Option.bind_eq_some_iff] at h
      obtain ⟨a, _, h⟩ := h
      rw [if_pos hne] at h
      simp only [Option.pure_def, Option.some.injEq, Outcome.success.injEq] at h
      rw [← h]
      simp [hne, hd]
    refine ⟨⟨by rw [hps.1]; simp, by rw [hps.1]; simp, by rw [hps.2]; simp⟩, ?_, ?_⟩
    · intro i hi
      rw [hps.1] at hi
      simp at hi
    · rintro i l x v ⟨st, r, g1, _⟩
      rw [hps.1] at g1
      simp at g1
  · obtain ⟨k, q, _, hi, hpad, _, hden, hT⟩ := auto_keeps (lz := True) (ke := False) o L hE hL (fun h => h.elim) fuel d0 p0 p
      (fun k hk _ => typed_moves hE hk) (fun m p h h0 _ => typed_fresh m p h) hp (.inl trivial) hne h
    exact ⟨unpad_ok hp hi hpad hden hT, unpad_typesRight hp hi hpad hden hT, unpad_pureScalars hp hi hpad hden hT⟩

/-- In EAGER mode every dependence is satisfied by one level. -/
theorem auto_stepwise (o : AutoOpts) (L : Libs) (hE : EmptyOracle L.isEmpty) (hL : FeasibleOracle L.solve)
    (fuel : Nat) (d0 : DfsState) (p0 p : Prog) (hp : p0.InputOK) (hz : EagerAuto o L noDiamond fuel d0 p0)
    (h : autoTransform o L noDiamond fuel d0 p0 = some (.success p)) : Stepwise p := by
  by_cases hne : p0.stmts = []
  · have hps : p.deps = [] := by
      have hd : p0.deps = [] := by
        by_contra hc
        obtain ⟨d, hd⟩ := List.exists_mem_of_ne_nil _ hc
        have := (hp.deps d hd).1
        rw [hne] at this
        simp at this
      unfold autoTransform at h
      simp only [Option.bind_eq_bind, Option.bind_eq_some_iff] at h
      obtain ⟨a, _, h⟩ := h
      rw [if_pos hne] at h
      simp only [Option.pure_def, Option.some.injEq, Outcome.success.injEq] at h
      rw [← h]
      simp [hd]
    intro d hd
    rw [hps] at hd
    simp at hd
  · obtain ⟨k, q, _, hi, hpad, hsat, hden, hS⟩ := auto_keeps (lz := False) (ke := False) o L hE hL (fun h => h.elim) fuel d0 p0 p
      (fun k hk _ => steps_moves hE hk) (fun m p h h0 _ => steps_fresh m p h h0) hp (.inr hz) hne h
    exact unpad_stepwise hp hi hpad hden hS hsat

end Pluto
