import Verif.Lemmas.DfpEnd

/-! The result of the search with `--dfp`. -/

namespace Pluto

theorem dot_single (r : List Int) (x : List Int) (j : Nat) (hl : r.length = x.length)
    (h : ∀ j' < r.length, j' ≠ j → coef r j' = 0) : dot r x = coef r j * coef x j := by
  induction r generalizing x j with
  | nil => simp [dot, coef]
  | cons a r ih =>
    cases x with
    | nil => simp at hl
    | cons y x =>
      simp only [List.length_cons, Nat.add_right_cancel_iff] at hl
      cases j with
      | zero =>
        have : dot r x = 0 := by
          apply dot_all_zero
          intro v hv
          obtain ⟨i, hi, rfl⟩ := List.getElem_of_mem hv
          have := h (i + 1) (by simpa using hi) (by omega)
          simpa [coef, hi] using this
        simp [dot, coef, this]
      | succ j =>
        have h0 := h 0 (by simp) (by omega)
        have := ih x j hl (fun j' hj' hne => by
          have := h (j' + 1) (by simpa using hj') (by omega)
          simpa [coef] using this)
        simp only [coef, List.getD_cons_zero, List.getD_cons_succ] at h0 this ⊢
        rw [dot, h0, this]
        simp

theorem loopRow_aff {n : Nat} {r : List Int} {j : Nat} (h : LoopRow n r j) (hj : j < n) {x y v : List Int} (hr : n ≤ r.length)
    (hx : x.length = n) (hy : y.length = n) (he : aff r (x ++ v) = aff r (y ++ v)) : coef x j = coef y j := by
  have split : ∀ z : List Int, z.length = n → aff r (z ++ v) = coef r j * coef z j + dot (r.drop n) (v ++ [1]) := by
    intro z hz
    unfold aff
    conv_lhs => rw [← List.take_append_drop n r, List.append_assoc]
    rw [dot_append _ _ _ _ (by rw [List.length_take]; omega)]
    have hc : ∀ j' < n, coef (r.take n) j' = coef r j' := by
      intro j' hj'
      unfold coef
      rw [List.getD_eq_getElem?_getD, List.getD_eq_getElem?_getD, List.getElem?_take_of_lt hj']
    rw [dot_single (r.take n) z j (by rw [List.length_take]; omega) (by
      intro j' hj' hne
      rw [List.length_take] at hj'
      rw [hc j' (by omega)]
      exact h.2 j' (by omega) hne), hc j hj]
  rw [split x hx, split y hy] at he
  have := h.1
  exact Int.eq_of_mul_eq_mul_left (by omega) (by linarith : coef r j * coef x j = coef r j * coef y j)

theorem coef_cutRow {d e j : Nat} {r : List Int} (hj : j < d) (hr : d ≤ r.length) : coef (cutRow d e r) j = coef r j := by
  unfold coef cutRow
  rw [List.getD_eq_getElem?_getD, List.getD_eq_getElem?_getD,
    List.getElem?_append_left (by rw [List.length_take]; omega), List.getElem?_take_of_lt hj]

/-! `denormalize_domains` keeps the satisfaction flags. -/

def flags (p : Prog) : List Bool := p.deps.map (·.satisfied)

theorem depRemoveDim_flag (p : Prog) (i pos : Nat) (d : Dep) : (depRemoveDim p i pos d).satisfied = d.satisfied := by
  unfold depRemoveDim
  dsimp only
  split_ifs <;> rfl

theorem removeDim_flags {p p' : Prog} {i pos : Nat} (h : stmtRemoveDim p i pos = some p') : flags p' = flags p := by
  unfold stmtRemoveDim at h
  rw [Option.bind_eq_bind, Option.bind_eq_some_iff] at h
  obtain ⟨st, _, h⟩ := h
  split_ifs at h
  simp only [Option.pure_def, Option.some.injEq] at h
  rw [← h]
  simp only [flags, List.map_map]
  apply List.map_congr_left
  intro d _
  exact depRemoveDim_flag _ _ _ _

theorem unpadStmt_flags {i : Nat} : ∀ (n : Nat) (p : Prog) (pos : Nat) (p' : Prog), unpadStmt p i n pos = some p' → flags p' = flags p := by
  intro n
  induction n with
  | zero =>
    intro p pos p' h
    simp only [unpadStmt, Option.some.injEq] at h
    rw [h]
  | succ n ih =>
    intro p pos p' h
    rw [unpadStmt, Option.bind_eq_bind, Option.bind_eq_some_iff] at h
    obtain ⟨st, _, h⟩ := h
    rw [Option.bind_eq_bind, Option.bind_eq_some_iff] at h
    obtain ⟨b, _, h⟩ := h
    split_ifs at h
    · exact ih _ _ _ h
    · rw [Option.bind_eq_bind, Option.bind_eq_some_iff] at h
      obtain ⟨p1, h1, h⟩ := h
      rw [ih _ _ _ h, removeDim_flags h1]

theorem denormalizeStmt_flags {i : Nat} {p p' : Prog} (h : denormalizeStmt p i = some p') : flags p' = flags p := by
  unfold denormalizeStmt at h
  rw [Option.bind_eq_bind, Option.bind_eq_some_iff] at h
  obtain ⟨p1, h1, h⟩ := h
  rw [Option.bind_eq_bind, Option.bind_eq_some_iff] at h
  obtain ⟨st, _, h⟩ := h
  split_ifs at h
  simp only [Option.pure_def, Option.some.injEq] at h
  rw [← h]
  have : flags p1 = flags p := unpadStmt_flags _ _ _ _ h1
  exact this

theorem denormalize_flags {p p' : Prog} (h : denormalizeDomains p = some p') : flags p' = flags p := by
  unfold denormalizeDomains at h
  generalize List.range p.stmts.length = l at h
  induction l generalizing p with
  | nil =>
    simp only [List.foldlM_nil, Option.pure_def, Option.some.injEq] at h
    rw [h]
  | cons i l ih =>
    rw [List.foldlM_cons, Option.bind_eq_bind, Option.bind_eq_some_iff] at h
    obtain ⟨p1, h1, h⟩ := h
    rw [ih h, denormalizeStmt_flags h1]

/-- The result of a run, in terms of the input, from the state before the padding is removed. -/
theorem run_out {P : Prop} {k p0 q p : Prog} (hp : p0.InputOK) (hi : Inv True k q)
    (hpad : PadRel p0 (fun _ => p0.nvar) q) (hden : denormalizeDomains q = some p)
    (hord : ∀ d ∈ q.deps, d.rar = false → ∀ s t v, q.Inst d s t v → q.LexPos d s t v ∨
      (q.AllNonneg d s t v ∧ DepChain q d.dest d.src))
    (hloop : P → ∀ (i : Nat) (st : Stmt), p0.stmts[i]? = some st → ∀ j < st.dim, ∃ r ∈ rowsAt q i, LoopRow p0.nvar r j) :
    PadRel p0 p0.dim p ∧
    (∀ st ∈ p.stmts, st.trans.length = p.hProps.length ∧ ∀ r ∈ st.trans, r.length = st.dim + p0.npar + 1) ∧
    (∀ (j : Nat) (d : Dep), p0.deps[j]? = some d → d.rar = false → ∀ s t v, p0.Inst d s t v →
      LexBefore (p.timestamp d.src s v) (p.timestamp d.dest t v) ∨
        (p.timestamp d.src s v = p.timestamp d.dest t v ∧ DepChain p0 d.dest d.src ∧
          p.deps[j]?.map (·.satisfied) = some false)) ∧
    (P → ∀ (i : Nat) (st : Stmt), p.stmts[i]? = some st → ∀ j < st.dim, ∃ r ∈ st.trans, LoopRow st.dim r j) := by
  obtain ⟨h2, h3, hu⟩ := unpad_facts hp hi hpad hden
  have hrows : ∀ st' ∈ p.stmts, st'.trans.length = p.hProps.length ∧ ∀ r ∈ st'.trans, r.length = st'.dim + p0.npar + 1 := by
    intro st' hst'
    obtain ⟨i, hil, rfl⟩ := List.getElem_of_mem hst'
    obtain ⟨st, st', u⟩ := hu i (by rw [← h2.len]; exact hil)
    have e := u.getp
    rw [List.getElem?_eq_getElem hil, Option.some.injEq] at e
    rw [e, u.trans, u.dim, h3, List.length_map]
    refine ⟨u.len, ?_⟩
    intro r hr
    obtain ⟨r0, hr0, rfl⟩ := List.mem_map.mp hr
    have := u.row r0 hr0
    have := u.le
    simp only [cutRow, List.length_append, List.length_take, List.length_drop]
    omega
  refine ⟨h2, hrows, ?_, ?_⟩
  · intro j d0 hj0 hr s t v hinst
    obtain ⟨hj, rfl⟩ := List.getElem?_eq_some_iff.mp hj0
    have h0 := List.getElem_mem hj
    have hf := List.forall₂_iff_get.mp hpad.deps
    have hj' : j < q.deps.length := by rw [← hf.1]; exact hj
    have hpd := hf.2 j hj hj'
    simp only [List.get_eq_getElem] at hpd
    have hdm := List.getElem_mem hj'
    have hr' : (q.deps[j]).rar = false := by rw [hpd.rar]; exact hr
    have hinst' := inst_pad hp hpad h0 hpd hinst
    obtain ⟨a1, a2, _⟩ := hp.deps _ h0
    have val : ∀ (i : Nat) (x : List Int), i < p0.stmts.length → x.length = p0.dim i → ∀ l < q.hProps.length,
        (p.timestamp i x v)[l]? = some (q.phi i l (x ++ zrow (p0.nvar - p0.dim i)) v) := by
      intro i x hi0 hx l hl
      rw [← unpad_phi hp hi hpad hden hi0 hl hx hinst.hp]
      obtain ⟨st, st', u⟩ := hu i hi0
      have hl' : l < st'.trans.length := by rw [u.trans, List.length_map, u.len]; exact hl
      unfold Prog.timestamp Prog.phi Prog.row
      rw [u.getp]
      simp only [Option.map_some, Option.getD_some, List.getElem?_map, Option.bind_some, List.getElem?_eq_getElem hl']
    have tlen : ∀ (i : Nat) (x : List Int), i < p0.stmts.length → (p.timestamp i x v).length = q.hProps.length := by
      intro i x hi0
      obtain ⟨st, st', u⟩ := hu i hi0
      unfold Prog.timestamp
      rw [u.getp]
      simp [u.trans, u.len]
    have ofPos : q.LexPos q.deps[j] (s ++ zrow (p0.nvar - p0.dim q.deps[j].src)) (t ++ zrow (p0.nvar - p0.dim q.deps[j].dest)) v →
        LexBefore (p.timestamp p0.deps[j].src s v) (p.timestamp p0.deps[j].dest t v) := by
      rintro ⟨l, hl, hc, hle⟩
      simp only [Prog.comp, hpd.src, hpd.dest] at hc hle
      refine lexBefore_of _ _ (val _ s a1 hinst.hs) (val _ t a2 hinst.ht) l hl ?_ ?_
      · omega
      · intro l' hl'
        have := hle l' hl'
        omega
    rcases hi.legal trivial _ hdm hr' _ _ _ hinst' with hx | hx
    · exact .inl (ofPos hx)
    rcases hord _ hdm hr' _ _ _ hinst' with hy | hy
    · exact .inl (ofPos hy)
    by_cases hz : ∀ l < q.hProps.length, q.comp q.deps[j] l (s ++ zrow (p0.nvar - p0.dim q.deps[j].src))
        (t ++ zrow (p0.nvar - p0.dim q.deps[j].dest)) v = 0
    · right
      refine ⟨?_, ?_, ?_⟩
      · apply List.ext_getElem?
        intro l
        by_cases hl : l < q.hProps.length
        · rw [val _ s a1 hinst.hs l hl, val _ t a2 hinst.ht l hl]
          have := hz l hl
          simp only [Prog.comp, hpd.src, hpd.dest] at this
          rw [Option.some.injEq]
          omega
        · rw [List.getElem?_eq_none (by rw [tlen _ _ a1]; omega), List.getElem?_eq_none (by rw [tlen _ _ a2]; omega)]
      · rw [hpd.src, hpd.dest] at hy
        refine Relation.ReflTransGen.mono ?_ _ _ hy.2
        rintro a b ⟨d', hd', e1, e2, e3⟩
        obtain ⟨d'', hd'', hpd'⟩ := hpad.dep_mem hd'
        exact ⟨d'', hd'', by rw [← hpd'.rar]; exact e1, by rw [← hpd'.src]; exact e2, by rw [← hpd'.dest]; exact e3⟩
      · have e : flags p = flags q := denormalize_flags hden
        have := congrArg (fun l => l[j]?) e
        simp only [flags, List.getElem?_map] at this
        rw [this, List.getElem?_eq_getElem hj', Option.map_some, hx.1]
    · left
      push Not at hz
      obtain ⟨l, hl, hc⟩ := hz
      refine ofPos ⟨l, hl, ?_, fun l' hl' => hx.2 l' (by omega)⟩
      have := hx.2 l hl
      omega
  · intro hpos i st' hst' j hj
    have hil := (List.getElem?_eq_some_iff.mp hst').1
    have hi0 : i < p0.stmts.length := by rw [← h2.len]; exact hil
    obtain ⟨st, st'', u⟩ := hu i hi0
    rw [u.getp, Option.some.injEq] at hst'
    subst hst'
    have hd : p0.dim i = p0.stmts[i].dim := Prog.dim_of (List.getElem?_eq_getElem hi0)
    rw [u.dim] at hj ⊢
    obtain ⟨r, hr, hl⟩ := hloop hpos i _ (List.getElem?_eq_getElem hi0) j (by rw [← hd]; exact hj)
    have hr : r ∈ st.trans := by simpa [rowsAt, u.getq] using hr
    have hlen := u.row r hr
    have hle := u.le
    refine ⟨cutRow (p0.dim i) p0.nvar r, by rw [u.trans]; exact List.mem_map_of_mem hr, ?_, ?_⟩
    · rw [coef_cutRow hj (by omega)]
      exact hl.1
    · intro j' hj' hne
      rw [coef_cutRow hj' (by omega)]
      exact hl.2 j' (by omega) hne

/-- The result of a run, in terms of the input. -/
theorem dfp_out {o : AutoOpts} {delayedCut : Bool} {L : Libs} {lex : Lex} (hE : EmptyOracle L.isEmpty) {d0 : DfsState} {p0 p : Prog} (hL : LexScales p0 lex)
    {fcgOf : Auto → List Nat → Nat → Graph} (hF : FcgOracle fcgOf) {skew : Auto → Option Auto} (hS : ∀ k, LexScales k lex → SkewKeeps k skew) (hp : p0.InputOK)
    (hne : p0.stmts ≠ []) (h : dfpTransform o delayedCut L lex fcgOf skew d0 p0 = some p) :
    PadRel p0 p0.dim p ∧
    (∀ st ∈ p.stmts, st.trans.length = p.hProps.length ∧ ∀ r ∈ st.trans, r.length = st.dim + p0.npar + 1) ∧
    (∀ (j : Nat) (d : Dep), p0.deps[j]? = some d → d.rar = false → ∀ s t v, p0.Inst d s t v →
      LexBefore (p.timestamp d.src s v) (p.timestamp d.dest t v) ∨
        (p.timestamp d.src s v = p.timestamp d.dest t v ∧ DepChain p0 d.dest d.src ∧
          p.deps[j]?.map (·.satisfied) = some false)) ∧
    ((∀ st ∈ p0.stmts, 0 < st.dim) → ∀ (i : Nat) (st : Stmt), p.stmts[i]? = some st → ∀ j < st.dim,
        ∃ r ∈ st.trans, LoopRow st.dim r j) := by
  obtain ⟨k, q, _, hi, hpad, hden, hord, hloop⟩ := dfp_run hE hL hF hS hp hne h
  exact run_out hp hi hpad hden hord hloop

end Pluto
