import Verif.Lemmas.Skew

/-! Runs of the search with `--dfp`, with skewing. -/

namespace Pluto

theorem quietSkew_keeps {o : SearchOpts} {L : Libs} {lex : Lex} (hE : EmptyOracle L.isEmpty) (k : Prog) (hL : LexScales k lex) : SkewKeeps k (quietSkew o L lex) := by
  intro a a' hk hi hg h
  unfold quietSkew at h
  rw [Option.bind_eq_some_iff] at h
  obtain ⟨⟨a1, b⟩, h1, h⟩ := h
  simp only at h
  split_ifs at h with hb
  simp only [Option.some.injEq] at h
  subst h
  obtain ⟨g1, g2, _⟩ := introduceSkew_spec hE hL hk hi hg h1
  obtain ⟨g2, g3⟩ := g2 (by simpa using hb)
  exact ⟨g2, g3, g1⟩

/-- The last step keeps the shape of schedules. -/
theorem dfpEnd_shape {k : Prog} {L : Libs} (hE : EmptyOracle L.isEmpty) (hk : SkelOK k) {a a' : Auto} (hi : Inv False k a.p) (hg : a.g.n = a.p.stmts.length)
    (h : dfpEnd L a = some a') : Inv False k a'.p := by
  unfold dfpEnd at h
  simp only [Option.bind_eq_bind] at h
  obtain ⟨p1, h1, h⟩ := Option.bind_eq_some_iff.mp h
  obtain ⟨i1, e1⟩ := satUpdates_inv hE hk (reset_inv hi) _ p1 (le_refl _) h1
  have hst1 : p1.stmts = a.p.stmts := by rw [e1]; rfl
  split_ifs at h with hchk
  · simp only [Option.pure_def, Option.some.injEq] at h
    rw [← h]
    exact i1
  · obtain ⟨a2, h2, h⟩ := Option.bind_eq_some_iff.mp h
    obtain ⟨⟨a3, n⟩, h3, h⟩ := Option.bind_eq_some_iff.mp h
    simp only [Option.pure_def, Option.some.injEq] at h
    subst h
    have hai : AInv False k ({ a with p := p1, g := ddgUpdate a.g p1 } : Auto) := by
      refine ⟨i1, ?_, nofun, edges_update i1.sk⟩
      show a.g.n = p1.stmts.length
      rw [hst1]; exact hg
    exact (cutAll_spec hE hk (computeScc_spec hai h2) h3).1.inv

/-- The shape of the result, with or without skewing. -/
theorem dfp_shape {o : AutoOpts} {delayedCut : Bool} {L : Libs} {lex : Lex} (hE : EmptyOracle L.isEmpty) {d0 : DfsState} {p0 p : Prog} (hL : LexScales p0 lex)
    {fcgOf : Auto → List Nat → Nat → Graph} (hF : FcgOracle fcgOf) (hp : p0.InputOK)
    (hne : p0.stmts ≠ []) (h : dfpTransform o delayedCut L lex fcgOf (dfpSkew o.toSearchOpts L lex) d0 p0 = some p) :
    PadRel p0 p0.dim p ∧ ∀ st ∈ p.stmts, st.trans.length = p.hProps.length ∧ ∀ r ∈ st.trans, r.length = st.dim + p0.npar + 1 := by
  unfold dfpTransform at h
  simp only [Option.bind_eq_bind] at h
  obtain ⟨a, h1, h⟩ := Option.bind_eq_some_iff.mp h
  rw [if_neg hne] at h
  obtain ⟨d, h2, h⟩ := Option.bind_eq_some_iff.mp h
  obtain ⟨d', h3, h⟩ := Option.bind_eq_some_iff.mp h
  obtain ⟨a4, h4, h⟩ := Option.bind_eq_some_iff.mp h
  obtain ⟨a5, h5, h6⟩ := Option.bind_eq_some_iff.mp h
  obtain ⟨k, hk, hb, hpad, hn, hdims⟩ := dfpInit_spec hE hF hp h1 h2
  have hk0 : k.stmts ≠ [] := by
    intro e
    rw [e] at hdims
    exact hne (List.map_eq_nil_iff.mp hdims.symm)
  have hLk := hL.pad (hpad _ hb.inv.inv) hb.inv.inv.sk
  have hF' : ∀ a colour c, skel a.p = k → FcgOK k (fcgOf a colour c) := by
    intro a colour c e
    refine ⟨?_, (hF a colour c).2⟩
    rw [(hF a colour c).1]
    exact fcgSize_skel e
  have hb' := levels_spec hE hLk hk hk0 hF' _ _ _ _ hb h3
  obtain ⟨⟨a4', b⟩, h4', rfl⟩ := Option.map_eq_some_iff.mp h4
  obtain ⟨g1, _, g3, _⟩ := introduceSkew_spec hE hLk hk hb'.inv.inv hb'.inv.gn h4'
  have hi := dfpEnd_shape hE hk g3 g1 h5
  have hpad5 : PadRel p0 (fun _ => p0.nvar) a5.p := hpad _ hi
  obtain ⟨u2, u3, hu⟩ := unpad_facts hp hi hpad5 h6
  refine ⟨u2, ?_⟩
  intro st' hst'
  obtain ⟨i, hil, rfl⟩ := List.getElem_of_mem hst'
  obtain ⟨st, st', u⟩ := hu i (by rw [← u2.len]; exact hil)
  have e := u.getp
  rw [List.getElem?_eq_getElem hil, Option.some.injEq] at e
  rw [e, u.trans, u.dim, u3, List.length_map]
  refine ⟨u.len, ?_⟩
  intro r hr
  obtain ⟨r0, hr0, rfl⟩ := List.mem_map.mp hr
  have := u.row r0 hr0
  have := u.le
  simp only [cutRow, List.length_append, List.length_take, List.length_drop]
  omega

end Pluto
