import Verif.Lemmas.Fusion
import Verif.Lemmas.PrecutRead

/-! Fusion options: `--nofuse` together with files. -/

namespace Pluto

section
variable {p0 : Prog} {o : AutoOpts} {L : Libs}

theorem update_depEdge {g : Graph} {p : Prog} (hpad : PadRel p0 (fun _ => p0.nvar) p) {i j : Nat} (h : (ddgUpdate g p).Edge i j) :
    p0.DepEdge i j := by
  obtain ⟨_, _, h⟩ := h
  rw [(C47_weight p g i j).2.1] at h
  obtain ⟨d, hd, hh⟩ := List.countP_pos_iff.mp (Nat.pos_of_ne_zero h)
  simp only [Bool.and_eq_true, beq_iff_eq, Bool.not_eq_true'] at hh
  obtain ⟨d1, hd1, hpd⟩ := hpad.dep_mem hd
  exact ⟨d1, hd1, hpd.rar.symm.trans hh.1.2, hpd.src.symm.trans hh.1.1.1, hpd.dest.symm.trans hh.1.1.2⟩

theorem updateLevels_edges {k : Prog} (hE : EmptyOracle L.isEmpty) (hk : SkelOK k) (hpad : ∀ q, skel q = k → PadRel p0 (fun _ => p0.nvar) q)
    (n : Nat) : ∀ (a a' : Auto) (l : Nat), Inv True k a.p → l + n ≤ a.p.hProps.length → (∀ i j, a.g.Edge i j → p0.DepEdge i j) →
      updateLevels L.isEmpty a l n = some a' → ∀ i j, a'.g.Edge i j → p0.DepEdge i j := by
  induction n with
  | zero =>
    intro a a' l _ _ he h
    simp only [updateLevels, Option.some.injEq] at h
    rw [← h]
    exact he
  | succ n ih =>
    intro a a' l hi hl he h
    simp only [updateLevels, Option.bind_eq_bind, Option.bind_eq_some_iff] at h
    obtain ⟨⟨p, m⟩, h1, h2⟩ := h
    obtain ⟨i1, i2, _, _⟩ := hi.update hE hk (by omega) h1
    refine ih _ a' (l + 1) i1 ?_ (fun i j h => update_depEdge (hpad p i1.sk) h) h2
    have : p.hProps = a.p.hProps := by rw [i2]
    show _ ≤ p.hProps.length
    rw [this]
    omega

theorem reach_depends {g : Graph} (he : ∀ i j, g.Edge i j → p0.DepEdge i j) {i j : Nat} (h : g.Reach i j) : p0.DependsOn j i :=
  Relation.ReflTransGen.mono he _ _ h

/-- With `--nofuse`, the rows of the file are followed by a row that distributes. -/
theorem files_nofuse (F : CutFiles) (hE : EmptyOracle L.isEmpty) (hL : FeasibleOracle L.solve)
    (fuel : Nat) (d0 : DfsState) (p : Prog) (hp : p0.InputOK) (ho : o.fuse = .no)
    {m : Nat} {R : Nat → List (List Int)} (hF : FileGives L.isEmpty F p0 m R) (hR : RowsFit p0 R)
    (hleg : ∀ d ∈ p0.deps, d.rar = false → ∀ s t q, p0.Inst d s t q →
      ¬ LexBefore (rowTime p0 R d.dest t q) (rowTime p0 R d.src s q))
    (h2 : ∃ i < p0.stmts.length, ∃ j < p0.stmts.length, ¬ p0.Mutual i j)
    (h : autoTransformFiles o L noDiamond F fuel d0 p0 = some (.success p)) :
    ∃ c : Nat → Int, (∀ i < p0.stmts.length, ∀ j < p0.stmts.length, c i = c j → p0.Mutual i j) ∧
      ∀ i < p0.stmts.length, ∀ x q : List Int, x.length = p0.dim i → q.length = p0.npar →
        rowTime p0 R i x q ++ [c i] <+: p.timestamp i x q := by
  obtain ⟨i0, hi0, j0, hj0, hij⟩ := h2
  have hne : p0.stmts ≠ [] := by
    intro e
    rw [e] at hi0
    simp at hi0
  unfold autoTransformFiles at h
  simp only [Option.bind_eq_bind, Option.bind_eq_some_iff] at h
  obtain ⟨a, h1, h⟩ := h
  rw [if_neg hne, Option.bind_eq_some_iff] at h
  obtain ⟨s, h2, h⟩ := h
  rw [Option.bind_eq_some_iff] at h
  obtain ⟨r, h3, h⟩ := h
  obtain ⟨p3, hc, m2, m3, m4, hse, hs⟩ := initFiles_state (X := True) hp h1 h2
  have hk := pad_skelOK hp m2 m3
  have ha : AInv True (skel p3) s.a ∧ (∀ i st, s.a.p.stmts[i]? = some st → st.trans = R i) ∧ ∀ i j, s.a.g.Edge i j → p0.DepEdge i j := by
    rcases hs with ⟨a', e1, e2⟩ | ⟨e1, _⟩
    · obtain ⟨p4, a'', e3, hG, hu⟩ := hF _ _ m2 m3 m4 e1
      rw [Option.some.injEq] at e3
      subst e3
      rw [e2]
      refine ⟨(given_state hE hp hk hc m2 m3 hG hR (fun _ => hleg) hu).1, ?_, ?_⟩
      · intro i st hst
        rw [updateLevels_stmts m _ _ _ hu] at hst
        exact hG.trans i st hst
      · refine updateLevels_edges hE hk (fun q hq => m2.skel hq) m _ _ 0 (hG.inv (X := True) hp m2 m3 hR (fun _ => hleg)) ?_ ?_ hu
        · show 0 + m ≤ p4.hProps.length
          rw [hG.hlen]
          omega
        · intro i j he
          have he : a.g.Edge i j := he
          rw [(scc_facts h1).2.1] at he
          exact (unsat_edge hp i j).mp he
    · obtain ⟨_, _, e3, _⟩ := hF _ _ m2 m3 m4 e1
      cases e3
  obtain ⟨hA, hT, hG⟩ := ha
  have hcut : ∃ c : Nat → Int, (∀ i < p0.stmts.length, ∀ j < p0.stmts.length, c i = c j → p0.Mutual i j) ∧
      ∀ a2, noFuseCut o L s.a = some a2 → KeepsRows (fun i => R i ++ splitRows p0 c i) a2.p := by
    unfold noFuseCut
    rw [if_pos ho]
    cases hb : s.a.computeScc with
    | none =>
      refine ⟨fun i => i, fun i hi j hj e => ?_, fun a2 h => by simp at h⟩
      have : i = j := by simpa using e
      subst this
      exact ⟨.refl, .refl⟩
    | some b =>
      obtain ⟨e1, e2, st, hs', e3, e4⟩ := computeScc_eq hb
      obtain ⟨st', hs'', g1, g2, g3⟩ := C14_scc s.a.g s.a.d
      rw [hs'] at hs''
      cases hs''
      have hlen : s.a.g.n = p0.stmts.length := by
        rw [hA.gn, (m2.skel hA.inv.sk).len]
      have hsame : ∀ i < p0.stmts.length, ∀ j < p0.stmts.length, b.scc i = b.scc j → p0.Mutual i j := by
        intro i hi j hj e
        rw [← e3, g1 i j (by omega) (by omega)] at e
        exact ⟨reach_depends hG e.2, reach_depends hG e.1⟩
      refine ⟨b.scc, hsame, ?_⟩
      intro a2 h
      simp only [Option.bind_eq_bind, Option.bind_some] at h
      obtain ⟨⟨a3, n⟩, h3, h4⟩ := Option.map_eq_some_iff.mp h
      simp only at h4
      subst h4
      have hcb := computeScc_spec hA hb
      unfold Auto.cutAll at h3
      split_ifs at h3 with hnum
      · exfalso
        apply hij
        apply hsame i0 hi0 j0 hj0
        have r1 := (g3 (st.scc i0)).mpr ⟨i0, by omega, rfl⟩
        have r2 := (g3 (st.scc j0)).mpr ⟨j0, by omega, rfl⟩
        rw [← e4] at hnum
        rw [← e3]
        omega
      · simp only [Option.bind_eq_bind, Option.bind_eq_some_iff, Option.pure_def, Option.some.injEq, Prod.mk.injEq] at h3
        obtain ⟨⟨p2, n2⟩, h5, h6, _⟩ := h3
        rw [← h6]
        obtain ⟨_, e5, _⟩ := scalar_update hE hk hcb (fun i => [b.scc i]) b.scc (fun _ _ => rfl) hcb.mono h5
        intro i st0 hst
        simp only at hst
        rw [e5] at hst
        simp only [addScalarRows, List.getElem?_mapIdx, Option.map_eq_some_iff] at hst
        obtain ⟨st3, hs3, rfl⟩ := hst
        rw [e1] at hs3
        have hpd := m2.skel hA.inv.sk
        simp only
        rw [hT i st3 hs3, e1, hpd.nvar, hpd.npar]
        exact List.prefix_refl _
  obtain ⟨c, hc1, hc2⟩ := hcut
  refine ⟨c, hc1, ?_⟩
  have hl := autoLoop_spec hE hL hk (noDiamond_ok _ hk) fuel s r hA h3
  match r with
  | none => simp at h
  | some (.inr q) =>
    simp only [Option.bind_eq_some_iff] at h
    obtain ⟨_, _, h⟩ := h
    simp at h
  | some (.inl q) =>
    simp only [Option.bind_eq_some_iff] at h
    obtain ⟨p', h4, h⟩ := h
    simp only [Option.pure_def, Option.some.injEq, Outcome.success.injEq] at h
    subst h
    obtain ⟨hi, hsat⟩ := hl.1 q rfl
    have hpq := m2.skel hi.sk
    have hkeep : KeepsRows (fun i => R i ++ splitRows p0 c i) q := autoLoop_first hE hL hk _ fuel s q hA hc2 h3
    have hrow : ∀ st ∈ q.stmts, ∀ r ∈ st.trans, r.length = p0.nvar + p0.npar + 1 := by
      intro st hst r hr
      rw [← hpq.nvar, ← hpq.npar]
      exact ((hi.rows st hst).2 r hr).1
    obtain ⟨p'', d1, _, _, d4⟩ := denormalize_spec hp hpq hrow
    rw [h4, Option.some.injEq] at d1
    subst d1
    intro i hi0 x v hx hv
    obtain ⟨st, g1, _⟩ := hpq.get (List.getElem?_eq_getElem hi0)
    have e := d4 i
    rw [g1, Option.map_some] at e
    obtain ⟨st', k1, k2⟩ := Option.map_eq_some_iff.mp e
    simp only [sched, Prod.mk.injEq] at k2
    have hpre : rowTime p0 (fun i => R i ++ splitRows p0 c i) i x v <+: p'.timestamp i x v := by
      unfold rowTime Prog.timestamp
      rw [k1]
      simp only [Option.map_some, Option.getD_some]
      rw [k2.1, List.map_map]
      exact (hkeep i st g1).map _
    have hsplit : rowTime p0 (fun i => R i ++ splitRows p0 c i) i x v = rowTime p0 R i x v ++ rowTime p0 (splitRows p0 c) i x v := by
      simp [rowTime]
    rw [hsplit, splitRows_time hp _ hi0 hx hv] at hpre
    exact hpre

end

end Pluto
