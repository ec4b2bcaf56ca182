import Verif.Lemmas.Precut

/-! The automatic transformation that starts from the rows of a file. -/

namespace Pluto

section
variable {p0 : Prog} {o : AutoOpts} {L : Libs}

/-- The state at the beginning of the main loop, before the rows of the file. -/
theorem initFiles_state {X : Prop} {F : CutFiles} (hp : p0.InputOK) {a : Auto} {d0 : DfsState} {s : LoopState} {num : Nat}
    (h1 : (⟨{ p0 with deps := p0.deps.map (fun d => { d with satisfied := false }) },
      ddgCreate { p0 with deps := p0.deps.map (fun d => { d with satisfied := false }) }, d0, fun _ => -1, num⟩ :
        Auto).computeScc = some a)
    (h2 : autoInitFiles o L F a = some s) :
    ∃ p3, CInv X (skel p3) { a with p := p3 } ∧ PadRel p0 (fun _ => p0.nvar) p3 ∧ Fresh (fun _ => p0.nvar) p3 ∧ p3.hProps = [] ∧
      s.eager = true ∧
      ((∃ a', precut L.isEmpty F { a with p := p3 } = some (some a') ∧ s.a = a') ∨
        (precut L.isEmpty F { a with p := p3 } = some none ∧ initCut o L { a with p := p3 } = some s.a)) := by
  obtain ⟨p2, n1, _⟩ := normalize_spec hp
  have hstr : ({ a.p with stmts := a.p.stmts.map (fun st => { st with trans := [], hypTypes := [] }) } : Prog) =
      stripped p0 := by rw [(scc_facts h1).1]; rfl
  have hmax : autoInit { o with fuse := .max } L a = some ⟨{ a with p := { p2 with hProps := [] } }, true, 0, 0, false⟩ := by
    unfold autoInit
    rw [hstr]
    simp [n1, initCut]
  obtain ⟨p3, hc, m2, m3, m4, hcut⟩ := init_state (X := X) hp h1 hmax
  have e3 : ({ a with p := p3 } : Auto) = { a with p := { p2 with hProps := [] } } := by
    have : initCut { o with fuse := .max } L { a with p := p3 } = some { a with p := p3 } := by simp [initCut]
    rw [this, Option.some.injEq] at hcut
    exact hcut
  refine ⟨p3, hc, m2, m3, m4, ?_⟩
  unfold autoInitFiles at h2
  rw [hstr] at h2
  simp only [n1, Option.bind_eq_bind, Option.bind_some, ← e3] at h2
  rw [Option.bind_eq_some_iff] at h2
  obtain ⟨r, h3, h4⟩ := h2
  match r with
  | some a' =>
    simp only [Option.pure_def, Option.some.injEq] at h4
    rw [← h4]
    exact ⟨rfl, .inl ⟨a', h3, rfl⟩⟩
  | none =>
    simp only [Option.bind_eq_some_iff, Option.pure_def, Option.some.injEq] at h4
    obtain ⟨a2, h5, rfl⟩ := h4
    exact ⟨rfl, .inr ⟨h3, h5⟩⟩

/-- What the rows of the files come to: for any state before them, the state after them is that program with
rows `R i` for statement `i` and its dependences tested at these levels. -/
def FileGives (isEmpty : Cst → Bool) (F : CutFiles) (p0 : Prog) (m : Nat) (R : Nat → List (List Int)) : Prop :=
  ∀ (a : Auto) (r : Option Auto), PadRel p0 (fun _ => p0.nvar) a.p → Fresh (fun _ => p0.nvar) a.p → a.p.hProps = [] →
    precut isEmpty F a = some r →
    ∃ p4 a', r = some a' ∧ Given a.p p4 m R ∧ updateLevels isEmpty { a with p := p4 } 0 m = some a'

theorem updateLevels_stmts {isEmpty : Cst → Bool} (n : Nat) : ∀ (a a' : Auto) (l : Nat), updateLevels isEmpty a l n = some a' →
    a'.p.stmts = a.p.stmts := by
  induction n with
  | zero =>
    intro a a' l h
    simp only [updateLevels, Option.some.injEq] at h
    rw [h]
  | succ n ih =>
    intro a a' l h
    simp only [updateLevels, Option.bind_eq_bind, Option.bind_eq_some_iff] at h
    obtain ⟨⟨p, c⟩, h1, h2⟩ := h
    have := ih _ _ _ h2
    rw [this]
    unfold depSatUpdate at h1
    simp only [Option.bind_eq_bind, Option.bind_eq_some_iff, Option.pure_def, Option.some.injEq, Prod.mk.injEq] at h1
    obtain ⟨ds, _, rfl, _⟩ := h1
    rfl

/-- The state after the rows of the file. -/
theorem given_state {X : Prop} (hE : EmptyOracle L.isEmpty) (hp : p0.InputOK) {a a' : Auto} {p3 p4 : Prog} {m : Nat} {R : Nat → List (List Int)}
    (hk : SkelOK (skel p3)) (hc : CInv X (skel p3) { a with p := p3 }) (m2 : PadRel p0 (fun _ => p0.nvar) p3)
    (m3 : Fresh (fun _ => p0.nvar) p3) (hG : Given p3 p4 m R) (hR : RowsFit p0 R)
    (hleg : X → ∀ d ∈ p0.deps, d.rar = false → ∀ s t q, p0.Inst d s t q →
      ¬ LexBefore (rowTime p0 R d.dest t q) (rowTime p0 R d.src s q))
    (hu : updateLevels L.isEmpty { a with p := p4 } 0 m = some a') :
    AInv X (skel p3) a' ∧ KeepsRows R a'.p := by
  have hi := hG.inv (X := X) hp m2 m3 hR hleg
  have hA : AInv X (skel p3) { a with p := p4 } := AInv.sameDeps (a := { a with p := p3 }) hk hc.toAInv hi hG.deps
  refine ⟨updateLevels_spec hE hk m _ _ 0 hi hA.gn (by rw [hG.hlen]; omega) (fun _ => hA) hu, ?_⟩
  intro i st hs
  rw [updateLevels_stmts m _ _ _ hu] at hs
  rw [hG.trans i st hs]

/-- A successful run with files. -/
theorem files_legal (dia : Nat → Prog → Option (Prog × Bool)) (F : CutFiles) (hE : EmptyOracle L.isEmpty) (hL : FeasibleOracle L.solve)
    (fuel : Nat) (d0 : DfsState) (p : Prog) (hp : p0.InputOK) (hdia : ∀ k, SkelOK k → DiaOK True k dia)
    {m : Nat} {R : Nat → List (List Int)} (hF : FileGives L.isEmpty F p0 m R) (hR : RowsFit p0 R)
    (hleg : ∀ d ∈ p0.deps, d.rar = false → ∀ s t q, p0.Inst d s t q →
      ¬ LexBefore (rowTime p0 R d.dest t q) (rowTime p0 R d.src s q))
    (h : autoTransformFiles o L dia F fuel d0 p0 = some (.success p)) (hne : p0.stmts ≠ []) :
    (∀ d ∈ p0.deps, d.rar = false → ∀ s t q, p0.Inst d s t q →
      LexBefore (p.timestamp d.src s q) (p.timestamp d.dest t q)) ∧
    (∀ st ∈ p.stmts, st.trans.length = p.hProps.length ∧ ∀ r ∈ st.trans, r.length = st.dim + p0.npar + 1) ∧
    List.Forall₂ (StmtRestored p0.npar) p0.stmts p.stmts ∧ List.Forall₂ DepRestored p0.deps p.deps ∧
    (dia = noDiamond → ∀ i < p0.stmts.length, ∀ x q : List Int,
      rowTime p0 R i x q <+: p.timestamp i x q) := by
  unfold autoTransformFiles at h
  simp only [Option.bind_eq_bind, Option.bind_eq_some_iff] at h
  obtain ⟨a, h1, h⟩ := h
  rw [if_neg hne, Option.bind_eq_some_iff] at h
  obtain ⟨s, h2, h⟩ := h
  rw [Option.bind_eq_some_iff] at h
  obtain ⟨r, h3, h⟩ := h
  obtain ⟨p3, hc, m2, m3, m4, hse, hs⟩ := initFiles_state (X := True) hp h1 h2
  have hk := pad_skelOK hp m2 m3
  have ha : AInv True (skel p3) s.a ∧ KeepsRows R s.a.p := by
    rcases hs with ⟨a', e1, e2⟩ | ⟨e1, _⟩
    · obtain ⟨p4, a'', e3, hG, hu⟩ := hF _ _ m2 m3 m4 e1
      rw [Option.some.injEq] at e3
      subst e3
      rw [e2]
      exact given_state hE hp hk hc m2 m3 hG hR (fun _ => hleg) hu
    · obtain ⟨_, _, e3, _⟩ := hF _ _ m2 m3 m4 e1
      cases e3
  have hl := autoLoop_spec hE hL hk (hdia _ hk) fuel s r ha.1 h3
  match r with
  | none => simp at h
  | some (.inr q) =>
    simp only [Option.bind_eq_bind, Option.bind_eq_some_iff] at h
    obtain ⟨_, _, h⟩ := h
    simp at h
  | some (.inl q) =>
    simp only [Option.bind_eq_bind, Option.bind_eq_some_iff] at h
    obtain ⟨p', h4, h⟩ := h
    simp only [Option.pure_def, Option.some.injEq, Outcome.success.injEq] at h
    subst h
    obtain ⟨hi, hsat⟩ := hl.1 q rfl
    have hpq := m2.skel hi.sk
    obtain ⟨f1, f2, f3, f4⟩ := final_legal trivial hp hi hpq hsat h4
    obtain ⟨g1, g2⟩ := restored_all hp f1
    refine ⟨f4, f3, g1, g2, ?_⟩
    intro hd i hi0 x v
    subst hd
    have hkeep : KeepsRows R q := autoLoop_keeps hE hL hk (keepsRows_moves L.isEmpty _ R) (fun h => h.elim) fuel s q ha.1 ha.2
      (fun _ => hse) (.inl trivial) h3
    have hrow : ∀ st ∈ q.stmts, ∀ r ∈ st.trans, r.length = p0.nvar + p0.npar + 1 := by
      intro st hst r hr
      rw [← hpq.nvar, ← hpq.npar]
      exact ((hi.rows st hst).2 r hr).1
    obtain ⟨p'', d1, _, _, d4⟩ := denormalize_spec hp hpq hrow
    rw [h4, Option.some.injEq] at d1
    subst d1
    obtain ⟨st, g1, _⟩ := hpq.get (List.getElem?_eq_getElem hi0)
    have e := d4 i
    rw [g1, Option.map_some] at e
    obtain ⟨st', k1, k2⟩ := Option.map_eq_some_iff.mp e
    simp only [sched, Prod.mk.injEq] at k2
    unfold rowTime Prog.timestamp
    rw [k1]
    simp only [Option.map_some, Option.getD_some]
    rw [k2.1, List.map_map]
    exact (hkeep i st g1).map _

/-- A failed run with files. -/
theorem files_restores (dia : Nat → Prog → Option (Prog × Bool)) (F : CutFiles) (hE : EmptyOracle L.isEmpty) (hL : FeasibleOracle L.solve)
    (fuel : Nat) (d0 : DfsState) (p : Prog) (hp : p0.InputOK) (hdia : ∀ k, SkelOK k → DiaOK False k dia)
    (hF : ∀ (a : Auto) (a' : Auto), PadRel p0 (fun _ => p0.nvar) a.p → Fresh (fun _ => p0.nvar) a.p → a.p.hProps = [] →
      precut L.isEmpty F a = some (some a') →
      ∃ p4 m R, RowsFit p0 R ∧ Given a.p p4 m R ∧ updateLevels L.isEmpty { a with p := p4 } 0 m = some a')
    (h : autoTransformFiles o L dia F fuel d0 p0 = some (.failed p)) :
    p.hProps = p0.hProps ∧ p.stmts.map (fun st => (st.trans, st.hypTypes)) = p0.stmts.map (fun st => (st.trans, st.hypTypes)) ∧
    List.Forall₂ (StmtRestored p0.npar) p0.stmts p.stmts ∧ List.Forall₂ DepRestored p0.deps p.deps := by
  unfold autoTransformFiles at h
  simp only [Option.bind_eq_bind, Option.bind_eq_some_iff] at h
  obtain ⟨a, h1, h⟩ := h
  split_ifs at h with hs0
  · simp at h
  · rw [Option.bind_eq_some_iff] at h
    obtain ⟨s, h2, h⟩ := h
    rw [Option.bind_eq_some_iff] at h
    obtain ⟨r, h3, h⟩ := h
    obtain ⟨p3, hc, m2, m3, m4, hse, hs⟩ := initFiles_state (X := False) hp h1 h2
    have hk := pad_skelOK hp m2 m3
    have ha : AInv False (skel p3) s.a := by
      rcases hs with ⟨a', e1, e2⟩ | ⟨_, hcut⟩
      · obtain ⟨p4, m, R, hR, hG, hu⟩ := hF _ _ m2 m3 m4 e1
        rw [e2]
        exact (given_state hE hp hk hc m2 m3 hG hR (fun h => h.elim) hu).1
      · unfold initCut at hcut
        split_ifs at hcut
        · obtain ⟨⟨a2, n⟩, h5, h6⟩ := Option.map_eq_some_iff.mp hcut
          rw [← h6]
          exact (cutDimBased_spec hE hk hc h5).1.toAInv
        · simp only [Option.some.injEq] at hcut
          rw [← hcut]
          exact hc.toAInv
    have hl := autoLoop_spec hE hL hk (hdia _ hk) fuel s r ha h3
    match r with
    | none => simp at h
    | some (.inl q) =>
      simp only [Option.bind_eq_bind, Option.bind_eq_some_iff] at h
      obtain ⟨_, _, h⟩ := h
      simp at h
    | some (.inr q) =>
      simp only [Option.bind_eq_bind, Option.bind_eq_some_iff] at h
      obtain ⟨p', h4, h⟩ := h
      simp only [Option.pure_def, Option.some.injEq, Outcome.failed.injEq] at h
      subst h
      have hi := hl.2 q rfl
      have hq := m2.skel hi.sk
      obtain ⟨p'', g1, g2, g3, g4⟩ := denormalize_spec hp hq (by
        intro st hst r hr
        rw [← hq.nvar, ← hq.npar]
        exact ((hi.rows st hst).2 r hr).1)
      rw [h4, Option.some.injEq] at g1
      subst g1
      obtain ⟨r1, r2⟩ := restored_all hp g2
      have hlen := List.forall₂_iff_get.mp r1
      refine ⟨rfl, ?_, ?_, r2⟩
      · apply List.ext_getElem?
        intro i
        simp only [List.getElem?_map, List.getElem?_zipWith]
        by_cases hi' : i < p0.stmts.length
        · rw [List.getElem?_eq_getElem hi', List.getElem?_eq_getElem (show i < p'.stmts.length by rw [← hlen.1]; exact hi')]
          rfl
        · rw [List.getElem?_eq_none (by omega)]
      · rw [List.forall₂_iff_get]
        refine ⟨by simp [hlen.1], fun i i1 i2 => ?_⟩
        have := hlen.2 i i1 (by rw [← hlen.1]; exact i1)
        simpa [restoreStmt, StmtRestored] using this

end

end Pluto
