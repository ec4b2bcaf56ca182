import Verif.Lemmas.Permute
import Verif.Lemmas.Polyloop

/-! Lemmas about `makeInnermost`. -/

namespace Pluto

theorem isHyperplaneScalar_iff {p : Prog} {l i : Nat} {st : Stmt} (hi : p.stmts[i]? = some st) {b : Bool}
    (h : isHyperplaneScalar st l = some b) : b = true ↔ p.Scalar l i := by
  refine scalarAt_iff (p := p) ?_
  unfold scalarAt
  rw [hi]; exact h

theorem firstScalar_spec {st : Stmt} : ∀ {n d e : Nat}, firstScalar st n d = some e →
    d ≤ e ∧ e ≤ d + n ∧ (∀ l, d ≤ l → l < e → isHyperplaneScalar st l = some false) ∧
    (e < d + n → isHyperplaneScalar st e = some true) := by
  intro n
  induction n with
  | zero =>
    intro d e h
    simp [firstScalar] at h
    subst h
    exact ⟨le_refl _, by omega, by intros; omega, by omega⟩
  | succ n ih =>
    intro d e h
    simp only [firstScalar, Option.bind_eq_bind, Option.bind_eq_some_iff] at h
    obtain ⟨b, h1, h2⟩ := h
    split_ifs at h2 with hb
    · simp only [pure, Option.some.injEq] at h2
      subst h2; subst hb
      exact ⟨le_refl _, by omega, by intros; omega, fun _ => h1⟩
    · obtain ⟨a1, a2, a3, a4⟩ := ih h2
      refine ⟨by omega, by omega, fun l hl hl' => ?_, fun hl => a4 (by omega)⟩
      by_cases e : l = d
      · subst e; rw [h1]; simpa using hb
      · exact a3 l (by omega) hl'

theorem firstScalar_defined {st : Stmt} : ∀ {n d : Nat}, d + n ≤ st.trans.length → (firstScalar st n d).isSome := by
  intro n
  induction n with
  | zero => intros; rfl
  | succ n ih =>
    intro d h
    have hd : d < st.trans.length := by omega
    simp only [firstScalar, isHyperplaneScalar, List.getElem?_eq_getElem hd, Option.bind_eq_bind, Option.bind_some, pure]
    split_ifs
    · rfl
    · exact ih (by omega)

/-- Depth of the innermost level before the first scalar one, for a set of statements. -/
theorem lastDepth_spec {p : Prog} {L : Loop} {last : Nat} (h : lastDepth p L = some last)
    (hns : ∀ i ∈ L.stmts, ¬ p.Scalar L.depth i) (hd : L.depth < p.hProps.length)
    (hlev : ∀ i ∈ L.stmts, ∃ st : Stmt, p.stmts[i]? = some st ∧ st.trans.length = p.hProps.length) :
    L.depth ≤ last ∧ last ≤ p.hProps.length - 1 ∧ ∀ i ∈ L.stmts, ∀ l, L.depth ≤ l → l ≤ last → ¬ p.Scalar l i := by
  have gen : ∀ (S : List Nat) (a r : Nat), (∀ i ∈ S, ¬ p.Scalar L.depth i) →
      (∀ i ∈ S, ∃ st : Stmt, p.stmts[i]? = some st ∧ st.trans.length = p.hProps.length) →
      L.depth ≤ a → S.foldlM (fun last i => do
        let st ← p.stmts[i]?
        let d ← firstScalar st (st.trans.length - L.depth) L.depth
        return if d = 0 then last else min last (d - 1)) a = some r →
      L.depth ≤ r ∧ r ≤ a ∧ ∀ i ∈ S, ∀ l, L.depth ≤ l → l ≤ r → ¬ p.Scalar l i := by
    intro S
    induction S with
    | nil =>
      intro a r _ _ ha h
      simp at h
      subst h
      exact ⟨ha, le_refl _, by simp⟩
    | cons i S ih =>
      intro a r hns hlev ha h
      rw [List.foldlM_cons] at h
      simp only [Option.bind_eq_bind, Option.bind_eq_some_iff] at h
      obtain ⟨a', ⟨st, h1, d, h2, h3⟩, h4⟩ := h
      obtain ⟨b1, b2, b3, b4⟩ := firstScalar_spec h2
      obtain ⟨st', c1, c2⟩ := hlev i (by simp)
      rw [h1] at c1; cases c1
      have hdd : L.depth < d := by
        rcases Nat.lt_or_ge L.depth d with hlt | hge
        · exact hlt
        · exfalso
          have e : d = L.depth := by omega
          subst e
          exact hns i (by simp) ((isHyperplaneScalar_iff h1 (b4 (by omega))).mp rfl)
      rw [if_neg (by omega)] at h3
      simp only [pure, Option.some.injEq] at h3
      obtain ⟨x1, x2, x3⟩ := ih a' r (fun j hj => hns j (by simp [hj])) (fun j hj => hlev j (by simp [hj])) (by omega)
        (by simpa only [Option.bind_eq_bind] using h4)
      refine ⟨x1, by omega, ?_⟩
      intro j hj l hl hl'
      rcases List.mem_cons.mp hj with rfl | hj
      · intro hs
        have := (isHyperplaneScalar_iff h1 (b3 l hl (by omega))).mpr hs
        cases this
      · exact x3 j hj l hl hl'
  exact gen L.stmts _ last hns hlev (by omega) h

theorem lastDepth_defined {p : Prog} {L : Loop}
    (hlev : ∀ i ∈ L.stmts, ∃ st : Stmt, p.stmts[i]? = some st ∧ L.depth ≤ st.trans.length) : (lastDepth p L).isSome := by
  unfold lastDepth
  generalize p.hProps.length - 1 = a
  generalize L.stmts = S at hlev
  induction S generalizing a with
  | nil => rfl
  | cons i S ih =>
    obtain ⟨st, h1, h2⟩ := hlev i (by simp)
    obtain ⟨d, hd⟩ := Option.isSome_iff_exists.mp (firstScalar_defined (st := st) (n := st.trans.length - L.depth) (d := L.depth) (by omega))
    rw [List.foldlM_cons]
    simp only [h1, hd, Option.bind_eq_bind, Option.bind_some, pure]
    exact ih _ (fun j hj => hlev j (by simp [hj]))

/-- A pair that is tied outside a level does not go backwards there. -/
theorem legal_first {p : Prog} (hok : p.OK) (hleg : p.Legal) {d : Dep} (hd : d ∈ p.deps) (hr : d.rar = false)
    {s t q : List Int} (hin : p.Inst d s t q) {l : Nat} (hl : l < p.hProps.length) (ht : p.TiedBelow d l s t q) :
    0 ≤ p.comp d l s t q := by
  obtain ⟨d1, d2, _⟩ := hok.deps d hd
  have gs := List.getElem?_eq_getElem d1
  have gt := List.getElem?_eq_getElem d2
  have ls := hok.levels _ (List.mem_of_getElem? gs)
  have lt := hok.levels _ (List.mem_of_getElem? gt)
  obtain ⟨k, x, y, h1, h2, h3, h4⟩ := hleg d hd hr s t q hin.hs hin.ht hin.hp hin.sat
  have hk : k < p.hProps.length := by
    have := (List.getElem?_eq_some_iff.mp h1).1
    rw [timestamp_eq gs] at this
    simpa [Stmt.time, ls] using this
  rw [timestamp_get gs (by omega)] at h1
  rw [timestamp_get gt (by omega)] at h2
  simp only [Option.some.injEq] at h1 h2
  rcases Nat.lt_trichotomy k l with hlt | rfl | hgt
  · have := ht k hlt
    unfold Prog.comp at this
    omega
  · unfold Prog.comp; omega
  · have := h4 l hgt
    rw [timestamp_get gs (by omega), timestamp_get gt (by omega)] at this
    simp only [Option.some.injEq] at this
    unfold Prog.comp; omega

theorem rotation_split {n m : Nat} {A B : List Nat} (h : rotation n = A ++ m :: B) :
    (m = 0 ∧ ∀ k, 1 ≤ k → k ≤ n → k ∈ A) ∨ (1 ≤ m ∧ m ≤ n ∧ ∀ k, 1 ≤ k → k < m → k ∈ A) := by
  have hm : (rotation n)[A.length]? = some m := by rw [h]; simp
  have hA : ∀ j < A.length, (rotation n)[j]? = A[j]? := by
    intro j hj; rw [h, List.getElem?_append_left hj]
  rw [rotation_get] at hm
  split_ifs at hm with h1 h2
  · simp only [Option.some.injEq] at hm
    right
    refine ⟨by omega, by omega, fun k hk hk' => ?_⟩
    have := hA (k - 1) (by omega)
    rw [rotation_get, if_pos (by omega)] at this
    have e : k - 1 + 1 = k := by omega
    rw [e] at this
    exact List.mem_of_getElem? this.symm
  · simp only [Option.some.injEq] at hm
    left
    refine ⟨hm.symm, fun k hk hk' => ?_⟩
    have := hA (k - 1) (by omega)
    rw [rotation_get, if_pos (by omega)] at this
    have e : k - 1 + 1 = k := by omega
    rw [e] at this
    exact List.mem_of_getElem? this.symm

/-- The schedule after `makeInnermost`: levels from the loop to `last` are rotated in its statements. -/
structure Rotated (p p' : Prog) (S : List Nat) (g n : Nat) : Prop where
  eq : p' = { p with stmts := p'.stmts }
  len : p'.stmts.length = p.stmts.length
  inside : ∀ i ∈ S, ∃ st st', p.stmts[i]? = some st ∧ rotate st g n = some st' ∧ p'.stmts[i]? = some st'
  outside : ∀ i, i ∉ S → p'.stmts[i]? = p.stmts[i]?

theorem Rotated.dim {p p' : Prog} {S : List Nat} {g n : Nat} (h : Rotated p p' S g n) (hok : p.OK) (hg : g + n < p.hProps.length)
    (i : Nat) : p'.dim i = p.dim i := by
  by_cases c : i ∈ S
  · obtain ⟨st, st', h1, h2, h3⟩ := h.inside i c
    have := (rotate_spec (by rw [hok.levels st (List.mem_of_getElem? h1)]; omega) h2).1
    simp only [Prog.dim, h1, h3, Option.map_some]
    rw [this]
  · simp only [Prog.dim, h.outside i c]

theorem Rotated.legal {p p' : Prog} {S : List Nat} {g n : Nat} (h : Rotated p p' S g n) (hok : p.OK) (hleg : p.Legal)
    (hg : g + n < p.hProps.length)
    (hcomp : ∀ d ∈ p.deps, d.rar = false → d.src ∈ S → d.dest ∈ S → ∀ s t q, p.Inst d s t q → p.TiedBelow d g s t q →
      (∀ m ≤ n, 0 ≤ p.comp d (g + m) s t q) ∨ p.comp d g s t q = 0)
    (hsep : Separated p ⟨⟨g, S⟩, n + 1⟩) : p'.Legal := by
  refine permuted_legal hok hleg (rotation_perm n) (by omega) (by rw [h.eq]) (by rw [h.eq]) (h.dim hok hg) ?_ ?_ ?_ hsep
  · intro i hi x q
    obtain ⟨st, st', h1, h2, h3⟩ := h.inside i hi
    rw [timestamp_eq h1, timestamp_eq h3]
    exact rotate_time (by rw [hok.levels st (List.mem_of_getElem? h1)]; omega) h2 x q
  · intro i hi x q
    simp only [Prog.timestamp, h.outside i hi]
  · intro d hd hr h1 h2 s t q hin htied A m B hAB hA
    have hm : m ≤ n := by
      have : m ∈ rotation n := by rw [hAB]; simp
      have := (rotation_perm n).mem_iff.mp this
      simp at this; omega
    rcases hcomp d hd hr h1 h2 s t q hin htied with hc | hc
    · exact hc m hm
    · rcases rotation_split hAB with ⟨rfl, _⟩ | ⟨k1, k2, k3⟩
      · rw [Nat.add_zero, hc]
      · refine legal_first hok hleg hd hr hin (by omega) (fun l hl => ?_)
        rcases Nat.lt_trichotomy l g with hlt | rfl | hgt
        · exact htied l hlt
        · exact hc
        · have := hA (l - g) (k3 (l - g) (by omega) (by omega))
          rwa [show g + (l - g) = l by omega] at this

theorem rotated_of {p p' : Prog} {S : List Nat} {g n : Nat} (hnd : S.Nodup) (h : updStmts p S (fun st => rotate st g n) = some p') :
    Rotated p p' S g n := by
  obtain ⟨h1, h2, h3⟩ := updStmts_spec hnd h
  exact ⟨h1, h2, fun i => (h3 i).1, fun i => (h3 i).2⟩

theorem Rotated.ok {p p' : Prog} {S : List Nat} {g n : Nat} (h : Rotated p p' S g n) (hok : p.OK)
    (hg : g + n < p.hProps.length) : p'.OK := by
  have hst : ∀ st' ∈ p'.stmts, ∃ st ∈ p.stmts, st'.domain = st.domain ∧ st'.dim = st.dim ∧ st'.hypTypes = st.hypTypes ∧
      st'.trans.length = st.trans.length ∧ ∀ r ∈ st'.trans, r ∈ st.trans := by
    intro st' hm
    obtain ⟨i, hi⟩ := List.getElem?_of_mem hm
    by_cases c : i ∈ S
    · obtain ⟨st, st1, h1, h2, h3⟩ := h.inside i c
      rw [hi] at h3; cases h3
      obtain ⟨a1, a2, a3⟩ := rotate_spec (by rw [hok.levels st (List.mem_of_getElem? h1)]; omega) h2
      refine ⟨st, List.mem_of_getElem? h1, by rw [a1], by rw [a1], by rw [a1], a2, fun r hr => ?_⟩
      obtain ⟨l, hl⟩ := List.getElem?_of_mem hr
      rw [a3] at hl
      split_ifs at hl <;> exact List.mem_of_getElem? hl
    · rw [h.outside i c] at hi
      exact ⟨st', List.mem_of_getElem? hi, rfl, rfl, rfl, rfl, fun _ h => h⟩
  have enpar : p'.npar = p.npar := by rw [h.eq]
  have ehp : p'.hProps = p.hProps := by rw [h.eq]
  have edeps : p'.deps = p.deps := by rw [h.eq]
  refine ⟨fun st' hm => ?_, fun st' hm => ?_, fun d hd => ?_⟩
  · obtain ⟨st, k0, k1, k2, k3, k4, k5⟩ := hst st' hm
    have o := hok.stmts st k0
    rw [enpar]
    exact ⟨by rw [k1]; exact o.wf, by rw [k1, k2]; exact o.cols, fun r hr => by rw [k2]; exact o.trans r (k5 r hr),
      by rw [k3, k4]; exact o.types⟩
  · obtain ⟨st, k0, k1, k2, k3, k4, k5⟩ := hst st' hm
    rw [k4, ehp]; exact hok.levels st k0
  · rw [edeps] at hd
    obtain ⟨a1, a2, a3⟩ := hok.deps d hd
    refine ⟨by rw [h.len]; exact a1, by rw [h.len]; exact a2, ?_⟩
    exact ⟨a3.wf, by rw [enpar, h.dim hok hg, h.dim hok hg]; exact a3.cols⟩

end Pluto

namespace Pluto

theorem lex_take_of_ne {a b : List Int} {l g : Nat} (h : LexBefore a b) (hne : a[l]? ≠ b[l]?) (hl : l < g) :
    LexBefore (a.take g) (b.take g) := by
  obtain ⟨k, x, y, h1, h2, h3, h4⟩ := h
  have hk : k ≤ l := by
    by_contra hc
    exact hne (h4 l (by omega))
  refine ⟨k, x, y, by rw [List.getElem?_take_of_lt (by omega), h1], by rw [List.getElem?_take_of_lt (by omega), h2], h3, ?_⟩
  intro l' hl'
  rw [List.getElem?_take_of_lt (by omega), List.getElem?_take_of_lt (by omega)]
  exact h4 l' hl'

theorem lex_take_mono {a b : List Int} {f g : Nat} (h : LexBefore (a.take f) (b.take f)) (hfg : f ≤ g) :
    LexBefore (a.take g) (b.take g) := by
  obtain ⟨k, x, y, h1, h2, h3, h4⟩ := h
  have hk : k < f := by
    have := (List.getElem?_eq_some_iff.mp h1).1
    simp at this; omega
  rw [List.getElem?_take_of_lt hk] at h1 h2
  refine ⟨k, x, y, by rw [List.getElem?_take_of_lt (by omega), h1], by rw [List.getElem?_take_of_lt (by omega), h2], h3, ?_⟩
  intro l' hl'
  have := h4 l' hl'
  rw [List.getElem?_take_of_lt (by omega), List.getElem?_take_of_lt (by omega)] at this
  rw [List.getElem?_take_of_lt (by omega), List.getElem?_take_of_lt (by omega)]
  exact this

theorem Agree.symm {p : Prog} {a b i j : Nat} (h : Agree p a b i j) : Agree p a b j i :=
  fun l h1 h2 h3 h4 => (h l h1 h2 h4 h3).symm

/-- A statement next to a loop differs from its statements at a scalar level outside. -/
theorem not_in_loop {p : Prog} {S : List Nat} {f : Nat} {ls : List Loop} (hnd : S.Nodup) (hl : getLoopsUnder p S f = some ls)
    (hU : Uniform p f p.hProps.length S) {L : Loop} (hL : L ∈ ls) {i j : Nat} (hi : i ∈ L.stmts) (hj : j ∈ S) (hn : j ∉ L.stmts) :
    ∃ l, f ≤ l ∧ l < L.depth ∧ p.Scalar l i ∧ p.Scalar l j ∧ p.const l i ≠ p.const l j := by
  have hs := loopsUnder_spec _ _ _ _ hnd hl
  by_contra hc
  push Not at hc
  have ha : Agree p f L.depth i j := fun l h1 h2 h3 h4 => hc l h1 h2 h3 h4
  have h1 := hs.lo L hL
  have h2 := hs.hi L hL
  obtain ⟨hiS, hin⟩ := hs.sub L hL i hi
  by_cases c : p.Scalar L.depth j
  · exact hin (hU L.depth h1 (by omega) j hj i hiS ha.symm c)
  · exact hn (hs.join L hL i hi j hj c ha)

theorem differ_lex {p : Prog} (hok : p.OK) (hps : PureScalars p) {d : Dep} (hd : d ∈ p.deps) {s t q : List Int} (hin : p.Inst d s t q)
    {i j l g : Nat} (hij : (i = d.src ∧ j = d.dest) ∨ (i = d.dest ∧ j = d.src)) (h1 : p.Scalar l i) (h2 : p.Scalar l j)
    (hne : p.const l i ≠ p.const l j) (hl : l < g) (hleg : LexBefore (p.timestamp d.src s q) (p.timestamp d.dest t q)) :
    LexBefore ((p.timestamp d.src s q).take g) ((p.timestamp d.dest t q).take g) := by
  obtain ⟨d1, d2, _⟩ := hok.deps d hd
  have gs := List.getElem?_eq_getElem d1
  have gt := List.getElem?_eq_getElem d2
  have key : p.Scalar l d.src ∧ p.Scalar l d.dest ∧ p.const l d.src ≠ p.const l d.dest := by
    rcases hij with ⟨rfl, rfl⟩ | ⟨rfl, rfl⟩
    · exact ⟨h1, h2, hne⟩
    · exact ⟨h2, h1, hne.symm⟩
  obtain ⟨k1, k2, k3⟩ := key
  have len : ∀ {i : Nat} {st : Stmt}, p.stmts[i]? = some st → p.Scalar l i → l < st.trans.length := by
    rintro i st hi ⟨st', r, a1, a2, _⟩
    rw [hi] at a1; cases a1
    exact (List.getElem?_eq_some_iff.mp a2).1
  refine lex_take_of_ne hleg (l := l) ?_ hl
  rw [timestamp_get gs (len gs k1), timestamp_get gt (len gt k2), hps _ _ _ _ k1 hin.hs hin.hp, hps _ _ _ _ k2 hin.ht hin.hp]
  simpa using k3

/-- Dependences between a loop and the other statements are satisfied outside the loop. -/
theorem under_separated {p : Prog} (hok : p.OK) (hleg : p.Legal) {S : List Nat} {f : Nat} {ls : List Loop} (hnd : S.Nodup)
    (hl : getLoopsUnder p S f = some ls) (hU : Uniform p f p.hProps.length S) (hps : PureScalars p) {w0 : Nat}
    (hsep : Separated p ⟨⟨f, S⟩, w0⟩) {L : Loop} (hL : L ∈ ls) (w : Nat) : Separated p ⟨L, w⟩ := by
  have hs := loopsUnder_spec _ _ _ _ hnd hl
  have hlo := hs.lo L hL
  intro d hd hr hne s t q h1 h2 h3 h4
  have hlex := hleg d hd hr s t q h1 h2 h3 h4
  have hin : p.Inst d s t q := ⟨h1, h2, h3, h4⟩
  by_cases c1 : d.src ∈ L.stmts
  · have c2 : d.dest ∉ L.stmts := fun c => hne ⟨fun _ => c, fun _ => c1⟩
    have s1 := (hs.sub L hL _ c1).1
    by_cases c3 : d.dest ∈ S
    · obtain ⟨l, a1, a2, a3, a4, a5⟩ := not_in_loop hnd hl hU hL c1 c3 c2
      exact differ_lex hok hps hd hin (.inl ⟨rfl, rfl⟩) a3 a4 a5 a2 hlex
    · exact lex_take_mono (hsep d hd hr (fun c => c3 (c.mp s1)) s t q h1 h2 h3 h4) hlo
  · have c2 : d.dest ∈ L.stmts := by
      by_contra c
      exact hne ⟨fun h => absurd h c1, fun h => absurd h c⟩
    have s1 := (hs.sub L hL _ c2).1
    by_cases c3 : d.src ∈ S
    · obtain ⟨l, a1, a2, a3, a4, a5⟩ := not_in_loop hnd hl hU hL c2 c3 c1
      exact differ_lex hok hps hd hin (.inr ⟨rfl, rfl⟩) a3 a4 a5 a2 hlex
    · exact lex_take_mono (hsep d hd hr (fun c => c3 (c.mpr s1)) s t q h1 h2 h3 h4) hlo

theorem all_separated {p : Prog} (hok : p.OK) (w : Nat) : Separated p ⟨⟨0, List.range p.stmts.length⟩, w⟩ := by
  intro d hd hr hne
  obtain ⟨d1, d2, _⟩ := hok.deps d hd
  exact absurd ⟨fun _ => by simpa using d2, fun _ => by simpa using d1⟩ hne

theorem isBandInnermost_spec {p : Prog} {b : Band} {k : Nat} (h : isBandInnermost p b k = some true) :
    ∀ i ∈ b.loop.stmts, ∀ st : Stmt, p.stmts[i]? = some st → ∀ l, b.loop.depth + (k + 1) * b.width ≤ l → l < st.trans.length →
      p.Scalar l i := by
  intro i hi st hst l hl hl'
  unfold isBandInnermost at h
  simp only [Option.bind_eq_bind, Option.bind_eq_some_iff, pure, Option.some.injEq] at h
  obtain ⟨bs, h1, h2⟩ := h
  have hf := mapM_forall₂ _ _ _ h1
  obtain ⟨n, hn⟩ := List.getElem?_of_mem hi
  have hlen := hf.length_eq
  have hnb : n < bs.length := by rw [← hlen]; exact (List.getElem?_eq_some_iff.mp hn).1
  have hmem : (i, bs[n]) ∈ b.loop.stmts.zip bs := by
    apply List.mem_of_getElem? (i := n)
    rw [List.getElem?_zip_eq_some]
    exact ⟨hn, List.getElem?_eq_getElem hnb⟩
  have hib := (List.forall₂_iff_zip.mp hf).2 hmem
  have hbt : bs[n] = true := by
    have := List.all_eq_true.mp h2 bs[n] (List.getElem_mem hnb)
    simpa using this
  rw [hbt] at hib
  simp only [hst, Option.bind_some, Option.bind_eq_some_iff, Option.some.injEq] at hib
  obtain ⟨sc, k1, k2⟩ := hib
  have hf2 := mapM_forall₂ _ _ _ k1
  have hlen2 := hf2.length_eq
  simp only [List.length_range] at hlen2
  set first := b.loop.depth + (k + 1) * b.width with hfirst
  have hj : l - first < sc.length := by omega
  have hmem2 : (l - first, sc[l - first]) ∈ (List.range (st.trans.length - first)).zip sc := by
    apply List.mem_of_getElem? (i := l - first)
    rw [List.getElem?_zip_eq_some]
    refine ⟨?_, List.getElem?_eq_getElem hj⟩
    rw [List.getElem?_range]; omega
  have hib2 := (List.forall₂_iff_zip.mp hf2).2 hmem2
  have := List.all_eq_true.mp k2 sc[l - first] (List.getElem_mem hj)
  rw [show first + (l - first) = l by omega] at hib2
  exact (isHyperplaneScalar_iff hst hib2).mp (by simpa using this)

end Pluto
