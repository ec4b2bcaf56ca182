import Verif.Lemmas.Innermost
import Verif.Lemmas.FuseBands
import Verif.Props.Polyloop

/-! Lemmas about `intraTileBand`. -/

namespace Pluto

/-- What makes it safe to move a loop of the statements `g` inwards in the levels `[F, F + w)`. -/
structure GroupOK (p : Prog) (F w k : Nat) (g : List Nat) : Prop where
  nodup : g.Nodup
  range : ∀ i ∈ g, i < p.stmts.length
  uniform : Uniform p F p.hProps.length g
  sep : Separated p ⟨⟨F, g⟩, w⟩
  comps : ∀ d ∈ p.deps, d.rar = false → d.src ∈ g → d.dest ∈ g → ∀ s t q, p.Inst d s t q → p.TiedBelow d F s t q →
    ∀ m < w, 0 ≤ p.comp d (F + m) s t q ∨ (k = 0 ∧ ∃ m0 < m, (∀ i ∈ g, p.Scalar (F + m0) i) ∧ 1 ≤ p.comp d (F + m0) s t q)
  inner : k = 0 → ∀ i ∈ g, ∀ l, F + w ≤ l → l < p.hProps.length → p.Scalar l i

theorem innermost_defined {p : Prog} (hok : p.OK) {L : Loop} (hnd : L.stmts.Nodup) (hr : ∀ i ∈ L.stmts, i < p.stmts.length) :
    ∃ v, loopIsInnermost p L = some v := by
  obtain ⟨ls, h⟩ := C34_defined p hok L.stmts hnd hr (L.depth + 1)
  exact ⟨ls.isEmpty, by simp [loopIsInnermost, h]⟩

theorem isBandInnermost_defined {p : Prog} {b : Band} (hr : ∀ i ∈ b.loop.stmts, i < p.stmts.length) (k : Nat) :
    ∃ v, isBandInnermost p b k = some v := by
  unfold isBandInnermost
  rw [← Option.isSome_iff_exists]
  generalize b.loop.depth + (k + 1) * b.width = f
  have := mapM_isSome' (l := b.loop.stmts) (f := fun i => (do
      let st ← p.stmts[i]?
      let sc ← (List.range (st.trans.length - f)).mapM (fun j => isHyperplaneScalar st (f + j))
      return sc.all id : Option Bool)) (fun i hi => by
    have gi := List.getElem?_eq_getElem (hr i hi)
    have := mapM_isSome' (l := List.range ((p.stmts[i]'(hr i hi)).trans.length - f))
      (f := fun j => isHyperplaneScalar (p.stmts[i]'(hr i hi)) (f + j)) (fun j hj => by
        have hj' : f + j < (p.stmts[i]'(hr i hi)).trans.length := by simp at hj; omega
        simp [isHyperplaneScalar, hj'])
    obtain ⟨sc, hsc⟩ := Option.isSome_iff_exists.mp this
    simp only [gi, Option.bind_eq_bind, Option.bind_some, hsc]
    rfl)
  obtain ⟨bs, hbs⟩ := Option.isSome_iff_exists.mp this
  simp only [Option.bind_eq_bind] at hbs ⊢
  rw [hbs]; rfl

theorem makeInnermost_rotated {p : Prog} (hok : p.OK) {L : Loop} (hnd : L.stmts.Nodup) (hr : ∀ i ∈ L.stmts, i < p.stmts.length)
    (hd : L.depth < p.hProps.length) (hns : ∀ i ∈ L.stmts, ¬ p.Scalar L.depth i) {lastLevel : Nat} (hl : lastLevel ≤ p.hProps.length)
    (across : Bool) : ∃ p' n, makeInnermost p L lastLevel across = some p' ∧ Rotated p p' L.stmts L.depth n ∧
      L.depth + n < p.hProps.length ∧
      (across = true → L.depth + n < lastLevel ∨ n = 0) ∧
      (across = false → ∀ i ∈ L.stmts, ∀ l, L.depth ≤ l → l ≤ L.depth + n → ¬ p.Scalar l i) := by
  have hlev : ∀ i ∈ L.stmts, ∃ st : Stmt, p.stmts[i]? = some st ∧ st.trans.length = p.hProps.length := by
    intro i hi
    have hg := List.getElem?_eq_getElem (hr i hi)
    exact ⟨_, hg, hok.levels _ (List.mem_of_getElem? hg)⟩
  have upd : ∀ n, L.depth + n < p.hProps.length → ∃ p', updStmts p L.stmts (fun st => rotate st L.depth n) = some p' := by
    intro n hn
    refine Option.isSome_iff_exists.mp (updStmts_defined hnd (fun i hi => ?_))
    obtain ⟨st, h1, h2⟩ := hlev i hi
    exact ⟨st, h1, rotate_defined (by omega)⟩
  unfold makeInnermost
  rw [if_neg (by omega)]
  cases across with
  | true =>
    obtain ⟨p', hp'⟩ := upd (lastLevel - 1 - L.depth) (by omega)
    refine ⟨p', lastLevel - 1 - L.depth, by simpa using hp', rotated_of hnd hp', by omega, fun _ => by omega, by simp⟩
  | false =>
    obtain ⟨last, hlast⟩ := Option.isSome_iff_exists.mp (lastDepth_defined (p := p) (L := L) (fun i hi => by
      obtain ⟨st, h1, h2⟩ := hlev i hi
      exact ⟨st, h1, by omega⟩))
    obtain ⟨a1, a2, a3⟩ := lastDepth_spec hlast hns hd hlev
    obtain ⟨p', hp'⟩ := upd (last - L.depth) (by omega)
    refine ⟨p', last - L.depth, by simpa [hlast] using hp', rotated_of hnd hp', by omega, by simp, fun _ i hi l hl hl' => ?_⟩
    exact a3 i hi l hl (by omega)

/-- Only statements of `g` change, and those only from level `F` on, by permuting rows. -/
structure Inside (p p' : Prog) (F : Nat) (g : List Nat) : Prop where
  eq : p' = { p with stmts := p'.stmts }
  len : p'.stmts.length = p.stmts.length
  other : ∀ i, i ∉ g → p'.stmts[i]? = p.stmts[i]?
  stmt : ∀ i : Nat, ∀ st' : Stmt, p'.stmts[i]? = some st' → ∃ st, p.stmts[i]? = some st ∧ st' = { st with trans := st'.trans } ∧
    (∀ l < F, st'.trans[l]? = st.trans[l]?) ∧ ∀ r ∈ st'.trans, r ∈ st.trans

theorem Inside.refl (p : Prog) (F : Nat) (g : List Nat) : Inside p p F g :=
  ⟨rfl, rfl, fun _ _ => rfl, fun _ st' h => ⟨st', h, rfl, fun _ _ => rfl, fun _ h => h⟩⟩

theorem Rotated.inside_of {p p' : Prog} {S : List Nat} {G n : Nat} (h : Rotated p p' S G n) (hok : p.OK) (hg : G + n < p.hProps.length)
    {F : Nat} (hF : F ≤ G) {g : List Nat} (hS : ∀ i ∈ S, i ∈ g) : Inside p p' F g := by
  refine ⟨h.eq, h.len, fun i hi => h.outside i (fun c => hi (hS i c)), fun i st' hi => ?_⟩
  by_cases c : i ∈ S
  · obtain ⟨st, st1, h1, h2, h3⟩ := h.inside i c
    rw [hi] at h3; cases h3
    obtain ⟨a1, a2, a3⟩ := rotate_spec (by rw [hok.levels st (List.mem_of_getElem? h1)]; omega) h2
    refine ⟨st, h1, a1, fun l hl => by rw [a3, if_pos (by omega)], fun r hr => ?_⟩
    obtain ⟨l, hl⟩ := List.getElem?_of_mem hr
    rw [a3] at hl
    split_ifs at hl <;> exact List.mem_of_getElem? hl
  · rw [h.outside i c] at hi
    exact ⟨st', hi, rfl, fun _ _ => rfl, fun _ h => h⟩

theorem Inside.dim {p p' : Prog} {F : Nat} {g : List Nat} (h : Inside p p' F g) (i : Nat) : p'.dim i = p.dim i := by
  cases hi : p'.stmts[i]? with
  | none =>
    have : p.stmts[i]? = none := by
      rw [List.getElem?_eq_none_iff] at hi ⊢
      rw [← h.len]; exact hi
    simp [Prog.dim, hi, this]
  | some st' =>
    obtain ⟨st, h1, h2, _⟩ := h.stmt i st' hi
    simp only [Prog.dim, hi, h1, Option.map_some]
    rw [h2]

theorem Inside.take {p p' : Prog} {F : Nat} {g : List Nat} (h : Inside p p' F g) (i : Nat) (x q : List Int) :
    (p'.timestamp i x q).take F = (p.timestamp i x q).take F := by
  cases hi : p'.stmts[i]? with
  | none =>
    have : p.stmts[i]? = none := by
      rw [List.getElem?_eq_none_iff] at hi ⊢
      rw [← h.len]; exact hi
    simp [Prog.timestamp, hi, this]
  | some st' =>
    obtain ⟨st, h1, h2, h3, _⟩ := h.stmt i st' hi
    rw [timestamp_eq hi, timestamp_eq h1]
    apply List.ext_getElem?
    intro l
    by_cases hl : l < F
    · rw [List.getElem?_take_of_lt hl, List.getElem?_take_of_lt hl]
      simp [Stmt.time, h3 l hl]
    · rw [List.getElem?_take_eq_none (by omega), List.getElem?_take_eq_none (by omega)]

theorem Inside.scalar {p p' : Prog} {F : Nat} {g : List Nat} (h : Inside p p' F g) {i : Nat} (hi : i ∉ g) (l : Nat) :
    p'.Scalar l i ↔ p.Scalar l i := by
  unfold Prog.Scalar
  rw [h.other i hi]

theorem Inside.const {p p' : Prog} {F : Nat} {g : List Nat} (h : Inside p p' F g) {i : Nat} (hi : i ∉ g) (l : Nat) :
    p'.const l i = p.const l i := by
  unfold Prog.const Prog.row
  rw [h.other i hi]

theorem Inside.phi {p p' : Prog} {F : Nat} {g : List Nat} (h : Inside p p' F g) {i : Nat} (hi : i ∉ g) (l : Nat) (x q : List Int) :
    p'.phi i l x q = p.phi i l x q := by
  unfold Prog.phi Prog.row
  rw [h.other i hi]

theorem Inside.inst {p p' : Prog} {F : Nat} {g : List Nat} (h : Inside p p' F g) {d : Dep} {s t q : List Int} :
    p'.Inst d s t q ↔ p.Inst d s t q := by
  have e : p'.npar = p.npar := by rw [h.eq]
  unfold Prog.Inst
  rw [h.dim, h.dim, e]

/-- Statements outside `g` do not see the change. -/
theorem Inside.group {p p' : Prog} {F w k : Nat} {g g' : List Nat} (h : Inside p p' F g) (hdis : ∀ i ∈ g', i ∉ g)
    (hg : GroupOK p F w k g') : GroupOK p' F w k g' := by
  have edeps : p'.deps = p.deps := by rw [h.eq]
  have ehp : p'.hProps = p.hProps := by rw [h.eq]
  have enpar : p'.npar = p.npar := by rw [h.eq]
  refine ⟨hg.nodup, fun i hi => by rw [h.len]; exact hg.range i hi, ?_, ?_, ?_, ?_⟩
  · intro l h1 h2 i hi j hj ha hs
    rw [h.scalar (hdis j hj)]
    rw [h.scalar (hdis i hi)] at hs
    refine hg.uniform l h1 (by rwa [ehp] at h2) i hi j hj (fun l' a1 a2 a3 a4 => ?_) hs
    have := ha l' a1 a2 ((h.scalar (hdis i hi) l').mpr a3) ((h.scalar (hdis j hj) l').mpr a4)
    rwa [h.const (hdis i hi), h.const (hdis j hj)] at this
  · intro d hd hr hne s t q h1 h2 h3 h4
    rw [edeps] at hd
    rw [h.dim] at h1 h2
    rw [enpar] at h3
    show LexBefore ((p'.timestamp d.src s q).take F) ((p'.timestamp d.dest t q).take F)
    rw [h.take, h.take]
    exact hg.sep d hd hr hne s t q h1 h2 h3 h4
  · intro d hd hr hs ht s t q hin htied m hm
    rw [edeps] at hd
    have ec : ∀ l, p'.comp d l s t q = p.comp d l s t q := by
      intro l
      unfold Prog.comp
      rw [h.phi (hdis _ hs), h.phi (hdis _ ht)]
    rcases hg.comps d hd hr hs ht s t q (h.inst.mp hin) (fun l hl => by rw [← ec]; exact htied l hl) m hm with x | ⟨x0, m0, x1, x2, x3⟩
    · left; rw [ec]; exact x
    · right
      exact ⟨x0, m0, x1, fun i hi => (h.scalar (hdis i hi) _).mpr (x2 i hi), by rw [ec]; exact x3⟩
  · intro hk i hi l h1 h2
    rw [ehp] at h2
    exact (h.scalar (hdis i hi) l).mpr (hg.inner hk i hi l h1 h2)

theorem Inside.pure {p p' : Prog} {F : Nat} {g : List Nat} (h : Inside p p' F g) (hps : PureScalars p) : PureScalars p' := by
  rintro i l x q ⟨st', r, h1, h2, h3⟩ hx hq
  obtain ⟨st, k1, k2, k3, k4⟩ := h.stmt i st' h1
  have enpar : p'.npar = p.npar := by rw [h.eq]
  have edim : st'.dim = st.dim := by rw [k2]
  obtain ⟨l', hl'⟩ := List.getElem?_of_mem (k4 r (List.mem_of_getElem? h2))
  have := hps i l' x q ⟨st, r, k1, hl', by rw [← edim]; exact h3⟩ (by rw [← h.dim]; exact hx) (by rw [← enpar]; exact hq)
  have e1 : p'.row i l = r := by simp [Prog.row, h1, h2]
  have e2 : p.row i l' = r := by simp [Prog.row, k1, hl']
  unfold Prog.phi Prog.const at this ⊢
  rw [e1]
  rw [e2] at this
  exact this

theorem intraTileGroup_spec {best : Prog → List Loop → Option Loop} (hbest : ∀ p ls L, best p ls = some L → L ∈ ls)
    {b : Band} {k : Nat} {p : Prog} (hok : p.OK) (hleg : p.Legal) (hps : PureScalars p) {g : List Nat}
    (hg : GroupOK p (b.loop.depth + k * b.width) b.width k g) (hn : b.loop.depth + (k + 1) * b.width ≤ p.hProps.length) :
    ∃ p', intraTileGroup best b k p g = some p' ∧ p'.OK ∧ p'.Legal ∧ Inside p p' (b.loop.depth + k * b.width) g := by
  obtain ⟨ls, hls⟩ := C34_defined p hok g hg.nodup hg.range (b.loop.depth + k * b.width)
  have hkw : (k + 1) * b.width = k * b.width + b.width := by ring
  unfold intraTileGroup
  simp only [hls, Option.bind_eq_bind, Option.bind_some]
  cases hb : best p ls with
  | none => exact ⟨p, rfl, hok, hleg, .refl _ _ _⟩
  | some L =>
    have hL := hbest _ _ _ hb
    have hs := loopsUnder_spec _ _ _ _ hg.nodup hls
    have hlo := hs.lo L hL
    have hhi := hs.hi L hL
    have hLn := hs.nodup L hL
    have hLr : ∀ i ∈ L.stmts, i < p.stmts.length := fun i hi => hg.range i (hs.sub L hL i hi).1
    obtain ⟨v, hv⟩ := innermost_defined hok hLn hLr
    simp only [hv, Option.bind_some]
    by_cases c : v = true
    · rw [if_pos c]; exact ⟨p, rfl, hok, hleg, .refl _ _ _⟩
    · rw [if_neg c]
      obtain ⟨p', n, h1, h2, h3, h4, h5⟩ := makeInnermost_rotated hok hLn hLr (by omega) (fun i hi => (hs.sub L hL i hi).2) hn (decide (0 < k))
      refine ⟨p', h1, h2.ok hok h3, ?_, h2.inside_of hok h3 hlo (fun i hi => (hs.sub L hL i hi).1)⟩
      refine h2.legal hok hleg h3 ?_ (under_separated hok hleg hg.nodup hls hg.uniform hps hg.sep hL _)
      intro d hd hr hsrc hdst s t q hin htied
      by_cases hn0 : n = 0
      · left
        intro m hm
        have e : L.depth + m = L.depth := by omega
        rw [e]
        exact legal_first hok hleg hd hr hin (by omega) htied
      left
      have htF : p.TiedBelow d (b.loop.depth + k * b.width) s t q := fun l hl => htied l (by omega)
      have hc := hg.comps d hd hr (hs.sub L hL _ hsrc).1 (hs.sub L hL _ hdst).1 s t q hin htF
      intro m hm
      by_cases hk : k = 0
      · have h5' := h5 (by simp [hk])
        have hlt : L.depth + m < b.loop.depth + k * b.width + b.width := by
          by_contra hge
          exact h5' _ hsrc (L.depth + m) (by omega) (by omega) (hg.inner hk _ (hs.sub L hL _ hsrc).1 _ (by omega) (by omega))
        have := hc (L.depth + m - (b.loop.depth + k * b.width)) (by omega)
        rw [show b.loop.depth + k * b.width + (L.depth + m - (b.loop.depth + k * b.width)) = L.depth + m by omega] at this
        rcases this with x | ⟨_, m0, x1, x2, x3⟩
        · exact x
        · exfalso
          rcases Nat.lt_or_ge (b.loop.depth + k * b.width + m0) L.depth with hlt | hge
          · have := htied _ hlt
            omega
          · exact h5' _ hsrc _ hge (by omega) (x2 _ (hs.sub L hL _ hsrc).1)
      · have h4' := h4 (by simp; omega)
        have := hc (L.depth + m - (b.loop.depth + k * b.width)) (by omega)
        rw [show b.loop.depth + k * b.width + (L.depth + m - (b.loop.depth + k * b.width)) = L.depth + m by omega] at this
        rcases this with x | ⟨x0, _⟩
        · exact x
        · exact absurd x0 hk

theorem Inside.trans {p p' p'' : Prog} {F : Nat} {g g' G : List Nat} (h : Inside p p' F g) (h' : Inside p' p'' F g')
    (hg : ∀ i ∈ g, i ∈ G) (hg' : ∀ i ∈ g', i ∈ G) : Inside p p'' F G := by
  refine ⟨by rw [h'.eq, h.eq], by rw [h'.len, h.len], fun i hi => by rw [h'.other i (fun c => hi (hg' i c)), h.other i (fun c => hi (hg i c))],
    fun i st'' hi => ?_⟩
  obtain ⟨st', a1, a2, a3, a4⟩ := h'.stmt i st'' hi
  obtain ⟨st, b1, b2, b3, b4⟩ := h.stmt i st' a1
  exact ⟨st, b1, by rw [a2, b2], fun l hl => by rw [a3 l hl, b3 l hl], fun r hr => b4 r (a4 r hr)⟩

theorem intraTileGroups_spec {best : Prog → List Loop → Option Loop} (hbest : ∀ p ls L, best p ls = some L → L ∈ ls)
    {b : Band} {k : Nat} {S : List Nat} : ∀ {gs : List (List Nat)} {p : Prog}, p.OK → p.Legal → PureScalars p →
    (∀ g ∈ gs, GroupOK p (b.loop.depth + k * b.width) b.width k g) → (∀ g ∈ gs, ∀ i ∈ g, i ∈ S) →
    gs.Pairwise (fun g h => ∀ i ∈ g, i ∉ h) → b.loop.depth + (k + 1) * b.width ≤ p.hProps.length →
    ∃ p', gs.foldlM (intraTileGroup best b k) p = some p' ∧ p'.OK ∧ p'.Legal ∧ Inside p p' (b.loop.depth + k * b.width) S := by
  intro gs
  induction gs with
  | nil => intro p hok hleg _ _ _ _ _; exact ⟨p, rfl, hok, hleg, .refl _ _ _⟩
  | cons g gs ih =>
    intro p hok hleg hps hg hS hdis hn
    obtain ⟨hd1, hd2⟩ := List.pairwise_cons.mp hdis
    obtain ⟨p1, h1, h2, h3, h4⟩ := intraTileGroup_spec hbest hok hleg hps (hg g (by simp)) hn
    have ehp : p1.hProps = p.hProps := by rw [h4.eq]
    obtain ⟨p', k1, k2, k3, k4⟩ := ih h2 h3 (h4.pure hps)
      (fun g' hg' => h4.group (fun i hi hi' => hd1 g' hg' i hi' hi) (hg g' (by simp [hg'])))
      (fun g' hg' => hS g' (by simp [hg'])) hd2 (by rw [ehp]; exact hn)
    refine ⟨p', ?_, k2, k3, h4.trans k4 (hS g (by simp)) (fun _ h => h)⟩
    rw [List.foldlM_cons, h1]
    exact k1

end Pluto
