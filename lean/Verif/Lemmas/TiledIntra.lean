import Verif.Lemmas.TiledBand

/-! Moving a loop inwards within the tiles of a band. -/

namespace Pluto

/-- Bits of satisfaction vectors that are off mean what they should, for dependences within `S`. -/
def ParSound (p : Prog) (S : List Nat) : Prop :=
  ∀ d ∈ p.deps, d.rar = false → d.src ∈ S → d.dest ∈ S → ∀ l, d.satvec[l]? = some false → ∀ s t q, p.Inst d s t q →
    p.TiedBelow d l s t q → p.comp d l s t q = 0

theorem Prog.Info.parSound {p : Prog} (hi : p.Info) (S : List Nat) : ParSound p S :=
  fun _ hd hr _ _ _ hb _ _ _ hin htied => bit_false hi hd hr hb hin htied

/-- Statements with the same scalar levels and constants in the tile space of a band. -/
def SameTiles (p : Prog) (b : Band) (k i j : Nat) : Prop :=
  ∀ m < k * b.width, (p.Scalar (b.loop.depth + m) i ↔ p.Scalar (b.loop.depth + m) j) ∧
    (p.Scalar (b.loop.depth + m) i → p.const (b.loop.depth + m) i = p.const (b.loop.depth + m) j)

theorem fused_iff {p : Prog} (hok : p.OK) {b : Band} {k : Nat} (hr : ∀ i ∈ b.loop.stmts, i < p.stmts.length)
    (hU : Uniform p b.loop.depth p.hProps.length b.loop.stmts) (hle : b.loop.depth + k * b.width ≤ p.hProps.length)
    {i j : Nat} (hi : i ∈ b.loop.stmts) (hj : j ∈ b.loop.stmts) :
    ∃ v, fusedInBand p b k i j = some v ∧ (v = true ↔ SameTiles p b k i j) := by
  have ri := hasRows hok (hr i hi)
  have rj := hasRows hok (hr j hj)
  have each : ∀ m ∈ List.range (k * b.width), ∃ v, ((do
      if (← scalarAt p (b.loop.depth + m) i) then
        return decide ((← constAt p (b.loop.depth + m) i) = (← constAt p (b.loop.depth + m) j))
      else return true : Option Bool) = some v) ∧
      (v = true ↔ (p.Scalar (b.loop.depth + m) i → p.const (b.loop.depth + m) i = p.const (b.loop.depth + m) j)) := by
    intro m hm
    have hlt : b.loop.depth + m < p.hProps.length := by simp at hm; omega
    obtain ⟨s, hs⟩ := Option.isSome_iff_exists.mp (ri.scalarAt hlt)
    obtain ⟨c1, hc1⟩ := Option.isSome_iff_exists.mp (ri.constAt hlt)
    obtain ⟨c2, hc2⟩ := Option.isSome_iff_exists.mp (rj.constAt hlt)
    have e := scalarAt_iff hs
    cases s with
    | true =>
      refine ⟨decide (c1 = c2), by simp [hs, hc1, hc2], ?_⟩
      rw [constAt_eq hc1, constAt_eq hc2]
      have := e.mp rfl
      simp [this]
    | false =>
      have : ¬ p.Scalar (b.loop.depth + m) i := fun h => by simpa using e.mpr h
      exact ⟨true, by simp [hs], by simp [this]⟩
  obtain ⟨bs, hbs⟩ := Option.isSome_iff_exists.mp (mapM_isSome' (fun m hm => by
    obtain ⟨v, h, _⟩ := each m hm
    exact Option.isSome_iff_exists.mpr ⟨v, h⟩))
  refine ⟨bs.all id, by unfold fusedInBand; rw [hbs]; rfl, ?_⟩
  have hf := mapM_forall₂ _ _ _ hbs
  have key : bs.all id = true ↔ ∀ m < k * b.width,
      (p.Scalar (b.loop.depth + m) i → p.const (b.loop.depth + m) i = p.const (b.loop.depth + m) j) := by
    rw [List.all_eq_true]
    constructor
    · intro h m hm
      have hlt : m < bs.length := by rw [← hf.length_eq]; simpa using hm
      have hg := hf.get (i := m) (by simpa using hm) hlt
      simp only [List.get_eq_getElem, List.getElem_range] at hg
      obtain ⟨v, h1, h2⟩ := each m (by simpa using hm)
      rw [h1] at hg
      simp only [Option.some.injEq] at hg
      exact h2.mp (by rw [hg]; simpa using h _ (List.getElem_mem hlt))
    · intro h x hx
      obtain ⟨m, hm, rfl⟩ := List.getElem_of_mem hx
      have hm' : m < k * b.width := by have := hf.length_eq; simp at this; omega
      have hg := hf.get (i := m) (by simpa using hm') hm
      simp only [List.get_eq_getElem, List.getElem_range] at hg
      obtain ⟨v, h1, h2⟩ := each m (by simpa using hm')
      rw [h1] at hg
      simp only [Option.some.injEq] at hg
      rw [← hg]
      exact h2.mpr (h m hm')
  rw [key]
  constructor
  · intro h m hm
    refine ⟨?_, h m hm⟩
    have hag : Agree p b.loop.depth (b.loop.depth + m) i j := by
      intro l x1 x2 x3 _
      have := h (l - b.loop.depth) (by omega)
      rw [show b.loop.depth + (l - b.loop.depth) = l by omega] at this
      exact this x3
    exact ⟨hU _ (by omega) (by omega) i hi j hj hag, hU _ (by omega) (by omega) j hj i hi hag.symm⟩
  · intro h m hm
    exact (h m hm).2

/-- Statements with different tile spaces differ at a level of the tile space that is scalar for both. -/
theorem not_same {p : Prog} {b : Band} {k : Nat} (hU : Uniform p b.loop.depth p.hProps.length b.loop.stmts)
    (hle : b.loop.depth + k * b.width ≤ p.hProps.length) {i j : Nat} (hi : i ∈ b.loop.stmts) (hj : j ∈ b.loop.stmts)
    (h : ¬ SameTiles p b k i j) : ∃ l, l < b.loop.depth + k * b.width ∧ p.Scalar l i ∧ p.Scalar l j ∧ p.const l i ≠ p.const l j := by
  by_contra hc
  push Not at hc
  apply h
  intro m hm
  have hag : Agree p b.loop.depth (b.loop.depth + m) i j := fun l x1 x2 x3 x4 => hc l (by omega) x3 x4
  have iff : p.Scalar (b.loop.depth + m) i ↔ p.Scalar (b.loop.depth + m) j :=
    ⟨hU _ (by omega) (by omega) i hi j hj hag, hU _ (by omega) (by omega) j hj i hi hag.symm⟩
  exact ⟨iff, fun hs => hc _ (by omega) hs (iff.mp hs)⟩

theorem groupOK_of {p : Prog} (hok : p.OK) (hleg : p.Legal) (hps : PureScalars p) {b : Band} {k : Nat} (hk : 0 < k) (T : TBand p b k)
    {g : List Nat} (hg : g.Nodup) (hsub : ∀ i ∈ g, i ∈ b.loop.stmts)
    (hcl : ∀ i ∈ g, ∀ j ∈ b.loop.stmts, j ∈ g ↔ SameTiles p b k i j) :
    GroupOK p (b.loop.depth + k * b.width) b.width k g := by
  have hle : b.loop.depth + k * b.width ≤ p.hProps.length := by
    have := T.len
    have : (k + 1) * b.width = k * b.width + b.width := by ring
    omega
  refine ⟨hg, fun i hi => T.range i (hsub i hi), ?_, ?_, ?_, by omega⟩
  · intro l h1 h2 i hi j hj
    exact T.uniF l h1 h2 i (hsub i hi) j (hsub j hj)
  · intro d hd hr hne s t q h1 h2 h3 h4
    have hlex := hleg d hd hr s t q h1 h2 h3 h4
    have hin : p.Inst d s t q := ⟨h1, h2, h3, h4⟩
    show LexBefore ((p.timestamp d.src s q).take (b.loop.depth + k * b.width)) ((p.timestamp d.dest t q).take (b.loop.depth + k * b.width))
    by_cases hS : d.src ∈ b.loop.stmts ↔ d.dest ∈ b.loop.stmts
    · by_cases c1 : d.src ∈ g
      · have c2 : d.dest ∉ g := fun c => hne ⟨fun _ => c, fun _ => c1⟩
        have s1 := hsub _ c1
        have s2 := hS.mp s1
        obtain ⟨l, x1, x2, x3, x4⟩ := not_same T.uni hle s1 s2 (fun c => c2 ((hcl _ c1 _ s2).mpr c))
        exact differ_lex hok hps hd hin (.inl ⟨rfl, rfl⟩) x2 x3 x4 x1 hlex
      · have c2 : d.dest ∈ g := by
          by_contra c
          exact hne ⟨fun h => absurd h c1, fun h => absurd h c⟩
        have s1 := hsub _ c2
        have s2 := hS.mpr s1
        obtain ⟨l, x1, x2, x3, x4⟩ := not_same T.uni hle s1 s2 (fun c => c1 ((hcl _ c2 _ s2).mpr c))
        exact differ_lex hok hps hd hin (.inr ⟨rfl, rfl⟩) x2 x3 x4 x1 hlex
    · exact lex_take_mono (T.sep d hd hr hS s t q h1 h2 h3 h4) (Nat.le_add_right _ _)
  · intro d hd hr h1 h2 s t q hin htied m hm
    left
    exact T.comps hk d hd hr (hsub _ h1) (hsub _ h2) s t q hin htied m hm

theorem foldl_max_depth (ls : List Loop) (z n : Nat) (hz : z < n) (h : ∀ L ∈ ls, L.depth < n) :
    ls.foldl (fun m l => max m l.depth) z < n := by
  induction ls generalizing z with
  | nil => exact hz
  | cons L ls ih =>
    simp only [List.foldl_cons]
    exact ih _ (by have := h L (by simp); omega) (fun L hL => h L (by simp [hL]))

theorem intraTileBand_spec {best : Prog → List Loop → Option Loop} (hbest : ∀ p ls L, best p ls = some L → L ∈ ls)
    {p : Prog} (hok : p.OK) (hleg : p.Legal) (hps : PureScalars p) (hsl : SatLen p) {b : Band} {k : Nat} (hk : 0 < k) (T : TBand p b k)
    (hpar : ParSound p b.loop.stmts) :
    ∃ p', intraTileBand best p b k = some p' ∧ p'.OK ∧ p'.Legal ∧ Inside p p' (b.loop.depth + k * b.width) b.loop.stmts := by
  have hkw : (k + 1) * b.width = k * b.width + b.width := by ring
  have hlen := T.len
  have hle : b.loop.depth + k * b.width ≤ p.hProps.length := by omega
  obtain ⟨v, hv⟩ := isBandInnermost_defined (p := p) (b := b) T.range k
  unfold intraTileBand
  simp only [hv, Option.bind_eq_bind, Option.bind_some]
  by_cases c : v = true
  · rw [if_pos c]
    obtain ⟨gs, g1, g2, g3, g4, g5⟩ := fuseBands_spec (p := p) (b := b) (k := k) (R := SameTiles p b k) T.nodup
      (fun i hi j hj => fused_iff hok T.range T.uni hle hi hj)
      (fun _ m _ => ⟨Iff.rfl, fun _ => rfl⟩)
      (fun _ _ h m hm => ⟨(h m hm).1.symm, fun hs => ((h m hm).2 ((h m hm).1.mpr hs)).symm⟩)
      (fun _ _ _ h h' m hm => ⟨(h m hm).1.trans (h' m hm).1, fun hs => ((h m hm).2 hs).trans ((h' m hm).2 ((h m hm).1.mp hs))⟩)
    rw [g1, Option.bind_some]
    exact intraTileGroups_spec (S := b.loop.stmts) hbest hok hleg hps
      (fun g hg => groupOK_of hok hleg hps hk T (g2 g hg).1 (g2 g hg).2 (g3 g hg)) (fun g hg => (g2 g hg).2) g5 hlen
  · rw [if_neg c, if_pos hk]
    obtain ⟨ls, hls⟩ := C34_defined p hok b.loop.stmts T.nodup T.range (b.loop.depth + k * b.width)
    have hs := loopsUnder_spec _ _ _ _ T.nodup hls
    have hdl : ∀ L ∈ ls, L.depth < p.hProps.length := fun L hL => by have := hs.hi L hL; omega
    obtain ⟨ps, hps'⟩ := Option.isSome_iff_exists.mp (mapM_isSome' (l := ls) (f := loopIsParallel p)
      (fun L hL => loopIsParallel_defined hsl (hdl L hL)))
    have hf := mapM_forall₂ _ _ _ hps'
    have hpl : ∀ L ∈ ((ls.zip ps).filter (·.2)).map (·.1), L ∈ ls ∧ loopIsParallel p L = some true := by
      intro L hL
      simp only [List.mem_map, List.mem_filter] at hL
      obtain ⟨⟨L', x⟩, ⟨hm, hx⟩, rfl⟩ := hL
      have := (List.forall₂_iff_zip.mp hf).2 hm
      simp only at hx
      subst hx
      exact ⟨(List.of_mem_zip hm).1, this⟩
    have hinner := foldl_max_depth ls b.loop.depth p.hProps.length (by have := T.width; omega) hdl
    unfold makeParallelInnermost
    simp only [hls, hps', Option.bind_eq_bind, Option.bind_some]
    generalize ls.foldl (fun m l => max m l.depth) b.loop.depth = inner at hinner ⊢
    generalize ((ls.zip ps).filter (·.2)).map (·.1) = pl at *
    by_cases c0 : pl = []
    · rw [if_pos c0]; exact ⟨p, rfl, hok, hleg, .refl _ _ _⟩
    rw [if_neg c0]
    cases hb : best p pl with
    | none => exact ⟨p, rfl, hok, hleg, .refl _ _ _⟩
    | some L =>
      obtain ⟨hL, hLpar⟩ := hpl L (hbest _ _ _ hb)
      have hLn := hs.nodup L hL
      have hLS : ∀ i ∈ L.stmts, i ∈ b.loop.stmts := fun i hi => (hs.sub L hL i hi).1
      have hLr : ∀ i ∈ L.stmts, i < p.stmts.length := fun i hi => T.range i (hLS i hi)
      obtain ⟨w, hw⟩ := innermost_defined hok hLn hLr
      simp only [hw, Option.bind_some]
      by_cases cw : w = true
      · rw [if_pos cw]; exact ⟨p, rfl, hok, hleg, .refl _ _ _⟩
      rw [if_neg cw]
      obtain ⟨p', n, h1, h2, h3, _⟩ := makeInnermost_rotated hok hLn hLr (hdl L hL) (fun i hi => (hs.sub L hL i hi).2)
        (lastLevel := inner + 1) (by omega) true
      have hsepF : Separated p ⟨⟨b.loop.depth + k * b.width, b.loop.stmts⟩, 0⟩ := by
        intro d hd hr hne s t q a1 a2 a3 a4
        exact lex_take_mono (T.sep d hd hr hne s t q a1 a2 a3 a4) (Nat.le_add_right _ _)
      refine ⟨p', h1, h2.ok hok h3, h2.legal hok hleg h3 ?_ (under_separated hok hleg T.nodup hls T.uniF hps hsepF hL _),
        h2.inside_of hok h3 (hs.lo L hL) hLS⟩
      intro d hd hr hsrc hdst s t q hin htied
      right
      exact hpar d hd hr (hLS _ hsrc) (hLS _ hdst) _ (parallel_bit hLpar hd hr hsrc hdst) s t q hin htied

end Pluto
