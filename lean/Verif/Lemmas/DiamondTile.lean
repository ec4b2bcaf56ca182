import Verif.Model.DiamondTile
import Verif.Spec.DiamondTile
import Verif.Lemmas.PlutoTile

/-! Rescheduling the loops inside the tiles. -/

namespace Pluto

/-! ### The rows after tiling -/

/-- Where the rows of the statements of the bands are after `k` levels of tiling. -/
structure Shift (p pk : Prog) (bands : List Band) (k : Nat) : Prop where
  npar : pk.npar = p.npar
  len : pk.stmts.length = p.stmts.length
  stmt : ∀ b ∈ bands, ∀ i ∈ b.loop.stmts, ∀ st : Stmt, p.stmts[i]? = some st → ∃ (st' : Stmt) (c : Nat), pk.stmts[i]? = some st' ∧
    st'.dimOrig = st.dimOrig ∧ st'.dim = c + st.dim ∧
    (∀ (l : Nat) (r : List Int), st.trans[l]? = some r → st'.trans[up b.loop.depth (k * b.width) l]? = some (zrow c ++ r)) ∧
    ((∀ m < b.width, ¬ p.Scalar (b.loop.depth + m) i) → c = k * b.width ∧ ∀ m < b.width, ¬ pk.Scalar (b.loop.depth + m) i)

theorem TileSetup.shift {p p' : Prog} {a : Nat → TArg} {bands : List Band} {sizes : Nat → Nat → Int} (H : TileSetup p a p' bands sizes) :
    Shift p p' bands 1 := by
  refine ⟨H.tiled.npar, H.tiled.len, fun b hb i hi st g => ?_⟩
  obtain ⟨n, hn⟩ := List.getElem?_of_mem hb
  have hr := (H.bandsOK.range b hb).2 i hi
  have hle := (H.bandsOK.range b hb).1
  have lev := H.ok.levels st (List.mem_of_getElem? g)
  have ea := H.args n b hn i hi
  obtain ⟨st', g', R⟩ := H.tiled.rows g (by rw [lev]; exact H.levels i hr)
  obtain ⟨st1, st2, k1, k2, k3, _⟩ := H.tiled.stmts i st g
  rw [g'] at k1; cases k1
  rw [ea] at R k2
  refine ⟨st', _, g', ?_, R.dim, ?_, ?_⟩
  · rw [k3.2.1, k2.dimOrig]
  · intro l r hl
    have hlt := (List.getElem?_eq_some_iff.mp hl).1
    have := R.old l hlt
    rw [hl] at this
    simpa using this
  · intro hns
    have hty : ∀ m < b.width, ¬ p.ScalarType (b.loop.depth + m) i := fun m hm h => hns m hm ((H.types i hr _ (by omega)).mp h)
    refine ⟨?_, fun m hm h => hty m hm (((H.lift hn hi).tile m hm).1.mp h)⟩
    show (tileOffsets st b.loop.depth b.width).length = _
    unfold tileOffsets
    rw [List.filter_eq_self.mpr, List.length_range, Nat.one_mul]
    intro m hm
    rw [List.mem_range] at hm
    simp only [decide_eq_true_eq]
    exact fun h => hty m hm ⟨st, g, h⟩

theorem Shift.trans {p p1 p2 : Prog} {bands : List Band} {k : Nat} (h : Shift p p1 bands k) (h' : Shift p1 p2 bands 1) : Shift p p2 bands (k + 1) := by
  refine ⟨h'.npar.trans h.npar, h'.len.trans h.len, fun b hb i hi st g => ?_⟩
  obtain ⟨st1, c1, g1, a1, a2, a3, a4⟩ := h.stmt b hb i hi st g
  obtain ⟨st2, c2, g2, b1, b2, b3, b4⟩ := h'.stmt b hb i hi st1 g1
  refine ⟨st2, c2 + c1, g2, b1.trans a1, by omega, ?_, ?_⟩
  · intro l r hl
    have := b3 _ _ (a3 l r hl)
    have e : zrow c2 ++ (zrow c1 ++ r) = zrow (c2 + c1) ++ r := by
      unfold zrow; rw [List.replicate_add, List.append_assoc]
    rw [e] at this
    rw [← this]
    congr 1
    rw [Nat.add_mul]
    by_cases c : l < b.loop.depth
    · rw [up_lt c, up_lt c, up_lt c]
    · rw [up_ge (show b.loop.depth ≤ l by omega), up_ge (show b.loop.depth ≤ l by omega), up_ge (by omega)]; omega
  · intro hns
    obtain ⟨x1, x2⟩ := a4 hns
    obtain ⟨y1, y2⟩ := b4 x2
    refine ⟨by rw [x1, y1, Nat.add_mul]; omega, y2⟩

theorem Shift.resat {p p1 p2 : Prog} {bands : List Band} {k : Nat} (h : Shift p p1 bands k) (e : p2 = { p1 with deps := p2.deps }) : Shift p p2 bands k := by
  have es : p2.stmts = p1.stmts := by rw [e]
  refine ⟨by rw [e]; exact h.npar, by rw [es]; exact h.len, fun b hb i hi st g => ?_⟩
  obtain ⟨st1, c1, g1, a1, a2, a3, a4⟩ := h.stmt b hb i hi st g
  refine ⟨st1, c1, by rw [es]; exact g1, a1, a2, a3, fun hns => ⟨(a4 hns).1, fun m hm hc => (a4 hns).2 m hm ?_⟩⟩
  unfold Prog.Scalar at hc ⊢
  rwa [es] at hc

theorem tile_shift {p : Prog} {bands : List Band} {sizes : Nat → Nat → Int} (hz : ∀ n m, 1 ≤ sizes n m) (hok : p.OK) (hT : TypesRight p)
    (hps : PureScalars p) (hB : BandsOK p bands) {p' : Prog} (e : tileScatteringDims p bands sizes = some p') : Shift p p' bands 1 := by
  obtain ⟨a, p1, h1, h2, h3, h4⟩ := tileScattering_spec hok hB (fun n b _ m _ => hz n m)
  rw [e] at h1; cases h1
  exact (⟨hok, hT, hps, hB, fun n b _ m _ => hz n m, h3, h4, h2⟩ : TileSetup p a p' bands sizes).shift

/-! ### The program with the evicted hyperplanes put back -/

theorem putBack_stmt {p : Prog} {ev : List (Option Evicted)} (hl : ev.length = p.stmts.length) {i : Nat} {st : Stmt} (g : p.stmts[i]? = some st) :
    ∃ e, ev[i]? = some e ∧ (putBack p ev).stmts[i]? = some (putBackStmt st e) := by
  have hi := (List.getElem?_eq_some_iff.mp g).1
  refine ⟨_, List.getElem?_eq_getElem (by omega), ?_⟩
  unfold putBack
  simp only [List.getElem?_zipWith, g, List.getElem?_eq_getElem (show i < ev.length by omega)]

theorem putBackStmt_dim (st : Stmt) (e : Option Evicted) : (putBackStmt st e).dim = st.dim := by cases e <;> rfl

theorem putBack_dim {p : Prog} {ev : List (Option Evicted)} (hl : ev.length = p.stmts.length) (i : Nat) : (putBack p ev).dim i = p.dim i := by
  by_cases hi : i < p.stmts.length
  · have g := List.getElem?_eq_getElem hi
    obtain ⟨e, _, h⟩ := putBack_stmt hl g
    simp only [Prog.dim, h, g, Option.map_some, putBackStmt_dim]
  · have : ¬ i < (putBack p ev).stmts.length := by unfold putBack; simp; omega
    simp only [Prog.dim, List.getElem?_eq_none (Nat.le_of_not_lt hi), List.getElem?_eq_none (Nat.le_of_not_lt this)]

theorem putBack_ok {p : Prog} {bands : List Band} {ev : List (Option Evicted)} (hok : p.OK) (hev : EvictedFrom p bands ev) : (putBack p ev).OK := by
  have key : ∀ st' ∈ (putBack p ev).stmts, st'.OK p.npar ∧ st'.trans.length = p.hProps.length := by
    intro st' hst'
    obtain ⟨i, hi⟩ := List.getElem?_of_mem hst'
    have hlt : i < p.stmts.length := by
      have := (List.getElem?_eq_some_iff.mp hi).1
      unfold putBack at this; simp at this; omega
    have g := List.getElem?_eq_getElem hlt
    obtain ⟨e, h1, h2⟩ := putBack_stmt hev.len g
    rw [h2] at hi; cases hi
    have so := hok.stmts _ (List.mem_of_getElem? g)
    have sl := hok.levels _ (List.mem_of_getElem? g)
    cases e with
    | none => exact ⟨so, sl⟩
    | some e =>
      have hh := (hev.hyp i e h1).1
      have ed : p.dim i = p.stmts[i].dim := by simp only [Prog.dim, g, Option.map_some, Option.getD_some]
      refine ⟨⟨so.wf, so.cols, ?_, ?_⟩, ?_⟩
      · intro r hr
        rcases List.mem_or_eq_of_mem_set hr with hr | rfl
        · exact so.trans r hr
        · rw [hh, ed]; rfl
      · simpa [putBackStmt] using so.types
      · simpa [putBackStmt] using sl
  have hlen : (putBack p ev).stmts.length = p.stmts.length := by unfold putBack; simp [hev.len]
  refine ⟨fun st h => (key st h).1, fun st h => (key st h).2, fun d hd => ?_⟩
  obtain ⟨h1, h2, h3⟩ := hok.deps d hd
  refine ⟨by rw [hlen]; exact h1, by rw [hlen]; exact h2, ?_⟩
  exact ⟨h3.wf, by rw [putBack_dim hev.len, putBack_dim hev.len]; exact h3.cols⟩

/-! ### Rescheduling -/

/-- What rescheduling does to the statements of a tiled program. -/
structure Resched (p2 R : Prog) (bands : List Band) (k : Nat) (ev : List (Option Evicted)) : Prop where
  eq : R = { p2 with stmts := R.stmts }
  len : R.stmts.length = p2.stmts.length
  keep : ∀ i : Nat, (∀ e, ev[i]? ≠ some (some e)) → R.stmts[i]? = p2.stmts[i]?
  change : ∀ b ∈ bands, ∀ i ∈ b.loop.stmts, ∀ e, ev[i]? = some (some e) → ∀ st : Stmt, p2.stmts[i]? = some st →
    R.stmts[i]? = some { st with trans := st.trans.set (k * b.width + e.pos) (zrow (k * b.width) ++ e.hyp) }

theorem band_unique {bands : List Band} (hdis : bands.Pairwise (fun b c => ∀ i ∈ b.loop.stmts, i ∉ c.loop.stmts)) {b c : Band} (hb : b ∈ bands)
    (hc : c ∈ bands) {i : Nat} (h1 : i ∈ b.loop.stmts) (h2 : i ∈ c.loop.stmts) : b = c := by
  by_contra hne
  obtain ⟨nb, hnb, eb⟩ := List.getElem_of_mem hb
  obtain ⟨nc, hnc, ec⟩ := List.getElem_of_mem hc
  have pw := List.pairwise_iff_getElem.mp hdis
  rcases Nat.lt_trichotomy nb nc with h | h | h
  · exact pw nb nc hnb hnc h i (by rw [eb]; exact h1) (by rw [ec]; exact h2)
  · subst h; exact hne (eb.symm.trans ec)
  · exact pw nc nb hnc hnb h i (by rw [ec]; exact h2) (by rw [eb]; exact h1)

theorem reschedule_spec {p p2 : Prog} {bands : List Band} {k : Nat} {ev : List (Option Evicted)} (hok : p.OK) (h : Shift p p2 bands k)
    (hB : BandsOK p bands) (hev : EvictedFrom p bands ev) :
    ∃ R ev', reschedule p2 ev = some (R, ev', ev.any Option.isSome) ∧ Resched p2 R bands k ev := by
  have hlen : ev.length = p2.stmts.length := by rw [h.len]; exact hev.len
  -- the exchange in one statement
  have one : ∀ (i : Nat) (e : Evicted) (b : Band) (st2 : Stmt), ev[i]? = some (some e) → b ∈ bands → i ∈ b.loop.stmts → p2.stmts[i]? = some st2 →
      (∀ m < b.width, ¬ p.Scalar (b.loop.depth + m) i) → b.loop.depth ≤ e.pos → e.pos < b.loop.depth + b.width →
      ∃ e', reschedStmt st2 (some e) = some ({ st2 with trans := st2.trans.set (k * b.width + e.pos) (zrow (k * b.width) ++ e.hyp) }, e') := by
    intro i e b st2 he hb hi g2 hns hp1 hp2
    have hlt : i < p.stmts.length := by rw [← h.len]; exact (List.getElem?_eq_some_iff.mp g2).1
    have g := List.getElem?_eq_getElem hlt
    obtain ⟨st', c, g', a1, a2, a3, a4⟩ := h.stmt b hb i hi _ g
    rw [g2] at g'; cases g'
    obtain ⟨hc, _⟩ := a4 hns
    subst hc
    have ho := hev.orig i _ e g he
    have hh := (hev.hyp i e he).1
    have ed : p.dim i = p.stmts[i].dim := by simp only [Prog.dim, g, Option.map_some, Option.getD_some]
    have hfl : st2.dim - st2.dimOrig = k * b.width := by rw [a1, a2, ho]; omega
    have lev := hok.levels _ (List.mem_of_getElem? g)
    have sok := hok.stmts _ (List.mem_of_getElem? g)
    have hr := (hB.range b hb).1
    have gr := List.getElem?_eq_getElem (show e.pos < p.stmts[i].trans.length by omega)
    have gr2 := a3 _ _ gr
    rw [up_ge hp1, Nat.add_comm] at gr2
    have rl := sok.trans _ (List.mem_of_getElem? gr)
    unfold reschedStmt
    simp only [hfl, gr2, Option.bind_eq_bind, Option.bind_some]
    rw [if_neg (by rw [List.length_append, zrow_length, hh, rl, ed]; simp)]
    rw [List.take_left' (zrow_length _)]
    exact ⟨_, rfl⟩
  have hdef : ∀ x ∈ p2.stmts.zip ev, (reschedStmt x.1 x.2).isSome := by
    rintro ⟨st, e⟩ hx
    obtain ⟨i, hi⟩ := List.getElem?_of_mem hx
    rw [List.getElem?_zip_eq_some] at hi
    obtain ⟨x1, x2⟩ := hi
    cases e with
    | none => rfl
    | some e =>
      obtain ⟨b, hb, hib, q1, q2, q3⟩ := hev.band i e x2
      obtain ⟨e', he'⟩ := one i e b st x2 hb hib x1 q3 q1 q2
      show (reschedStmt st (some e)).isSome
      rw [he']; rfl
  obtain ⟨l, hl⟩ := mapM_some_of hdef
  have hF := mapM_forall₂ _ _ _ hl
  have hll : l.length = p2.stmts.length := by
    rw [← hF.length_eq, List.length_zip]; omega
  have hget : ∀ (i : Nat) (st : Stmt) (e : Option Evicted), p2.stmts[i]? = some st → ev[i]? = some e → ∃ y, l[i]? = some y ∧ reschedStmt st e = some y := by
    intro i st e g1 g2
    have hi := (List.getElem?_eq_some_iff.mp g1).1
    have hz : (p2.stmts.zip ev)[i]? = some (st, e) := List.getElem?_zip_eq_some.mpr ⟨g1, g2⟩
    obtain ⟨hi1, hz2⟩ := List.getElem?_eq_some_iff.mp hz
    have := (List.forall₂_iff_get.mp hF).2 i hi1 (by omega)
    simp only [List.get_eq_getElem, hz2] at this
    exact ⟨_, List.getElem?_eq_getElem (by omega), this⟩
  refine ⟨{ p2 with stmts := l.map (·.1) }, l.map (·.2), ?_, rfl, by simp [hll], ?_, ?_⟩
  · unfold reschedule
    rw [hl]
    rfl
  · intro i hi
    simp only [List.getElem?_map]
    by_cases hlt : i < p2.stmts.length
    · have g1 := List.getElem?_eq_getElem hlt
      have g2 := List.getElem?_eq_getElem (show i < ev.length by omega)
      have : ev[i]'(by omega) = none := by
        cases hc : ev[i]'(by omega) with
        | none => rfl
        | some e => rw [hc] at g2; exact absurd g2 (hi e)
      rw [this] at g2
      obtain ⟨y, y1, y2⟩ := hget i _ _ g1 g2
      have y2 : some (p2.stmts[i], (none : Option Evicted)) = some y := y2
      cases y2
      rw [y1, g1]; rfl
    · rw [List.getElem?_eq_none (by omega), List.getElem?_eq_none (by omega)]; rfl
  · intro b hb i hi e he st g
    obtain ⟨b', hb', hib', q1, q2, q3⟩ := hev.band i e he
    obtain rfl := band_unique hB.disjoint hb hb' hi hib'
    obtain ⟨e', he'⟩ := one i e b st he hb hi g q3 q1 q2
    obtain ⟨y, y1, y2⟩ := hget i _ _ g he
    rw [he'] at y2
    cases y2
    simp only [List.getElem?_map, y1, Option.map_some]

section
variable {p p2 R : Prog} {bands : List Band} {k : Nat} {ev : List (Option Evicted)} (hok : p.OK) (hS : Shift p p2 bands k) (hok2 : p2.OK)
  (hB : BandsOK p bands) (hev : EvictedFrom p bands ev) (hR : Resched p2 R bands k ev)

/-- The rows that rescheduling leaves alone. -/
def KeptRow (bands : List Band) (k : Nat) (ev : List (Option Evicted)) (i l : Nat) : Prop :=
  ∀ b ∈ bands, i ∈ b.loop.stmts → ∀ e, ev[i]? = some (some e) → l ≠ k * b.width + e.pos

include hok hS hok2 hB hev hR

theorem Resched.dim (i : Nat) : R.dim i = p2.dim i := by
  by_cases hc : ∃ e, ev[i]? = some (some e)
  · obtain ⟨e, he⟩ := hc
    obtain ⟨b, hb, hib, _⟩ := hev.band i e he
    have hlt : i < p2.stmts.length := by rw [hS.len]; exact (hB.range b hb).2 i hib
    have g := List.getElem?_eq_getElem hlt
    simp only [Prog.dim, hR.change b hb i hib e he _ g, g, Option.map_some]
  · simp only [Prog.dim, hR.keep i (fun e he => hc ⟨e, he⟩)]

theorem Resched.edit : Edit p2 R (KeptRow bands k ev) := by
  refine ⟨by rw [hR.eq], by rw [hR.eq], hR.len, hR.dim hok hS hok2 hB hev, ?_, fun d' hd' => ⟨d', by rw [hR.eq] at hd'; exact hd', rfl, rfl, rfl, rfl⟩⟩
  intro i l hk
  by_cases hc : ∃ e, ev[i]? = some (some e)
  · obtain ⟨e, he⟩ := hc
    obtain ⟨b, hb, hib, _⟩ := hev.band i e he
    have hlt : i < p2.stmts.length := by rw [hS.len]; exact (hB.range b hb).2 i hib
    have g := List.getElem?_eq_getElem hlt
    have hne := hk b hb hib e he
    simp only [Prog.row, hR.change b hb i hib e he _ g, g, Option.bind_some]
    rw [List.getElem?_set_ne (fun h => hne h.symm)]
  · simp only [Prog.row, hR.keep i (fun e he => hc ⟨e, he⟩)]

/-- The rows of the rescheduled program: those of the program with the hyperplanes put back. -/
theorem Resched.row {b : Band} (hb : b ∈ bands) {i : Nat} (hi : i ∈ b.loop.stmts) : ∃ c, p2.dim i = c + p.dim i ∧
    ∀ l < p.hProps.length, up b.loop.depth (k * b.width) l < p2.hProps.length ∧
      R.row i (up b.loop.depth (k * b.width) l) = zrow c ++ (putBack p ev).row i l := by
  have hlt := (hB.range b hb).2 i hi
  have hle := (hB.range b hb).1
  have g := List.getElem?_eq_getElem hlt
  obtain ⟨st', c, g', a1, a2, a3, a4⟩ := hS.stmt b hb i hi _ g
  have lev := hok.levels _ (List.mem_of_getElem? g)
  have lev2 := hok2.levels _ (List.mem_of_getElem? g')
  refine ⟨c, by simp only [Prog.dim, g, g', Option.map_some, Option.getD_some]; exact a2, fun l hl => ?_⟩
  have gl := List.getElem?_eq_getElem (show l < p.stmts[i].trans.length by omega)
  have gl' := a3 _ _ gl
  have hlt' := (List.getElem?_eq_some_iff.mp gl').1
  refine ⟨by omega, ?_⟩
  obtain ⟨e, he, hpb⟩ := putBack_stmt hev.len g
  cases e with
  | none =>
    have hkeep := hR.keep i (fun e he' => by rw [he] at he'; cases he')
    simp only [Prog.row, hkeep, g', hpb, putBackStmt, Option.bind_some, gl, gl', Option.getD_some]
  | some e =>
    obtain ⟨b', hb', hib', q1, q2, q3⟩ := hev.band i e he
    obtain rfl := band_unique hB.disjoint hb hb' hi hib'
    obtain ⟨hc, _⟩ := a4 q3
    subst hc
    simp only [Prog.row, hR.change b hb i hi e he _ g', hpb, putBackStmt, Option.bind_some]
    by_cases hpos : l = e.pos
    · subst hpos
      rw [up_ge q1, Nat.add_comm e.pos]
      rw [up_ge q1] at hlt'
      rw [List.getElem?_set_self (by omega), List.getElem?_set_self (by omega)]
      rfl
    · rw [List.getElem?_set_ne, List.getElem?_set_ne (fun h => hpos h.symm), gl, gl']
      · rfl
      · by_cases cl : l < b.loop.depth
        · rw [up_lt cl]; omega
        · rw [up_ge (by omega)]; omega

theorem Resched.ok : R.OK := by
  have E := hR.edit hok hS hok2 hB hev
  have key : ∀ st' ∈ R.stmts, st'.OK p2.npar ∧ st'.trans.length = p2.hProps.length := by
    intro st' hst'
    obtain ⟨i, hi⟩ := List.getElem?_of_mem hst'
    by_cases hc : ∃ e, ev[i]? = some (some e)
    · obtain ⟨e, he⟩ := hc
      obtain ⟨b, hb, hib, q1, q2, q3⟩ := hev.band i e he
      have hlt := (hB.range b hb).2 i hib
      have g := List.getElem?_eq_getElem hlt
      obtain ⟨st2, c, g', a1, a2, a3, a4⟩ := hS.stmt b hb i hib _ g
      obtain ⟨hc, _⟩ := a4 q3
      subst hc
      rw [hR.change b hb i hib e he _ g'] at hi
      cases hi
      have so := hok2.stmts _ (List.mem_of_getElem? g')
      have sl := hok2.levels _ (List.mem_of_getElem? g')
      have hh := (hev.hyp i e he).1
      have ed : p.dim i = p.stmts[i].dim := by simp only [Prog.dim, g, Option.map_some, Option.getD_some]
      refine ⟨⟨so.wf, so.cols, ?_, ?_⟩, ?_⟩
      · intro r hr
        rcases List.mem_or_eq_of_mem_set hr with hr | rfl
        · exact so.trans r hr
        · rw [List.length_append, zrow_length, hh, ed, hS.npar]
          show _ = st2.dim + p.npar + 1
          omega
      · simpa using so.types
      · simpa using sl
    · rw [hR.keep i (fun e he => hc ⟨e, he⟩)] at hi
      exact ⟨hok2.stmts _ (List.mem_of_getElem? hi), hok2.levels _ (List.mem_of_getElem? hi)⟩
  have e1 : R.npar = p2.npar := E.npar
  refine ⟨fun st h => by rw [e1]; exact (key st h).1, fun st h => by rw [E.levels]; exact (key st h).2, fun d hd => ?_⟩
  have hd2 : d ∈ p2.deps := by rw [hR.eq] at hd; exact hd
  obtain ⟨h1, h2, h3⟩ := hok2.deps d hd2
  exact ⟨by rw [hR.len]; exact h1, by rw [hR.len]; exact h2, ⟨h3.wf, by rw [E.dim, E.dim, e1]; exact h3.cols⟩⟩

/-- Changed rows are loops before and after. -/
theorem Resched.loops {i l : Nat} (hk : ¬ KeptRow bands k ev i l) : ¬ p2.Scalar l i ∧ ¬ R.Scalar l i := by
  unfold KeptRow at hk
  push Not at hk
  obtain ⟨b, hb, hi, e, he, rfl⟩ := hk
  obtain ⟨b', hb', hib', q1, q2, q3⟩ := hev.band i e he
  obtain rfl := band_unique hB.disjoint hb hb' hi hib'
  have hlt := (hB.range b hb).2 i hi
  have hle := (hB.range b hb).1
  have g := List.getElem?_eq_getElem hlt
  obtain ⟨st2, c, g', a1, a2, a3, a4⟩ := hS.stmt b hb i hi _ g
  obtain ⟨hc, _⟩ := a4 q3
  subst hc
  have lev := hok.levels _ (List.mem_of_getElem? g)
  have gl := List.getElem?_eq_getElem (show e.pos < p.stmts[i].trans.length by omega)
  have gl' := a3 _ _ gl
  rw [up_ge q1, Nat.add_comm] at gl'
  have ed : p.dim i = p.stmts[i].dim := by simp only [Prog.dim, g, Option.map_some, Option.getD_some]
  constructor
  · rintro ⟨st, r, x1, x2, x3⟩
    rw [g'] at x1; cases x1
    rw [gl'] at x2; cases x2
    rw [a2] at x3
    have := q3 (e.pos - b.loop.depth) (by omega)
    rw [show b.loop.depth + (e.pos - b.loop.depth) = e.pos by omega] at this
    exact this ⟨_, _, g, gl, (scalar_row _ _ _).mp x3⟩
  · rintro ⟨st, r, x1, x2, x3⟩
    rw [hR.change b hb i hi e he _ g'] at x1; cases x1
    have hl' := (List.getElem?_eq_some_iff.mp gl').1
    simp only [List.getElem?_set_self hl'] at x2
    cases x2
    simp only [a2] at x3
    obtain ⟨v, v1, v2⟩ := (hev.hyp i e he).2
    rw [ed] at v1
    exact v2 ((scalar_row _ _ _).mp x3 v v1)

theorem Resched.scalar {i l : Nat} (hi : i < p2.stmts.length) (hl : l < p2.hProps.length) : R.Scalar l i ↔ p2.Scalar l i := by
  have E := hR.edit hok hS hok2 hB hev
  by_cases hk : KeptRow bands k ev i l
  · exact E.scalar hok2 (hR.ok hok hS hok2 hB hev) hi hl hk
  · have := hR.loops hok hS hok2 hB hev hk
    exact ⟨fun h => absurd h this.2, fun h => absurd h this.1⟩

theorem Resched.uniform {S : List Nat} {f : Nat} (hr : ∀ i ∈ S, i < p2.stmts.length) (hU : Uniform p2 f p2.hProps.length S) :
    Uniform R f R.hProps.length S := by
  have E := hR.edit hok hS hok2 hB hev
  intro l h1 h2 i hi j hj hag hsc
  rw [E.levels] at h2
  have sc : ∀ {i l : Nat}, i ∈ S → l < p2.hProps.length → (R.Scalar l i ↔ p2.Scalar l i) := fun hi hl =>
    hR.scalar hok hS hok2 hB hev (hr _ hi) hl
  rw [sc hj h2]
  refine hU l h1 h2 i hi j hj (fun l' x1 x2 x3 x4 => ?_) ((sc hi h2).mp hsc)
  have := hag l' x1 x2 ((sc hi (by omega)).mpr x3) ((sc hj (by omega)).mpr x4)
  have k1 : KeptRow bands k ev i l' := by
    by_contra hc
    exact (hR.loops hok hS hok2 hB hev hc).1 x3
  have k2 : KeptRow bands k ev j l' := by
    by_contra hc
    exact (hR.loops hok hS hok2 hB hev hc).1 x4
  rwa [E.const k1, E.const k2] at this

theorem Resched.pure (hps : PureScalars p2) : PureScalars R := by
  have E := hR.edit hok hS hok2 hB hev
  intro i l x q hsc hx hq
  have k1 : KeptRow bands k ev i l := by
    by_contra hc
    exact (hR.loops hok hS hok2 hB hev hc).2 hsc
  obtain ⟨st, r, x1, x2, _⟩ := hsc
  have hi : i < p2.stmts.length := by rw [← hR.len]; exact (List.getElem?_eq_some_iff.mp x1).1
  have hl : l < p2.hProps.length := by
    have := (hR.ok hok hS hok2 hB hev).levels _ (List.mem_of_getElem? x1)
    rw [E.levels] at this
    rw [← this]; exact (List.getElem?_eq_some_iff.mp x2).1
  rw [E.phi k1, E.const k1]
  exact hps i l x q ((hR.scalar hok hS hok2 hB hev hi hl).mp ⟨st, r, x1, x2, by assumption⟩) (by rw [← E.dim]; exact hx) (by rw [← E.npar]; exact hq)

end

end Pluto
