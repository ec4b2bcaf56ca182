import Verif.Lemmas.DiamondTile

/-! `pluto_tile` with diamond tiling as a whole. -/

namespace Pluto

/-- Time stamps in order, by the values of the rows. -/
theorem lexBefore_phi {p : Prog} (hok : p.OK) {i j : Nat} (hi : i < p.stmts.length) (hj : j < p.stmts.length) (x y q : List Int) :
    LexBefore (p.timestamp i x q) (p.timestamp j y q) ↔
      ∃ l < p.hProps.length, p.phi i l x q < p.phi j l y q ∧ ∀ l' < l, p.phi i l' x q = p.phi j l' y q := by
  have gi := List.getElem?_eq_getElem hi
  have gj := List.getElem?_eq_getElem hj
  have li := hok.levels _ (List.mem_of_getElem? gi)
  have lj := hok.levels _ (List.mem_of_getElem? gj)
  have ti : ∀ l < p.hProps.length, (p.timestamp i x q)[l]? = some (p.phi i l x q) := fun l hl => timestamp_get gi (by omega) x q
  have tj : ∀ l < p.hProps.length, (p.timestamp j y q)[l]? = some (p.phi j l y q) := fun l hl => timestamp_get gj (by omega) y q
  constructor
  · rintro ⟨l, a, b, h1, h2, h3, h4⟩
    have hl : l < p.hProps.length := by
      have := (List.getElem?_eq_some_iff.mp h1).1
      unfold Prog.timestamp at this
      simp only [gi, Option.map_some, Option.getD_some, List.length_map] at this
      omega
    rw [ti l hl] at h1; cases h1
    rw [tj l hl] at h2; cases h2
    refine ⟨l, hl, h3, fun l' hl' => ?_⟩
    have := h4 l' hl'
    rw [ti l' (by omega), tj l' (by omega)] at this
    exact Option.some.inj this
  · rintro ⟨l, hl, h3, h4⟩
    refine ⟨l, _, _, ti l hl, tj l hl, h3, fun l' hl' => ?_⟩
    rw [ti l' (by omega), tj l' (by omega), h4 l' hl']

/-- A dependent pair of a program with the same runs. -/
theorem SameRuns.pull {p p' : Prog} {T : Nat → List Int → List Int → List Int} (h : SameRuns p p' T) {d' : Dep} (hd' : d' ∈ p'.deps)
    {s' t' q : List Int} (hin : p'.Inst d' s' t' q) : ∃ d ∈ p.deps, d'.src = d.src ∧ d'.dest = d.dest ∧ d'.rar = d.rar ∧
      ∃ s t, p.Inst d s t q ∧ s' = T d.src s q ++ s ∧ t' = T d.dest t q ++ t := by
  obtain ⟨d, hd, e1, e2, e3, e4⟩ := forall₂_mem_right h.deps hd'
  have hq : q.length = p.npar := by rw [← h.npar]; exact hin.hp
  obtain ⟨s, t, k1, k2, k3, k4, k5⟩ := (e4 s' t' q (by rw [← e1]; exact hin.hs) (by rw [← e2]; exact hin.ht) hq).mp hin.sat
  exact ⟨d, hd, e1, e2, e3, s, t, ⟨k1, k2, hq, k3⟩, k4, k5⟩

section
variable {p p2 R : Prog} {bands : List Band} {k : Nat} {ev : List (Option Evicted)} {T : Nat → List Int → List Int → List Int}
  (hok : p.OK) (hS : Shift p p2 bands k) (hok2 : p2.OK) (hB : BandsOK p bands) (hev : EvictedFrom p bands ev) (hR : Resched p2 R bands k ev)
  (hT : SameRuns p p2 T)

include hok hS hok2 hB hev hR hT

theorem Resched.phi {b : Band} (hb : b ∈ bands) {i : Nat} (hi : i ∈ b.loop.stmts) {x q : List Int} (hx : x.length = p.dim i) {l : Nat}
    (hl : l < p.hProps.length) : up b.loop.depth (k * b.width) l < p2.hProps.length ∧
      R.phi i (up b.loop.depth (k * b.width) l) (T i x q ++ x) q = (putBack p ev).phi i l x q := by
  obtain ⟨c, h1, h2⟩ := hR.row hok hS hok2 hB hev hb hi
  obtain ⟨h3, h4⟩ := h2 l hl
  refine ⟨h3, ?_⟩
  unfold Prog.phi
  rw [h4, List.append_assoc, aff_zrow_append]
  have := hT.coords i x q hx
  omega

/-- A pair within a band of the rescheduled program, tied outside the loops inside the tiles. -/
theorem Resched.inner {b : Band} (hb : b ∈ bands) {d' : Dep} (hd' : d' ∈ R.deps) (hs : d'.src ∈ b.loop.stmts) (ht : d'.dest ∈ b.loop.stmts)
    {s' t' q : List Int} (hin : R.Inst d' s' t' q) : ∃ d ∈ (putBack p ev).deps, d.src = d'.src ∧ d.dest = d'.dest ∧ d.rar = d'.rar ∧
      ∃ s t, (putBack p ev).Inst d s t q ∧ ∀ l < p.hProps.length, up b.loop.depth (k * b.width) l < R.hProps.length ∧
        R.phi d'.src (up b.loop.depth (k * b.width) l) s' q = (putBack p ev).phi d.src l s q ∧
        R.phi d'.dest (up b.loop.depth (k * b.width) l) t' q = (putBack p ev).phi d.dest l t q := by
  have E := hR.edit hok hS hok2 hB hev
  have hd2 : d' ∈ p2.deps := by rw [hR.eq] at hd'; exact hd'
  have hin2 : p2.Inst d' s' t' q :=
    ⟨by rw [← E.dim]; exact hin.hs, by rw [← E.dim]; exact hin.ht, by rw [← E.npar]; exact hin.hp, hin.sat⟩
  obtain ⟨d, hd, e1, e2, e3, s, t, hi, rfl, rfl⟩ := hT.pull hd2 hin2
  rw [e1] at hs
  rw [e2] at ht
  refine ⟨d, hd, e1.symm, e2.symm, e3.symm, s, t, ⟨by rw [putBack_dim hev.len]; exact hi.hs, by rw [putBack_dim hev.len]; exact hi.ht, hi.hp, hi.sat⟩,
    fun l hl => ?_⟩
  obtain ⟨x1, x2⟩ := hR.phi hok hS hok2 hB hev hT hb hs (q := q) hi.hs hl
  obtain ⟨y1, y2⟩ := hR.phi hok hS hok2 hB hev hT hb ht (q := q) hi.ht hl
  rw [e1, e2, E.levels]
  exact ⟨x1, x2, y2⟩

theorem Resched.comps {b : Band} (hb : b ∈ bands) (hnn : NonNegBands (putBack p ev) bands) :
    CompsOK R (b.loop.depth + k * b.width) b.width b.loop.stmts := by
  intro d' hd' hr' hs' ht' s' t' q hin htied m hm
  obtain ⟨d, hd, e1, e2, e3, s, t, hi, hphi⟩ := hR.inner hok hS hok2 hB hev hT hb hd' hs' ht' hin
  have hle := (hB.range b hb).1
  have hcomp : ∀ l < p.hProps.length, R.comp d' (up b.loop.depth (k * b.width) l) s' t' q = (putBack p ev).comp d l s t q := by
    intro l hl
    obtain ⟨_, x1, x2⟩ := hphi l hl
    unfold Prog.comp
    rw [x1, x2]
  have := hnn b hb d hd (by rw [e3]; exact hr') (by rw [e1]; exact hs') (by rw [e2]; exact ht') s t q hi (fun l hl => by
    rw [← hcomp l (by omega), up_lt hl]
    exact htied l (by omega)) m hm
  rw [← hcomp _ (by omega), up_ge (by omega)] at this
  rwa [show b.loop.depth + k * b.width + m = b.loop.depth + m + k * b.width by omega]

theorem Resched.legal (hleg2 : p2.Legal) (hsep : ∀ b ∈ bands, Separated p2 b) (hleg : (putBack p ev).Legal) : R.Legal := by
  have E := hR.edit hok hS hok2 hB hev
  have okR := hR.ok hok hS hok2 hB hev
  have okB := putBack_ok hok hev
  have hlenB : (putBack p ev).stmts.length = p.stmts.length := by unfold putBack; simp [hev.len]
  intro d' hd' hr' s' t' q g1 g2 g3 g4
  have hin : R.Inst d' s' t' q := ⟨g1, g2, g3, g4⟩
  have hd2 : d' ∈ p2.deps := by rw [hR.eq] at hd'; exact hd'
  have hin2 : p2.Inst d' s' t' q :=
    ⟨by rw [← E.dim]; exact hin.hs, by rw [← E.dim]; exact hin.ht, by rw [← E.npar]; exact hin.hp, hin.sat⟩
  obtain ⟨s1, s2, _⟩ := hok2.deps d' hd2
  have s1' : d'.src < R.stmts.length := by rw [hR.len]; exact s1
  have s2' : d'.dest < R.stmts.length := by rw [hR.len]; exact s2
  have old := (lexBefore_phi hok2 s1 s2 s' t' q).mp (hleg2 d' hd2 hr' s' t' q hin2.hs hin2.ht hin2.hp hin2.sat)
  rw [lexBefore_phi okR s1' s2']
  by_cases hx : ∃ b ∈ bands, ¬(d'.src ∈ b.loop.stmts ↔ d'.dest ∈ b.loop.stmts)
  · -- a pair that leaves a band
    obtain ⟨b, hb, hne⟩ := hx
    obtain ⟨l, x, y, _, hl2, x1, x2, x3, x4⟩ := sep_level hB.disjoint hsep hb hd2 hr' hne hin2
    have gi := List.getElem?_eq_getElem s1
    have gj := List.getElem?_eq_getElem s2
    have li := hok2.levels _ (List.mem_of_getElem? gi)
    have lj := hok2.levels _ (List.mem_of_getElem? gj)
    have hl : l < p2.hProps.length := by
      have := (List.getElem?_eq_some_iff.mp x1).1
      unfold Prog.timestamp at this
      simp only [gi, Option.map_some, Option.getD_some, List.length_map] at this
      omega
    have kept : ∀ i, (i = d'.src ∨ i = d'.dest) → ∀ l' ≤ l, KeptRow bands k ev i l' := by
      intro i hi l' hl' c hc hic e he
      obtain ⟨b', hb', hib', q1, q2, q3⟩ := hev.band i e he
      obtain rfl := band_unique hB.disjoint hc hb' hic hib'
      have := hl2 c hc (by rcases hi with rfl | rfl; exacts [.inl hic, .inr hic])
      omega
    rw [timestamp_get gi (by omega)] at x1; cases x1
    rw [timestamp_get gj (by omega)] at x2; cases x2
    refine ⟨l, by rw [E.levels]; exact hl, ?_, fun l' hl' => ?_⟩
    · rw [E.phi (kept _ (.inl rfl) l le_rfl), E.phi (kept _ (.inr rfl) l le_rfl)]; exact x3
    · rw [E.phi (kept _ (.inl rfl) l' (by omega)), E.phi (kept _ (.inr rfl) l' (by omega))]
      have := x4 l' hl'
      rw [timestamp_get gi (by omega), timestamp_get gj (by omega)] at this
      exact Option.some.inj this
  · push Not at hx
    by_cases hy : ∃ b ∈ bands, d'.src ∈ b.loop.stmts
    · -- a pair within a band
      obtain ⟨b, hb, hs⟩ := hy
      have ht := (hx b hb).mp hs
      have hle := (hB.range b hb).1
      have kept : ∀ i ∈ b.loop.stmts, ∀ l' < b.loop.depth + k * b.width, KeptRow bands k ev i l' := by
        intro i hi l' hl' c hc hic e he
        obtain ⟨b', hb', hib', q1, q2, q3⟩ := hev.band i e he
        obtain rfl := band_unique hB.disjoint hc hb' hic hib'
        obtain rfl := band_unique hB.disjoint hb hc hi hic
        omega
      obtain ⟨l, hl, h3, h4⟩ := old
      by_cases hlt : l < b.loop.depth + k * b.width
      · refine ⟨l, by rw [E.levels]; exact hl, ?_, fun l' hl' => ?_⟩
        · rw [E.phi (kept _ hs l hlt), E.phi (kept _ ht l hlt)]; exact h3
        · rw [E.phi (kept _ hs l' (by omega)), E.phi (kept _ ht l' (by omega))]; exact h4 l' hl'
      · obtain ⟨d, hd, e1, e2, e3, s, t, hi, hphi⟩ := hR.inner hok hS hok2 hB hev hT hb hd' hs ht hin
        obtain ⟨k1, k2, _⟩ := okB.deps d hd
        obtain ⟨l0, m1, m2, m3⟩ := (lexBefore_phi okB k1 k2 s t q).mp (hleg d hd (by rw [e3]; exact hr') s t q hi.hs hi.ht hi.hp hi.sat)
        have m1 : l0 < p.hProps.length := m1
        have tied : ∀ l' < b.loop.depth + k * b.width, R.phi d'.src l' s' q = R.phi d'.dest l' t' q := by
          intro l' hl'
          rw [E.phi (kept _ hs l' hl'), E.phi (kept _ ht l' hl')]
          exact h4 l' (by omega)
        have hge : b.loop.depth ≤ l0 := by
          by_contra hc
          obtain ⟨_, y1, y2⟩ := hphi l0 m1
          rw [up_lt (by omega)] at y1 y2
          have := tied l0 (by omega)
          omega
        obtain ⟨y0, y1, y2⟩ := hphi l0 m1
        rw [up_ge hge] at y0 y1 y2
        refine ⟨l0 + k * b.width, y0, by rw [y1, y2]; exact m2, fun l' hl' => ?_⟩
        by_cases hc : l' < b.loop.depth + k * b.width
        · exact tied l' hc
        · obtain ⟨_, z1, z2⟩ := hphi (l' - k * b.width) (by omega)
          rw [up_ge (by omega), show l' - k * b.width + k * b.width = l' by omega] at z1 z2
          rw [z1, z2]
          exact m3 _ (by omega)
    · -- statements outside all bands
      push Not at hy
      have kept : ∀ i, (i = d'.src ∨ i = d'.dest) → ∀ l, KeptRow bands k ev i l := by
        intro i hi l c hc hic
        rcases hi with rfl | rfl
        · exact absurd hic (hy c hc)
        · exact absurd ((hx c hc).mpr hic) (hy c hc)
      obtain ⟨l, hl, h3, h4⟩ := old
      refine ⟨l, by rw [E.levels]; exact hl, ?_, fun l' hl' => ?_⟩
      · rw [E.phi (kept _ (.inl rfl) l), E.phi (kept _ (.inr rfl) l)]; exact h3
      · rw [E.phi (kept _ (.inl rfl) l'), E.phi (kept _ (.inr rfl) l')]; exact h4 l' hl'

end

theorem Resched.same {p2 R : Prog} {bands : List Band} {k : Nat} {ev : List (Option Evicted)} (hR : Resched p2 R bands k ev)
    (hev : ∀ i e, ev[i]? = some (some e) → ∃ b ∈ bands, i ∈ b.loop.stmts) : Same p2 R := by
  refine ⟨by rw [hR.eq], ?_, ?_⟩
  · rw [List.forall₂_iff_get]
    refine ⟨hR.len.symm, fun i h1 h2 => ?_⟩
    simp only [List.get_eq_getElem]
    by_cases hc : ∃ e, ev[i]? = some (some e)
    · obtain ⟨e, he⟩ := hc
      obtain ⟨b, hb, hi⟩ := hev i e he
      have := hR.change b hb i hi e he _ (List.getElem?_eq_getElem h1)
      rw [List.getElem?_eq_getElem h2] at this
      rw [Option.some.inj this]
      exact ⟨rfl, rfl⟩
    · have := hR.keep i (fun e he => hc ⟨e, he⟩)
      rw [List.getElem?_eq_getElem h2, List.getElem?_eq_getElem h1] at this
      rw [Option.some.inj this]
      exact ⟨rfl, rfl⟩
  · have : R.deps = p2.deps := by rw [hR.eq]
    rw [this]
    exact List.forall₂_same.mpr (fun _ _ => ⟨rfl, rfl, rfl, rfl⟩)

/-- `pluto_tile` with diamond tiling. -/
theorem plutoTileDiamond_stage {isEmpty : Cst → Bool} (hE : EmptyOracle isEmpty) {best : Prog → List Loop → Option Loop}
    (hbest : ∀ p ls L, best p ls = some L → L ∈ ls) (o : TileOpts) (hip : o.innerpar = false) {sizes sizes2 : Nat → Nat → Int}
    (hz : ∀ n m, 1 ≤ sizes n m) (hz2 : ∀ n m, 1 ≤ sizes2 n m) {p : Prog} (hok : p.OK) (hi : p.Info) (hst : Stepwise p) (hT : TypesRight p)
    (hU : Uniform p 0 p.hProps.length (List.range p.stmts.length)) (hps : PureScalars p) (diamond : Bool) (ev : List (Option Evicted)) :
    ∃ bands, tileBands p = some bands ∧ ((o.parallel = true → ∀ b ∈ bands, Forward p b) → (diamond = true → EvictedFrom p bands ev ∧
        (putBack p ev).Legal ∧ NonNegBands (putBack p ev) bands) →
      ∃ p', plutoTileDiamond isEmpty best o diamond ev sizes sizes2 p = some p' ∧ Stage p' bands o.parallel ∧ Bits p' bands ∧ ∃ T, SameRuns p p' T) := by
  obtain ⟨bands, hb, hB, hbase⟩ := tileBands_base hok hi hst hT hU hps
  refine ⟨bands, hb, fun hfw hdia => ?_⟩
  have hleg := hst.legal hok
  obtain ⟨p1, e1, ok1, leg1, ty1, pu1, B1, T1, F1⟩ := tile_step hz hok hleg hT hps hB hbase
  have hlev : ∃ pk k, tileLevels o sizes sizes2 p bands = some (pk, k) ∧ 0 < k ∧ pk.OK ∧ pk.Legal ∧ PureScalars pk ∧ BandsOK pk bands ∧
      (∀ b ∈ bands, TBand pk b k) ∧ (o.parallel = true → ∀ b ∈ bands, Forward pk b) ∧ Shift p pk bands k ∧ ∃ T, SameRuns p pk T := by
    obtain ⟨T, hT1⟩ := tile_sameRuns hok hB hz e1
    have sh1 := tile_shift hz hok hT hps hB e1
    unfold tileLevels
    simp only [e1, Option.bind_eq_bind, Option.bind_some]
    by_cases c : o.secondLevel = true
    · rw [if_pos c]
      obtain ⟨p2, e2, ok2, leg2, ty2, pu2, B2, T2, F2⟩ := tile_step hz2 ok1 leg1 ty1 pu1 B1 T1
      rw [e2]
      obtain ⟨T', hT2⟩ := tile_sameRuns ok1 B1 hz2 e2
      exact ⟨p2, 2, rfl, by omega, ok2, leg2, pu2, B2, fun b hbm => (T2 b hbm).1, fun hp b hbm => F2 b hbm (F1 b hbm (hfw hp b hbm)),
        sh1.trans (tile_shift hz2 ok1 ty1 pu1 B1 e2), _, hT1.trans hT2⟩
    · rw [if_neg c]
      exact ⟨p1, 1, rfl, by omega, ok1, leg1, pu1, B1, fun b hbm => (T1 b hbm).1, fun hp b hbm => F1 b hbm (hfw hp b hbm), sh1, T, hT1⟩
  obtain ⟨pk, k, e2, hk, okk, legk, puk, Bk, Tk, Fk, shk, T, hTk⟩ := hlev
  obtain ⟨p2, e3, i2, q2, f2⟩ := recompute_spec hE okk
  have E2 := resat_edit q2 f2
  have ok2 := resat_ok q2 f2 okk
  have S2 : Stage p2 bands o.parallel := by
    refine ⟨ok2, resat_legal q2 f2 legk, i2.satLen, ?_, fun b hbm => (Tk b hbm).width, ?_, ?_⟩
    · exact ⟨fun b hbm => ⟨by rw [E2.levels]; exact (Bk.range b hbm).1, fun i hi => by rw [E2.len]; exact (Bk.range b hbm).2 i hi⟩,
        Bk.nodup, Bk.disjoint⟩
    · exact E2.separated okk ok2 Bk.disjoint (fun b hbm => (Tk b hbm).sep) (fun b hbm => by have := (Bk.range b hbm).1; omega)
        (fun _ _ _ => trivial)
    · intro hp b hbm
      exact E2.forward okk ok2 (Bk.range b hbm).2 (Bk.range b hbm).1 (fun _ _ _ _ => trivial) (Fk hp b hbm)
  have T2 : ∀ b ∈ bands, TBand p2 b k := fun b hbm => E2.tband okk ok2 (fun _ _ _ => trivial) (Tk b hbm) (S2.sep b hbm)
  have pu2 := resat_pure q2 puk
  have hT2 : SameRuns p p2 T := hTk.same (resat_same q2 f2)
  -- rescheduling
  have hre : ∃ p2', stepIf diamond (rescheduleTiles isEmpty ev) p2 = some p2' ∧ Stage p2' bands o.parallel ∧ p2'.Info ∧ PureScalars p2' ∧
      (∀ b ∈ bands, TBand p2' b k) ∧ Same p2 p2' := by
    unfold stepIf
    by_cases c : diamond = true
    swap
    · rw [if_neg c]
      exact ⟨p2, rfl, S2, i2, pu2, T2, .refl _⟩
    rw [if_pos c]
    obtain ⟨hev, hlegB, hnn⟩ := hdia c
    have sh2 := shk.resat q2
    obtain ⟨R, ev', er, hR⟩ := reschedule_spec hok sh2 hB hev
    have ER := hR.edit hok sh2 ok2 hB hev
    have okR := hR.ok hok sh2 ok2 hB hev
    have legR := hR.legal hok sh2 ok2 hB hev hT2 S2.legal S2.sep hlegB
    have same := hR.same (fun i e he => by obtain ⟨b, h1, h2, _⟩ := hev.band i e he; exact ⟨b, h1, h2⟩)
    have edeps : R.deps = p2.deps := by rw [hR.eq]
    have low : ∀ b ∈ bands, ∀ i ∈ b.loop.stmts, ∀ l < b.loop.depth + k * b.width, KeptRow bands k ev i l := by
      intro b hbm i hi l' hl' c hc hic e he
      obtain ⟨b', hb', hib', q1, _⟩ := hev.band i e he
      obtain rfl := band_unique hB.disjoint hc hb' hic hib'
      obtain rfl := band_unique hB.disjoint hbm hc hi hic
      omega
    have SR : Stage R bands o.parallel := by
      refine ER.stage S2 okR legR (fun d hd hr => ?_) ?_ ?_
      · rw [ER.levels]; exact S2.satLen d (by rw [← edeps]; exact hd) hr
      · intro i l hl c hc hic e he
        obtain ⟨b', hb', hib', q1, _⟩ := hev.band i e he
        obtain rfl := band_unique hB.disjoint hc hb' hic hib'
        have := hl c hc hic
        omega
      · intro hp b hbm
        refine ER.forward ok2 okR (S2.bandsOK.range b hbm).2 (S2.bandsOK.range b hbm).1 (fun i hi l hl => low b hbm i hi l ?_) (S2.fwd hp b hbm)
        have : b.width ≤ k * b.width := Nat.le_mul_of_pos_left _ hk
        omega
    have TR : ∀ b ∈ bands, TBand R b k := by
      intro b hbm
      have tb := T2 b hbm
      exact ⟨tb.ne, tb.nodup, fun i hi => by rw [ER.len]; exact tb.range i hi, tb.width, by rw [ER.levels]; exact tb.len, SR.sep b hbm,
        hR.uniform hok sh2 ok2 hB hev tb.range tb.uni, hR.uniform hok sh2 ok2 hB hev tb.range tb.uniF,
        fun _ => hR.comps hok sh2 ok2 hB hev hT2 hbm hnn⟩
    have puR := hR.pure hok sh2 ok2 hB hev pu2
    unfold rescheduleTiles
    simp only [er, Option.bind_eq_bind, Option.bind_some]
    by_cases ch : ev.any Option.isSome = true
    · rw [if_pos ch]
      obtain ⟨p3, e4, i3, q3, f3⟩ := recompute_spec hE okR
      have E3 := resat_edit q3 f3
      have S3 := SR.resat i3 q3 f3
      exact ⟨p3, e4, S3, i3, resat_pure q3 puR, fun b hbm => E3.tband okR S3.ok (fun _ _ _ => trivial) (TR b hbm) (S3.sep b hbm),
        same.trans (resat_same q3 f3)⟩
    · rw [if_neg ch]
      have hst : R.stmts = p2.stmts := by
        apply List.ext_getElem?
        intro i
        refine hR.keep i (fun e he => ch ?_)
        rw [List.any_eq_true]
        exact ⟨some e, List.mem_of_getElem? he, rfl⟩
      have : R = p2 := by rw [hR.eq, hst]
      exact ⟨R, rfl, SR, by rw [this]; exact i2, puR, TR, same⟩
  obtain ⟨p2', e3', S2', i2', pu2', T2', same2⟩ := hre
  have hin : ∃ p3, stepIf o.intraTile (fun p => intraTileBands isEmpty best k p bands) p2' = some p3 ∧ Stage p3 bands o.parallel ∧ p3.Info ∧ Same p2' p3 := by
    unfold stepIf
    by_cases c : o.intraTile = true
    · rw [if_pos c]
      obtain ⟨p3, e4, S3, _⟩ := intraFold hbest hk bands p2' S2' pu2' (fun _ h => h) S2'.bandsOK.disjoint (fun b hbm => ⟨T2' b hbm, i2'.parSound _⟩)
      obtain ⟨p4, e5, i4, q4, f4⟩ := recompute_spec hE S3.ok
      refine ⟨p4, ?_, S3.resat i4 q4 f4, i4, (foldlM_same (fun _ _ _ => intraTileBand_same) e4).trans (resat_same q4 f4)⟩
      show intraTileBands isEmpty best k p2' bands = _
      unfold intraTileBands
      rw [e4]
      exact e5
    · rw [if_neg c]
      exact ⟨p2', rfl, S2', i2', .refl _⟩
  obtain ⟨p3, e4, S3, i3, same3⟩ := hin
  have hT3 : SameRuns p p3 T := (hT2.same same2).same same3
  have hbits : ∀ done, Bits p3 done := fun done => ⟨fun d hd hr l _ hb s t q hin htied => bit_false i3 hd hr hb hin htied⟩
  unfold plutoTileDiamond
  simp only [hb, e2, e3, e3', e4, Option.bind_eq_bind, Option.bind_some]
  unfold stepIf
  by_cases c : o.parallel = true
  · rw [if_pos c]
    rw [c] at S3 ⊢
    obtain ⟨p4, r, e5, S4, B4⟩ := waveFold o hip bands [] p3 false S3 (hbits []) (fun _ h => h) (by simpa using S3.bandsOK.disjoint)
    refine ⟨p4, ?_, S4, by simpa using B4, T, hT3.same (createTileSchedules_same e5)⟩
    show (createTileSchedules o p3 bands).map (·.1) = _
    unfold createTileSchedules
    rw [e5]
    rfl
  · rw [if_neg c]
    exact ⟨p3, rfl, S3, hbits bands, T, hT3⟩

end Pluto
