import Verif.Lemmas.DiamondStage
import Verif.Lemmas.OneToOneRun

/-! Rescheduling the loops inside the tiles keeps schedules one-to-one. -/

namespace Pluto

theorem timestamp_eq_phi {p : Prog} (hok : p.OK) {i : Nat} (hi : i < p.stmts.length) (x y q : List Int) :
    p.timestamp i x q = p.timestamp i y q ↔ ∀ l < p.hProps.length, p.phi i l x q = p.phi i l y q := by
  have gi := List.getElem?_eq_getElem hi
  have li := hok.levels _ (List.mem_of_getElem? gi)
  constructor
  · intro h l hl
    have h1 := timestamp_get gi (show l < _ by omega) x q
    have h2 := timestamp_get gi (show l < _ by omega) y q
    rw [h, h2] at h1
    exact (Option.some.inj h1).symm
  · intro h
    unfold Prog.timestamp
    simp only [gi, Option.map_some, Option.getD_some]
    refine List.ext_getElem (by simp) (fun l h1 h2 => ?_)
    rw [List.length_map] at h1
    have := h l (by omega)
    unfold Prog.phi Prog.row at this
    simp only [gi, Option.bind_some, List.getElem?_eq_getElem h1, Option.getD_some] at this
    simpa using this

section
variable {p p2 R : Prog} {bands : List Band} {k : Nat} {ev : List (Option Evicted)}
  (hok : p.OK) (hS : Shift p p2 bands k) (hok2 : p2.OK) (hB : BandsOK p bands) (hev : EvictedFrom p bands ev) (hR : Resched p2 R bands k ev)

include hok hS hok2 hB hev hR

theorem Resched.oneToOne (h2 : p2.OneToOne) (hb : (putBack p ev).OneToOne) : R.OneToOne := by
  have okR := hR.ok hok hS hok2 hB hev
  have E := hR.edit hok hS hok2 hB hev
  intro i hi x y q hx hy hq ht
  have hi2 : i < p2.stmts.length := by rw [← hR.len]; exact hi
  rw [E.dim] at hx hy
  rw [E.npar] at hq
  rw [timestamp_eq_phi okR hi] at ht
  refine h2 i hi2 x y q hx hy hq ?_
  rw [timestamp_eq_phi hok2 hi2]
  intro l hl
  by_cases hk : KeptRow bands k ev i l
  · have := ht l (by rw [E.levels]; exact hl)
    unfold Prog.phi at this ⊢
    rwa [E.rows i l hk] at this
  · unfold KeptRow at hk
    push Not at hk
    obtain ⟨b, hbm, hib, e, he, rfl⟩ := hk
    have hlt := (hB.range b hbm).2 i hib
    have hle := (hB.range b hbm).1
    have g := List.getElem?_eq_getElem hlt
    obtain ⟨b', hb', hib', q1, q2, q3⟩ := hev.band i e he
    obtain rfl := band_unique hB.disjoint hbm hb' hib hib'
    obtain ⟨c, c1, c2⟩ := hR.row hok hS hok2 hB hev hbm hib
    -- the iterators of `p` agree
    have hpb : (putBack p ev).dim i = p.dim i := putBack_dim hev.len i
    have hz : x.drop c = y.drop c := by
      have okB := putBack_ok hok hev
      refine hb i ?_ _ _ q (by rw [List.length_drop]; omega) (by rw [List.length_drop]; omega) ?_ ?_
      · simp only [putBack, List.length_zipWith, hev.len]; omega
      · rw [hq]; exact hS.npar
      · rw [timestamp_eq_phi okB (by simp only [putBack, List.length_zipWith, hev.len]; omega)]
        intro l' hl'
        obtain ⟨h3, h4⟩ := c2 l' hl'
        have := ht _ (by rw [E.levels]; exact h3)
        unfold Prog.phi at this ⊢
        rw [h4] at this
        have ex : x ++ q = x.take c ++ (x.drop c ++ q) := by rw [← List.append_assoc, List.take_append_drop]
        have ey : y ++ q = y.take c ++ (y.drop c ++ q) := by rw [← List.append_assoc, List.take_append_drop]
        rw [ex, ey, aff_zrow_append _ _ _ _ (by rw [List.length_take]; omega), aff_zrow_append _ _ _ _ (by rw [List.length_take]; omega)] at this
        exact this
    obtain ⟨st', c', g', a1, a2, a3, a4⟩ := hS.stmt b hbm i hib _ g
    have lev := hok.levels _ (List.mem_of_getElem? g)
    have gl' := a3 _ _ (List.getElem?_eq_getElem (show e.pos < p.stmts[i].trans.length by omega))
    have hc : c' = c := by
      simp only [Prog.dim, g, g', Option.map_some, Option.getD_some] at c1
      omega
    subst hc
    rw [up_ge q1, Nat.add_comm] at gl'
    have er : p2.row i (k * b.width + e.pos) = zrow c' ++ p.stmts[i].trans[e.pos] := by
      simp only [Prog.row, g', Option.bind_some, gl', Option.getD_some]
    have ex : x ++ q = x.take c' ++ (x.drop c' ++ q) := by rw [← List.append_assoc, List.take_append_drop]
    have ey : y ++ q = y.take c' ++ (y.drop c' ++ q) := by rw [← List.append_assoc, List.take_append_drop]
    unfold Prog.phi
    rw [er, ex, ey, aff_zrow_append _ _ _ _ (by rw [List.length_take]; omega), aff_zrow_append _ _ _ _ (by rw [List.length_take]; omega), hz]

end

/-- `pluto_tile` with diamond tiling. -/
theorem plutoTileDiamond_one {isEmpty : Cst → Bool} (hE : EmptyOracle isEmpty) {best : Prog → List Loop → Option Loop} (o : TileOpts)
    {sizes sizes2 : Nat → Nat → Int} (hz : ∀ n m, 1 ≤ sizes n m) (hz2 : ∀ n m, 1 ≤ sizes2 n m) {p : Prog} (hok : p.OK) (hi : p.Info)
    (hst : Stepwise p) (hT : TypesRight p) (hU : Uniform p 0 p.hProps.length (List.range p.stmts.length)) (hps : PureScalars p) (diamond : Bool)
    (ev : List (Option Evicted)) (hev : diamond = true → ∀ bands, tileBands p = some bands → EvictedFrom p bands ev) (h1 : p.OneToOne)
    (hpb : diamond = true → (putBack p ev).OneToOne) {p' : Prog}
    (h : plutoTileDiamond isEmpty best o diamond ev sizes sizes2 p = some p') : p'.OneToOne := by
  obtain ⟨bands, hb, hB, hbase⟩ := tileBands_base hok hi hst hT hU hps
  have hleg := hst.legal hok
  obtain ⟨q1, e1, ok1, leg1, ty1, pu1, B1, T1, F1⟩ := tile_step hz hok hleg hT hps hB hbase
  have sh1 := tile_shift hz hok hT hps hB e1
  have s0 := sharp_of_oneToOne h1 (fun st hs => (hok.stmts st hs).trans)
  have s1 := s0.tileDims e1
  have hlev : ∃ pk k, tileLevels o sizes sizes2 p bands = some (pk, k) ∧ pk.OK ∧ Shift p pk bands k ∧ Sharp p.npar pk := by
    unfold tileLevels
    simp only [e1, Option.bind_eq_bind, Option.bind_some]
    by_cases c : o.secondLevel = true
    · rw [if_pos c]
      obtain ⟨q2, e2, ok2, _⟩ := tile_step hz2 ok1 leg1 ty1 pu1 B1 T1
      rw [e2]
      exact ⟨q2, 2, rfl, ok2, sh1.trans (tile_shift hz2 ok1 ty1 pu1 B1 e2), s1.tileDims e2⟩
    · rw [if_neg c]
      exact ⟨q1, 1, rfl, ok1, sh1, s1⟩
  obtain ⟨pk, k, e2, okk, shk, sk⟩ := hlev
  obtain ⟨p2, e3, i2, q2, f2⟩ := recompute_spec hE okk
  have ok2 := resat_ok q2 f2 okk
  have s2 := sk.recompute e3
  unfold plutoTileDiamond at h
  simp only [hb, e2, e3, Option.bind_eq_bind, Option.bind_some] at h
  obtain ⟨p2', e4, h⟩ := Option.bind_eq_some_iff.mp h
  obtain ⟨p3, e5, h⟩ := Option.bind_eq_some_iff.mp h
  have s3 : Sharp p.npar p2' := by
    unfold stepIf at e4
    by_cases c : diamond = true
    · rw [if_pos c] at e4
      have hev := hev c bands hb
      have sh2 := shk.resat q2
      obtain ⟨R, ev', er, hR⟩ := reschedule_spec hok sh2 hB hev
      have okR := hR.ok hok sh2 ok2 hB hev
      have sR := sharp_of_oneToOne (hR.oneToOne hok sh2 ok2 hB hev s2.oneToOne (hpb c)) (fun st hs => (okR.stmts st hs).trans)
      rw [(hR.edit hok sh2 ok2 hB hev).npar, sh2.npar] at sR
      unfold rescheduleTiles at e4
      simp only [er, Option.bind_eq_bind, Option.bind_some] at e4
      split_ifs at e4
      · exact sR.recompute e4
      · cases e4; exact sR
    · rw [if_neg c] at e4
      cases e4
      exact s2
  refine Sharp.oneToOne (Sharp.stepIf (fun q q' hq hh => ?_) (Sharp.stepIf (fun q q' hq hh => hq.intraTileBands hh) s3 e5) h)
  obtain ⟨x, h5, rfl⟩ := Option.map_eq_some_iff.mp hh
  exact hq.tileSchedules h5

end Pluto
