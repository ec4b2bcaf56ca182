import Verif.Props.InnerPar
import Verif.Props.ScheduleDiamond

/-! C79 and C52 with diamond tiling, with `--innerpar`. -/

namespace Pluto

/-- C79 with `--innerpar`: no condition on wavefronts. Missing: as for `C79_tile_partial`, except wavefronts. -/
theorem C79_innerpar_partial (isEmpty : Cst → Bool) (hE : EmptyOracle isEmpty) (best : Prog → List Loop → Option Loop)
    (hbest : ∀ p ls L, best p ls = some L → L ∈ ls) (o : TileOpts) (hip : o.innerpar = true) (sizes sizes2 : Nat → Nat → Int)
    (hz : ∀ n m, 1 ≤ sizes n m) (hz2 : ∀ n m, 1 ≤ sizes2 n m) (p : Prog) (hok : p.OK) (hi : p.Info) (hst : Stepwise p) (hT : TypesRight p)
    (hU : Uniform p 0 p.hProps.length (List.range p.stmts.length)) (hps : PureScalars p) (diamond : Bool) (ev : List (Option Evicted))
    (hev : diamond = true → ∀ bands, tileBands p = some bands → EvictedFrom p bands ev ∧ NonNegBands (putBack p ev) bands)
    (hleg : diamond = true → (putBack p ev).Legal) :
    ∃ p' T, plutoTileDiamond isEmpty best o diamond ev sizes sizes2 p = some p' ∧ p'.OK ∧ p'.Legal ∧ SameRuns p p' T ∧
      ∀ d ∈ p.deps, d.rar = false → ∀ s t q, p.Inst d s t q →
        LexBefore (p'.timestamp d.src (T d.src s q ++ s) q) (p'.timestamp d.dest (T d.dest t q ++ t) q) := by
  obtain ⟨bands, hb, h⟩ := plutoTileDiamond_stage hE hbest { o with parallel := false, innerpar := false } rfl hz hz2 hok hi hst hT hU hps diamond ev
  obtain ⟨p3, h1, S, _, T, h3⟩ := h (fun h => by simp at h) (fun hd => ⟨(hev hd bands hb).1, hleg hd, (hev hd bands hb).2⟩)
  unfold plutoTileDiamond at h1
  simp only [hb, Option.bind_eq_bind, Option.bind_some, Option.bind_eq_some_iff] at h1
  obtain ⟨⟨p1, tiled⟩, e1, p2, e2, p2', e2', p3', e3, e4⟩ := h1
  have e4' : p3' = p3 := by simpa [stepIf] using e4
  subst e4'
  have e1' : tileLevels o sizes sizes2 p bands = some (p1, tiled) := e1
  unfold plutoTileDiamond
  simp only [hb, e1', e2, e2', Option.bind_eq_bind, Option.bind_some]
  have e3' : stepIf o.intraTile (fun p => intraTileBands isEmpty best tiled p bands) p2' = some p3' := e3
  rw [e3']
  simp only [Option.bind_some]
  unfold stepIf
  by_cases c : o.parallel = true
  · rw [if_pos c]
    obtain ⟨p', r', h4, h5⟩ := innerpar_bands o hip bands p3' false S.ok S.satLen
      (fun b hbm => ⟨(S.bandsOK.range b hbm).2, S.width b hbm, (S.bandsOK.range b hbm).1⟩)
    have hl := resat_legal h5.1 h5.2 S.legal
    have hS := h3.same (resat_same h5.1 h5.2)
    refine ⟨p', T, ?_, resat_ok h5.1 h5.2 S.ok, hl, hS, hS.inOrder hl⟩
    have h6 : createTileSchedules o p3' bands = some (p', r') := h4
    simp [h6]
  · rw [if_neg c]
    exact ⟨p3', T, rfl, S.ok, S.legal, h3, h3.inOrder S.legal⟩

/-- C52 with diamond tiling and `--innerpar`, after the automatic transformation. Missing: as for `C52_post_diamond_partial`, except wavefronts. -/
theorem C52_innerpar_diamond_partial (isEmpty : Cst → Bool) (hE : EmptyOracle isEmpty) (best : Prog → List Loop → Option Loop)
    (hbest : ∀ p ls L, best p ls = some L → L ∈ ls) (o : TileOpts) (hip : o.innerpar = true) (tile identity diamond : Bool)
    (sizes sizes2 : Nat → Nat → Int) (hz : ∀ n m, 1 ≤ sizes n m) (hz2 : ∀ n m, 1 ≤ sizes2 n m)
    (p : Prog) (hok : p.OK) (hst : Stepwise p) (hT : TypesRight p)
    (hU : Uniform p 0 p.hProps.length (List.range p.stmts.length)) (hps : PureScalars p) (ev : List (Option Evicted))
    (hev : diamond = true → tile = true → ∀ p1 bands, recompute isEmpty p = some p1 → tileBands p1 = some bands →
      EvictedFrom p bands ev ∧ NonNegBands (putBack p ev) bands)
    (hleg : diamond = true → tile = true → (putBack p ev).Legal) :
    ∃ p' T, postTransformDiamond isEmpty best o tile identity diamond ev sizes sizes2 p = some p' ∧ p'.OK ∧ p'.Legal ∧ SameRuns p p' T ∧
      ∀ d ∈ p.deps, d.rar = false → ∀ s t q, p.Inst d s t q →
        LexBefore (p'.timestamp d.src (T d.src s q ++ s) q) (p'.timestamp d.dest (T d.dest t q ++ t) q) := by
  cases tile with
  | false =>
    have := C52_innerpar_post_partial isEmpty hE best hbest o hip false identity sizes sizes2 hz hz2 p hok hst hT hU hps
    simpa [postTransformDiamond, postTransform, beforeWave, Option.bind_assoc] using this
  | true =>
    have H : Good p := ⟨hok, hst, hU, hps⟩
    obtain ⟨p1, e1, i1, q1, f1⟩ := recompute_spec hE H.ok
    have H1 := H.resat q1 f1
    have ep : ({ putBack p ev with deps := p1.deps } : Prog) = putBack p1 ev := by rw [q1]; rfl
    have ef : ∀ {bands}, EvictedFrom p bands ev → EvictedFrom p1 bands ev := by
      intro bands h
      rw [q1]
      exact ⟨h.len, h.band, h.hyp, h.orig⟩
    obtain ⟨p', T, h1, h2, h3, h4, _⟩ := C79_innerpar_partial isEmpty hE best hbest o hip sizes sizes2 hz hz2 p1 H1.ok i1 H1.step
      (resat_types q1 hT) H1.uni H1.pure diamond ev
      (fun hd bands hb => by
        obtain ⟨a1, a2⟩ := hev hd rfl p1 bands e1 hb
        exact ⟨ef a1, ep ▸ redep_nonneg (p := putBack p ev) f1 a2⟩) (fun hd => ep ▸ redep_legal (p := putBack p ev) f1 (hleg hd rfl))
    have hS := ((SameRuns.refl hok).same (resat_same q1 f1)).trans h4
    refine ⟨p', _, ?_, h2, h3, hS, hS.inOrder h3⟩
    unfold postTransformDiamond
    simp [e1, h1, stepIf]

/-- The hypotheses of `C79_innerpar_partial` hold for the example beside `C79_rows`. -/
example : exOffG.OK ∧ exOffG.Info ∧ Stepwise exOffG ∧ TypesRight exOffG ∧
    Uniform exOffG 0 exOffG.hProps.length (List.range exOffG.stmts.length) ∧ PureScalars exOffG ∧
    (∀ bands, tileBands exOffG = some bands → EvictedFrom exOffG bands offEv ∧ NonNegBands (putBack exOffG offEv) bands) ∧
    (putBack exOffG offEv).Legal := by
  obtain ⟨h1, h2, h3, h4, h5, h6, h7, _, _, h8, h9, h10, _⟩ := exOffG_ok
  refine ⟨h1, h2, h3, h4, h5, h6, fun bands hb => ?_, h10⟩
  rw [h7] at hb
  cases hb
  exact ⟨h8, h9⟩

/-- The hypotheses of `C52_innerpar_diamond_partial` hold for it, too, with tiling. -/
example : exOffG.OK ∧ Stepwise exOffG ∧ TypesRight exOffG ∧
    Uniform exOffG 0 exOffG.hProps.length (List.range exOffG.stmts.length) ∧ PureScalars exOffG ∧
    (∀ p1 bands, recompute (tabOracle offTab) exOffG = some p1 → tileBands p1 = some bands →
      EvictedFrom exOffG bands offEv ∧ NonNegBands (putBack exOffG offEv) bands) ∧ (putBack exOffG offEv).Legal := by
  obtain ⟨a1, a2, a3, a4, a5, a6, a7, a8, a9, a10, a11, a12, _⟩ := exOffG_ok
  refine ⟨a1, a3, a4, a5, a6, fun p1 bands h1 h2 => ?_, a12⟩
  have h : recompute (tabOracle offTab) exOffG = some exOffG := by
    show recompute offLibs.isEmpty exOffG = some exOffG
    decide +kernel
  rw [h] at h1
  cases h1
  rw [a7] at h2
  cases h2
  exact ⟨a10, a11⟩

end Pluto
