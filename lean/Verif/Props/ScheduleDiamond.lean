import Verif.Props.DiamondTile
import Verif.Props.Schedule

/-! C52 with diamond tiling: `pluto_schedule_prog` after the automatic transformation (`postTransformDiamond`, Verif/Model/DiamondTile.lean). -/

namespace Pluto

/-- Other dependence information does not matter for what is legal. -/
theorem redep_legal {p : Prog} {ds : List Dep} (f : List.Forall₂ (fun d d' : Dep =>
    d' = ⟨d.src, d.dest, d.rar, d.dpoly, d.bpoly, d'.satisfied, d'.satLevel, d'.satvec, d'.dirvec⟩) p.deps ds) (h : p.Legal) :
    ({ p with deps := ds } : Prog).Legal := by
  intro d' hd' hr s t q a1 a2 a3 a4
  obtain ⟨d, hd, k⟩ := forall₂_mem_right f hd'
  rw [k] at hr a1 a2 a4 ⊢
  exact h d hd hr s t q a1 a2 a3 a4

theorem redep_nonneg {p : Prog} {ds : List Dep} (f : List.Forall₂ (fun d d' : Dep =>
    d' = ⟨d.src, d.dest, d.rar, d.dpoly, d.bpoly, d'.satisfied, d'.satLevel, d'.satvec, d'.dirvec⟩) p.deps ds) {bands : List Band}
    (h : NonNegBands p bands) : NonNegBands ({ p with deps := ds } : Prog) bands := by
  intro b hb d' hd' hr h1 h2 s t q hi ht m hm
  obtain ⟨d, hd, k⟩ := forall₂_mem_right f hd'
  rw [k] at hr hi h1 h2 ht ⊢
  exact h b hb d hd hr h1 h2 s t q ⟨hi.hs, hi.ht, hi.hp, hi.sat⟩ ht m hm

/-- C52 with diamond tiling, after the automatic transformation: from schedules `p` that satisfy each dependence at one level and evicted hyperplanes
`ev` such that the schedules with these in their old places are legal and permutable, too, the rest of `pluto_schedule_prog` makes legal
schedules: it succeeds, runs exactly the instances of the statements, extended by tile coordinates, and every dependent pair in order.
Missing: as for `C52_post_partial` and `C79_tile_partial`. -/
theorem C52_post_diamond_partial (isEmpty : Cst → Bool) (hE : EmptyOracle isEmpty) (best : Prog → List Loop → Option Loop)
    (hbest : ∀ p ls L, best p ls = some L → L ∈ ls) (o : TileOpts) (hip : o.innerpar = false) (tile identity diamond : Bool)
    (sizes sizes2 : Nat → Nat → Int) (hz : ∀ n m, 1 ≤ sizes n m) (hz2 : ∀ n m, 1 ≤ sizes2 n m)
    (p : Prog) (hok : p.OK) (hst : Stepwise p) (hT : TypesRight p)
    (hU : Uniform p 0 p.hProps.length (List.range p.stmts.length)) (hps : PureScalars p)
    (hfw : o.parallel = true → tile = true → ∀ p1 bands, recompute isEmpty p = some p1 → tileBands p1 = some bands → LoopBands p1 bands)
    (hfw' : o.parallel = true → tile = false → identity = false → ∀ p1 bands, beforeWave isEmpty best o false sizes sizes2 p = some p1 →
      outermostBands p1 = some bands → LoopBands p1 bands) (ev : List (Option Evicted))
    (hev : diamond = true → tile = true → ∀ p1 bands, recompute isEmpty p = some p1 → tileBands p1 = some bands →
      EvictedFrom p bands ev ∧ NonNegBands (putBack p ev) bands)
    (hleg : diamond = true → tile = true → (putBack p ev).Legal) :
    ∃ p' T, postTransformDiamond isEmpty best o tile identity diamond ev sizes sizes2 p = some p' ∧ p'.OK ∧ p'.Legal ∧ SameRuns p p' T ∧
      ∀ d ∈ p.deps, d.rar = false → ∀ s t q, p.Inst d s t q →
        LexBefore (p'.timestamp d.src (T d.src s q ++ s) q) (p'.timestamp d.dest (T d.dest t q ++ t) q) := by
  cases tile with
  | false =>
    have := C52_post_partial isEmpty hE best hbest o hip false identity sizes sizes2 hz hz2 p hok hst hT hU hps (fun _ h => by cases h) hfw'
    simpa [postTransformDiamond, postTransform, beforeWave, Option.bind_assoc] using this
  | true =>
    have H : Good p := ⟨hok, hst, hU, hps⟩
    obtain ⟨p1, e1, i1, q1, f1⟩ := recompute_spec hE H.ok
    have H1 := H.resat q1 f1
    have ep : ({ putBack p ev with deps := p1.deps } : Prog) = putBack p1 ev := by rw [q1]; rfl
    have ef : ∀ {bands}, EvictedFrom p bands ev → EvictedFrom p1 bands ev := by
      intro bands h
      rw [q1]
      exact ⟨h.len, h.band, h.hyp, h.orig⟩
    obtain ⟨p', T, h1, h2, h3, h4, _⟩ := C79_tile_partial isEmpty hE best hbest o hip sizes sizes2 hz hz2 p1 H1.ok i1 H1.step
      (resat_types q1 hT) H1.uni H1.pure (fun hp bands hb => C50_forward p1 H1.ok i1 H1.step H1.uni bands hb (hfw hp rfl p1 bands e1 hb)) diamond ev
      (fun hd bands hb => by
        obtain ⟨a1, a2⟩ := hev hd rfl p1 bands e1 hb
        exact ⟨ef a1, ep ▸ redep_nonneg (p := putBack p ev) f1 a2⟩) (fun hd => ep ▸ redep_legal (p := putBack p ev) f1 (hleg hd rfl))
    have hS := ((SameRuns.refl hok).same (resat_same q1 f1)).trans h4
    refine ⟨p', _, ?_, h2, h3, hS, hS.inOrder h3⟩
    unfold postTransformDiamond
    simp [e1, h1, stepIf]

/-- The hypotheses of `C52_post_diamond_partial` hold for `exOffG` (Verif/Props/DiamondTile.lean) with tiling and wavefronts. -/
example : exOffG.OK ∧ Stepwise exOffG ∧ TypesRight exOffG ∧
    Uniform exOffG 0 exOffG.hProps.length (List.range exOffG.stmts.length) ∧ PureScalars exOffG ∧
    (∀ p1 bands, recompute (tabOracle offTab) exOffG = some p1 → tileBands p1 = some bands →
      LoopBands p1 bands ∧ EvictedFrom exOffG bands offEv ∧ NonNegBands (putBack exOffG offEv) bands) ∧ (putBack exOffG offEv).Legal := by
  obtain ⟨a1, a2, a3, a4, a5, a6, a7, a8, a9, a10, a11, a12, _⟩ := exOffG_ok
  refine ⟨a1, a3, a4, a5, a6, fun p1 bands h1 h2 => ?_, a12⟩
  have h : recompute (tabOracle offTab) exOffG = some exOffG := by
    show recompute offLibs.isEmpty exOffG = some exOffG
    decide +kernel
  rw [h] at h1
  cases h1
  rw [a7] at h2
  cases h2
  exact ⟨by unfold LoopBands; decide +kernel, a10, a11⟩

end Pluto
