import Verif.Props.Schedule

/-! C50, C52 with `--innerpar`: no wavefront is made, only the satisfaction data changes. The schedules are legal
without any condition on wavefronts. (Which loops are then reported parallel is another matter:
`C20_violated_innerpar`.) -/

namespace Pluto

/-- The two programs differ at most in what is recorded about the satisfaction of dependences. -/
def OnlySat (p p' : Prog) : Prop :=
  p' = { p with deps := p'.deps } ∧ List.Forall₂ (fun d d' : Dep =>
    d' = ⟨d.src, d.dest, d.rar, d.dpoly, d.bpoly, d'.satisfied, d'.satLevel, d'.satvec, d'.dirvec⟩) p.deps p'.deps

theorem OnlySat.refl (p : Prog) : OnlySat p p := ⟨rfl, List.forall₂_same.mpr fun _ _ => rfl⟩

theorem OnlySat.trans {p q r : Prog} (h : OnlySat p q) (h' : OnlySat q r) : OnlySat p r := by
  refine ⟨?_, ?_⟩
  · have h1 := h'.1
    have h2 := h.1
    rw [h2] at h1
    exact h1
  · have h1 := List.forall₂_iff_get.mp h.2
    have h2 := List.forall₂_iff_get.mp h'.2
    refine List.forall₂_iff_get.mpr ⟨h1.1.trans h2.1, fun n hn hn' => ?_⟩
    have e1 := h1.2 n hn (by omega)
    have e2 := h2.2 n (by omega) hn'
    rw [e1] at e2
    exact e2

/-- One band. -/
theorem innerpar_step {p : Prog} (hok : p.OK) (hsl : SatLen p) {b : Band} (hr : ∀ i ∈ b.loop.stmts, i < p.stmts.length)
    (hf : b.loop.depth < p.hProps.length) (hle : b.loop.depth + b.width ≤ p.hProps.length) (multipar : Bool) :
    ∃ p' r, createTileSchedule p b multipar true = some (p', r) ∧ OnlySat p p' ∧ SatLen p' := by
  obtain ⟨v, hv⟩ := Option.isSome_iff_exists.mp (loopIsParallel_defined hsl hf)
  unfold createTileSchedule
  simp only [hv, Option.bind_eq_bind, Option.bind_some]
  cases v with
  | true => exact ⟨p, false, rfl, .refl p, hsl⟩
  | false =>
    obtain ⟨inner, hin⟩ := Option.isSome_iff_exists.mp (innerDepths_defined hok hr hle)
    simp only [hin, Option.bind_some, Bool.false_eq_true, if_false]
    by_cases c : inner.length = 0
    · rw [if_pos c]
      exact ⟨p, false, rfl, .refl p, hsl⟩
    · rw [if_neg c]
      obtain ⟨t1, t2⟩ := addedLevels (multipar := multipar) hin
      have hgt : ∀ k ∈ (if multipar = true then inner else inner.take 1), b.loop.depth < k := fun k hk => ((t2 k).mp hk).1.1
      have hks : ∀ k ∈ (if multipar = true then inner else inner.take 1), k < p.hProps.length := by
        intro k hk
        have := ((t2 k).mp hk).1.2.1
        omega
      have hnd : (if multipar = true then inner else inner.take 1).Nodup := t1.imp (fun h => by omega)
      generalize (if multipar = true then inner else inner.take 1) = ks at *
      have hnot : b.loop.depth ∉ ks := fun h => by have := hgt _ h; omega
      obtain ⟨ds, hds⟩ := Option.isSome_iff_exists.mp (mapM_isSome' (l := p.deps) (f := mergeDep b ks)
        (fun d hd => mergeDep_defined hsl hf hks hd))
      simp only [hds, Option.bind_some, if_true, pure]
      have hf2 := mapM_forall₂ _ _ _ hds
      refine ⟨{ p with deps := ds }, true, rfl, ⟨rfl, hf2.imp ?_⟩, ?_⟩
      · intro d d' hm
        unfold mergeDep at hm
        split at hm
        · simp only [Option.bind_eq_bind, Option.bind_eq_some_iff, pure, Option.some.injEq] at hm
          obtain ⟨v, _, m2⟩ := hm
          rw [← m2]
        · cases hm; rfl
      · intro d' hd' hr'
        obtain ⟨d, hd, hm⟩ := forall₂_mem_right hf2 hd'
        unfold mergeDep at hm
        split at hm
        · simp only [Option.bind_eq_bind, Option.bind_eq_some_iff, pure, Option.some.injEq] at hm
          obtain ⟨v, m1, m2⟩ := hm
          have hr : d.rar = false := by rw [← m2] at hr'; exact hr'
          rw [← m2]
          show v.length = p.hProps.length
          rw [← hsl d hd hr]
          exact (mergeSatvec_spec m1 hnot hnd).1
        · have e : d = d' := by simpa using hm
          rw [← e] at hr' ⊢
          exact hsl d hd hr'

/-- All bands. -/
theorem innerpar_bands (o : TileOpts) (hip : o.innerpar = true) : ∀ (bands : List Band) (p : Prog) (r : Bool), p.OK → SatLen p →
    (∀ b ∈ bands, (∀ i ∈ b.loop.stmts, i < p.stmts.length) ∧ 0 < b.width ∧ b.loop.depth + b.width ≤ p.hProps.length) →
    ∃ p' r', bands.foldlM (fun r b => (createTileSchedule r.1 b o.multipar o.innerpar).map (fun x => (x.1, r.2 || x.2))) (p, r) =
      some (p', r') ∧ OnlySat p p' := by
  intro bands
  induction bands with
  | nil => intro p r _ _ _; exact ⟨p, r, rfl, .refl p⟩
  | cons b bands ih =>
    intro p r hok hsl hb
    obtain ⟨r1, r2, r3⟩ := hb b (by simp)
    obtain ⟨p1, x, h1, h2, h3⟩ := innerpar_step hok hsl r1 (by omega) r3 o.multipar
    have hl : p1.stmts = p.stmts ∧ p1.hProps = p.hProps := by rw [h2.1]; exact ⟨rfl, rfl⟩
    obtain ⟨p', r', h4, h5⟩ := ih p1 (r || x) (resat_ok h2.1 h2.2 hok) h3
      (fun c hc => by rw [hl.1, hl.2]; exact hb c (by simp [hc]))
    refine ⟨p', r', ?_, h2.trans h5⟩
    rw [List.foldlM_cons, hip, h1]
    rw [hip] at h4
    exact h4

/-- C50 with `--innerpar`: `pluto_tile` keeps legal schedules legal, with no condition on the bands.
Missing for the full C50: as for `C50_tile_partial`, except wavefronts, of which there are none. -/
theorem C50_innerpar_partial (isEmpty : Cst → Bool) (hE : EmptyOracle isEmpty) (best : Prog → List Loop → Option Loop)
    (hbest : ∀ p ls L, best p ls = some L → L ∈ ls) (o : TileOpts) (hip : o.innerpar = true) (sizes sizes2 : Nat → Nat → Int)
    (hz : ∀ n m, 1 ≤ sizes n m) (hz2 : ∀ n m, 1 ≤ sizes2 n m) (p : Prog) (hok : p.OK) (hi : p.Info) (hst : Stepwise p) (hT : TypesRight p)
    (hU : Uniform p 0 p.hProps.length (List.range p.stmts.length)) (hps : PureScalars p) :
    ∃ p' T, plutoTile isEmpty best o sizes sizes2 p = some p' ∧ p'.OK ∧ p'.Legal ∧ SameRuns p p' T ∧
      ∀ d ∈ p.deps, d.rar = false → ∀ s t q, p.Inst d s t q →
        LexBefore (p'.timestamp d.src (T d.src s q ++ s) q) (p'.timestamp d.dest (T d.dest t q ++ t) q) := by
  -- the same run without wavefronts
  obtain ⟨bands, hb, h⟩ := plutoTile_stage hE hbest { o with parallel := false, innerpar := false } rfl hz hz2 hok hi hst hT hU hps
  obtain ⟨p3, h1, S, _, T, h3⟩ := h (fun h => by simp at h)
  unfold plutoTile at h1
  simp only [hb, Option.bind_eq_bind, Option.bind_some, Option.bind_eq_some_iff] at h1
  obtain ⟨⟨p1, tiled⟩, e1, p2, e2, p3', e3, e4⟩ := h1
  have e4' : p3' = p3 := by simpa [stepIf] using e4
  subst e4'
  have e1' : tileLevels o sizes sizes2 p bands = some (p1, tiled) := e1
  unfold plutoTile
  simp only [hb, e1', e2, Option.bind_eq_bind, Option.bind_some]
  have e3' : stepIf o.intraTile (fun p => intraTileBands isEmpty best tiled p bands) p2 = some p3' := e3
  rw [e3']
  simp only [Option.bind_some]
  unfold stepIf
  by_cases c : o.parallel = true
  · rw [if_pos c]
    obtain ⟨p', r', h4, h5⟩ := innerpar_bands o hip bands p3' false S.ok S.satLen
      (fun b hbm => ⟨(S.bandsOK.range b hbm).2, S.width b hbm, (S.bandsOK.range b hbm).1⟩)
    have hl := resat_legal h5.1 h5.2 S.legal
    have hS := h3.same (resat_same h5.1 h5.2)
    refine ⟨p', T, ?_, resat_ok h5.1 h5.2 S.ok, hl, hS, hS.inOrder hl⟩
    have h6 : createTileSchedules o p3' bands = some (p', r') := h4
    simp [h6]
  · rw [if_neg c]
    exact ⟨p3', T, rfl, S.ok, S.legal, h3, h3.inOrder S.legal⟩

/-- C52 with `--innerpar`, after the automatic transformation. Missing: as for `C52_post_partial`, except wavefronts. -/
theorem C52_innerpar_post_partial (isEmpty : Cst → Bool) (hE : EmptyOracle isEmpty) (best : Prog → List Loop → Option Loop)
    (hbest : ∀ p ls L, best p ls = some L → L ∈ ls) (o : TileOpts) (hip : o.innerpar = true) (tile identity : Bool)
    (sizes sizes2 : Nat → Nat → Int) (hz : ∀ n m, 1 ≤ sizes n m) (hz2 : ∀ n m, 1 ≤ sizes2 n m)
    (p : Prog) (hok : p.OK) (hst : Stepwise p) (hT : TypesRight p)
    (hU : Uniform p 0 p.hProps.length (List.range p.stmts.length)) (hps : PureScalars p) :
    ∃ p' T, postTransform isEmpty best o tile identity sizes sizes2 p = some p' ∧ p'.OK ∧ p'.Legal ∧ SameRuns p p' T ∧
      ∀ d ∈ p.deps, d.rar = false → ∀ s t q, p.Inst d s t q →
        LexBefore (p'.timestamp d.src (T d.src s q ++ s) q) (p'.timestamp d.dest (T d.dest t q ++ t) q) := by
  have H : Good p := ⟨hok, hst, hU, hps⟩
  suffices h : ∃ p' T, postTransform isEmpty best o tile identity sizes sizes2 p = some p' ∧ p'.OK ∧ p'.Legal ∧ SameRuns p p' T by
    obtain ⟨p', T, h1, h2, h3, h4⟩ := h
    exact ⟨p', T, h1, h2, h3, h4, h4.inOrder h3⟩
  unfold postTransform stepIf
  cases tile with
  | true =>
    obtain ⟨p1, e1, i1, q1, f1⟩ := recompute_spec hE H.ok
    have H1 := H.resat q1 f1
    obtain ⟨p', T, h1, h2, h3, h4, _⟩ := C50_innerpar_partial isEmpty hE best hbest o hip sizes sizes2 hz hz2 p1 H1.ok i1 H1.step
      (resat_types q1 hT) H1.uni H1.pure
    refine ⟨p', _, ?_, h2, h3, ((SameRuns.refl H.ok).same (resat_same q1 f1)).trans h4⟩
    simp [beforeWave, e1, h1]
  | false =>
    obtain ⟨p2, p1, h1, h2, h3, h4, h5⟩ := untiled_good hE hbest o sizes sizes2 H
    rw [h1]
    have hS := (SameRuns.refl hok).same h5
    by_cases c : (o.parallel && !false && !identity) = true
    · simp only [Option.bind_eq_bind, Option.bind_some, c, if_true]
      obtain ⟨bands, e1, hB, hb⟩ := outer_base h3 h4
      obtain ⟨p', r', a1, a2⟩ := innerpar_bands o hip bands p1 false h3.ok h4.satLen
        (fun b hbm => ⟨(hB.range b hbm).2, by have := (hb b hbm).1; omega, (hB.range b hbm).1⟩)
      have a3 : createTileSchedules o p1 bands = some (p', r') := a1
      refine ⟨p', _, ?_, resat_ok a2.1 a2.2 h3.ok, resat_legal a2.1 a2.2 (h3.step.legal h3.ok), hS.same (resat_same a2.1 a2.2)⟩
      unfold waveUntiled
      simp [recompute_sat h2, e1, a3]
    · simp only [Option.bind_eq_bind, Option.bind_some, c]
      exact ⟨p1, _, rfl, h3.ok, h3.step.legal h3.ok, hS⟩

/-- C52 with `--innerpar`. Missing: as for `C52_schedule_partial`, except wavefronts. -/
theorem C52_innerpar_partial (ao : AutoOpts) (L : Libs) (hE : EmptyOracle L.isEmpty) (hL : FeasibleOracle L.solve) (fuel : Nat) (d0 : DfsState)
    (best : Prog → List Loop → Option Loop) (hbest : ∀ p ls L, best p ls = some L → L ∈ ls) (o : TileOpts) (hip : o.innerpar = true)
    (tile : Bool) (sizes sizes2 : Nat → Nat → Int) (hz : ∀ n m, 1 ≤ sizes n m) (hz2 : ∀ n m, 1 ≤ sizes2 n m)
    (p0 : Prog) (hp : p0.InputOK) (hea : EagerAuto ao L noDiamond fuel d0 p0)
    (p : Prog) (h : autoTransform ao L noDiamond fuel d0 p0 = some (.success p))
    (hU : Uniform p 0 p.hProps.length (List.range p.stmts.length)) :
    ∃ p' T, scheduleProg ao L noDiamond fuel d0 best o tile false sizes sizes2 p0 = some (.success p') ∧ SameRuns p0 p' T ∧
      ∀ d ∈ p0.deps, d.rar = false → ∀ s t q, p0.Inst d s t q →
        LexBefore (p'.timestamp d.src (T d.src s q ++ s) q) (p'.timestamp d.dest (T d.dest t q ++ t) q) := by
  obtain ⟨k1, k2, k3⟩ := C10_shape ao L hE hL fuel d0 p0 p hp h
  have k4 := C10_stepwise ao L hE hL fuel d0 p0 p hp hea h
  obtain ⟨_, _, r1, r2⟩ := C10_legal_partial ao L hE hL fuel d0 p0 p hp h
  obtain ⟨p', T, a1, a2, a3, a4, _⟩ := C52_innerpar_post_partial L.isEmpty hE best hbest o hip tile false sizes sizes2 hz hz2 p k1 k4 k2 hU k3
  have hS := (restored_sameRuns (auto_npar hE hL hp h) r1 r2).trans a4
  refine ⟨p', _, ?_, hS, hS.inOrder a3⟩
  unfold scheduleProg
  simp [h, a1]

/-- C52 with `--innerpar`, when all statements have equally many loops: nothing about the schedules found is assumed.
Missing: the other modes of satisfaction, diamond tiling. -/
theorem C52_innerpar_same_depth_partial (ao : AutoOpts) (L : Libs) (hE : EmptyOracle L.isEmpty) (hL : FeasibleOracle L.solve)
    (hK : KernelOracle L.kernel) (fuel : Nat) (d0 : DfsState)
    (best : Prog → List Loop → Option Loop) (hbest : ∀ p ls L, best p ls = some L → L ∈ ls) (o : TileOpts) (hip : o.innerpar = true)
    (tile : Bool) (sizes sizes2 : Nat → Nat → Int) (hz : ∀ n m, 1 ≤ sizes n m) (hz2 : ∀ n m, 1 ≤ sizes2 n m)
    (p0 : Prog) (hp : p0.InputOK) (n : Nat) (hn : ∀ st ∈ p0.stmts, st.dim = n) (hea : EagerAuto ao L noDiamond fuel d0 p0)
    (p : Prog) (h : autoTransform ao L noDiamond fuel d0 p0 = some (.success p)) :
    ∃ p' T, scheduleProg ao L noDiamond fuel d0 best o tile false sizes sizes2 p0 = some (.success p') ∧ SameRuns p0 p' T ∧
      ∀ d ∈ p0.deps, d.rar = false → ∀ s t q, p0.Inst d s t q →
        LexBefore (p'.timestamp d.src (T d.src s q ++ s) q) (p'.timestamp d.dest (T d.dest t q ++ t) q) :=
  C52_innerpar_partial ao L hE hL fuel d0 best hbest o hip tile sizes sizes2 hz hz2 p0 hp hea p h
    (fun l _ _ i hi j hj _ hs => C10_levels ao L hE hL hK fuel d0 p0 p hp hea n hn h l i j (by simpa using hi) (by simpa using hj) hs)

/-- The hypotheses of `C52_innerpar_partial` and `C52_innerpar_same_depth_partial` hold for the example of `C52_schedule_partial`. -/
example : EmptyOracle exSchedLibs.isEmpty ∧ FeasibleOracle exSchedLibs.solve ∧ KernelOracle exSchedLibs.kernel ∧ exSched.InputOK ∧
    (∀ st ∈ exSched.stmts, st.dim = 2) ∧ EagerAuto exAutoOpts exSchedLibs noDiamond 10 exDfs exSched ∧
    (∀ p ls L, exBest p ls = some L → L ∈ ls) ∧ ({ exTileOpts with innerpar := true } : TileOpts).innerpar = true ∧
    ∃ p, autoTransform exAutoOpts exSchedLibs noDiamond 10 exDfs exSched = some (.success p) := by
  obtain ⟨k1, k2, k3⟩ := exSchedLibs_ok
  refine ⟨k1, k2, k3, ⟨by decide, by decide⟩, by decide, eagerAutoCheck_ok (by decide +kernel), fun p ls L h => List.mem_of_getLast? h, rfl, ?_⟩
  have h : Outcome.holds (fun _ => true) (autoTransform exAutoOpts exSchedLibs noDiamond 10 exDfs exSched) = true := by decide +kernel
  revert h
  cases autoTransform exAutoOpts exSchedLibs noDiamond 10 exDfs exSched with
  | none => intro h; exact absurd h (by simp [Outcome.holds])
  | some r =>
    cases r with
    | success p => intro _; exact ⟨p, rfl⟩
    | failed p => intro h; exact absurd h (by simp [Outcome.holds])
    | timeout => intro h; exact absurd h (by simp [Outcome.holds])

/-- The hypotheses of `C50_innerpar_partial` and `C52_innerpar_post_partial` hold for the tiling example. -/
example : exTile.OK ∧ exTile.Info ∧ Stepwise exTile ∧ TypesRight exTile ∧
    Uniform exTile 0 exTile.hProps.length (List.range exTile.stmts.length) ∧ PureScalars exTile :=
  ⟨exTile_ok.1, exTile_info, exTile_stepwise, by decide +kernel, by decide +kernel, exTile_pure⟩

end Pluto
