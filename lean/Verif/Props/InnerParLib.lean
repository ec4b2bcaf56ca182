import Verif.Props.InnerPar
import Verif.Props.LibRun

/-! C60, C62, C65 with `--innerpar`: the library's schedules keep the semantics, with no condition on bands. -/

namespace Pluto

/-- C60 with `--innerpar`. Missing: as for `C60_transform_partial`, except wavefronts. -/
theorem C60_innerpar_partial (ops : IslOps) (ho : ops.OK) (npar : Nat) (doms : List IslDom) (deps : List IslDep) (hd : DomsOK npar doms)
    (hdp : DepsOK npar doms deps)
    (ao : AutoOpts) (L : Libs) (hE : EmptyOracle L.isEmpty) (hL : FeasibleOracle L.solve) (fuel : Nat) (d0 : DfsState)
    (best : Prog → List Loop → Option Loop) (hbest : ∀ p ls L, best p ls = some L → L ∈ ls) (o : TileOpts) (hip : o.innerpar = true)
    (tile : Bool) (sizes sizes2 : Nat → Nat → Int) (hz : ∀ n m, 1 ≤ sizes n m) (hz2 : ∀ n m, 1 ≤ sizes2 n m)
    (p0 : Prog) (h0 : progFromIsl ops doms deps = some p0) (hea : EagerAuto ao L noDiamond fuel d0 p0)
    (p : Prog) (h : autoTransform ao L noDiamond fuel d0 p0 = some (.success p))
    (hU : Uniform p 0 p.hProps.length (List.range p.stmts.length))
    (hsm : ∀ p', scheduleProg ao L noDiamond fuel d0 best o tile false sizes sizes2 p0 = some (.success p') → SmallEntries p') :
    ∃ ms, plutoTransform ops (scheduleProg ao L noDiamond fuel d0 best o tile false sizes sizes2) doms deps = some (some ms) ∧
      ms.length = doms.length ∧ OneTime doms ms ∧ RespectsDeps doms deps ms := by
  obtain ⟨q, g1, hp, -⟩ := C60_extract ops ho npar doms deps hd hdp
  rw [h0] at g1
  cases g1
  obtain ⟨k1, k2, k3⟩ := C10_shape ao L hE hL fuel d0 p0 p hp h
  have k4 := C10_stepwise ao L hE hL fuel d0 p0 p hp hea h
  obtain ⟨_, _, r1, r2⟩ := C10_legal_partial ao L hE hL fuel d0 p0 p hp h
  obtain ⟨p', T, a1, a2, a3, a4, _⟩ := C52_innerpar_post_partial L.isEmpty hE best hbest o hip tile false sizes sizes2 hz hz2 p k1 k4 k2 hU k3
  have hS := (restored_sameRuns (auto_npar hE hL hp h) r1 r2).trans a4
  have hs : scheduleProg ao L noDiamond fuel d0 best o tile false sizes sizes2 p0 = some (.success p') := by
    unfold scheduleProg
    simp [h, a1]
  have hor : origs p' = origs p0 := by
    rw [postTransform_origs a1]
    have : ∀ l l' : List Stmt, List.Forall₂ (StmtRestored p0.npar) l l' → l'.map (·.dimOrig) = l.map (·.dimOrig) := by
      intro l l' hl
      induction hl with
      | nil => rfl
      | cons hh _ ih => simp [hh.2.1, ih]
    exact this _ _ r1
  exact C60_transform ops ho npar doms deps hd hdp _ p0 p' _ h0 hs a2 hS hor (hS.inOrder a3) (hsm p' hs)

/-- C62 with `--innerpar`. Missing: as for `C60_innerpar_partial`. -/
theorem C62_innerpar_partial (ops : IslOps) (hops : ops.OK) (fo : FlowOps) (fl : FlowOpts) (reads writes : List IslAcc) (s : List IslTime)
    (ho : fo.OK reads writes s) (hdo : fo.DomainOK s) (hu : ∀ q p t t', AtTime s q p t → AtTime s q p t' → t = t')
    (hf : ∀ q e, {p | Touches writes q p e}.Finite) (deps : List IslDep) (hdeps : scheduleDeps fo fl reads writes s = some deps)
    (npar : Nat) (hd : DomsOK npar (fo.domain s)) (hdp : DepsOK npar (fo.domain s) deps)
    (ao : AutoOpts) (L : Libs) (hE : EmptyOracle L.isEmpty) (hL : FeasibleOracle L.solve) (fuel : Nat) (d0 : DfsState)
    (best : Prog → List Loop → Option Loop) (hbest : ∀ p ls L, best p ls = some L → L ∈ ls) (o : TileOpts) (hip : o.innerpar = true)
    (tile : Bool) (sizes sizes2 : Nat → Nat → Int) (hz : ∀ n m, 1 ≤ sizes n m) (hz2 : ∀ n m, 1 ≤ sizes2 n m)
    (p0 : Prog) (h0 : progFromIsl ops (fo.domain s) deps = some p0) (hea : EagerAuto ao L noDiamond fuel d0 p0)
    (p : Prog) (h : autoTransform ao L noDiamond fuel d0 p0 = some (.success p))
    (hU : Uniform p 0 p.hProps.length (List.range p.stmts.length))
    (hsm : ∀ p', scheduleProg ao L noDiamond fuel d0 best o tile false sizes sizes2 p0 = some (.success p') → SmallEntries p') :
    ∃ ms, plutoSchedule ops fo fl (scheduleProg ao L noDiamond fuel d0 best o tile false sizes sizes2) reads writes s = some (some ms) ∧
      SameInstances s ms ∧ KeepsOrder reads writes s ms := by
  obtain ⟨ms, k1, -, k2, k3⟩ := C60_innerpar_partial ops hops npar (fo.domain s) deps hd hdp ao L hE hL fuel d0 best hbest o hip tile sizes sizes2
    hz hz2 p0 h0 hea p h hU hsm
  exact C62_order ops fo fl _ reads writes s ho hdo hu hf deps hdeps ms k1 k2 k3

/-- C65, for `pluto_schedule` with `--innerpar`. Missing: as for `C62_innerpar_partial`. -/
theorem C65_innerpar_partial {V : Type*} (ops : IslOps) (hops : ops.OK) (fo : FlowOps) (fl : FlowOpts) (reads writes : List IslAcc) (s : List IslTime)
    (ho : fo.OK reads writes s) (hdo : fo.DomainOK s) (hu : ∀ q p t t', AtTime s q p t → AtTime s q p t' → t = t')
    (hf : ∀ q e, {p | Touches writes q p e}.Finite) (deps : List IslDep) (hdeps : scheduleDeps fo fl reads writes s = some deps)
    (npar : Nat) (hd : DomsOK npar (fo.domain s)) (hdp : DepsOK npar (fo.domain s) deps)
    (ao : AutoOpts) (L : Libs) (hE : EmptyOracle L.isEmpty) (hL : FeasibleOracle L.solve) (fuel : Nat) (d0 : DfsState)
    (best : Prog → List Loop → Option Loop) (hbest : ∀ p ls L, best p ls = some L → L ∈ ls) (o : TileOpts) (hip : o.innerpar = true)
    (tile : Bool) (sizes sizes2 : Nat → Nat → Int) (hz : ∀ n m, 1 ≤ sizes n m) (hz2 : ∀ n m, 1 ≤ sizes2 n m)
    (p0 : Prog) (h0 : progFromIsl ops (fo.domain s) deps = some p0) (hea : EagerAuto ao L noDiamond fuel d0 p0)
    (p : Prog) (h : autoTransform ao L noDiamond fuel d0 p0 = some (.success p))
    (hU : Uniform p 0 p.hProps.length (List.range p.stmts.length))
    (hsm : ∀ p', scheduleProg ao L noDiamond fuel d0 best o tile false sizes sizes2 p0 = some (.success p') → SmallEntries p') :
    ∃ ms, plutoSchedule ops fo fl (scheduleProg ao L noDiamond fuel d0 best o tile false sizes sizes2) reads writes s = some (some ms) ∧
      ∀ q orig run, TimedRun s q orig → MapsRun ms q run → ∀ act : Pt → Action Pt V,
        (∀ a e, ((act a).reads e → Touches reads q a e) ∧ ((act a).writes e → Touches writes q a e)) →
          ∀ m : Pt → V, execute act run m = execute act orig m := by
  obtain ⟨ms, k1, k2, k3⟩ := C62_innerpar_partial ops hops fo fl reads writes s ho hdo hu hf deps hdeps npar hd hdp ao L hE hL fuel d0 best hbest o hip
    tile sizes sizes2 hz hz2 p0 h0 hea p h hU hsm
  exact ⟨ms, k1, fun q orig run h1 h2 act h3 m => C65_maps reads writes s ms k2 k3 q orig run h1 h2 act h3 m⟩

/-- The example of C60 with `--innerpar`: the remaining hypothesis that mentions the options. The others are those of the example
beside `C60_transform_partial`. -/
example : ({ exTileOpts with innerpar := true } : TileOpts).innerpar = true ∧
    ∀ p', scheduleProg exAutoOpts exSchedLibs noDiamond 10 exDfs exBest { exTileOpts with innerpar := true } false false (fun _ _ => 32) (fun _ _ => 8)
      exIslProg = some (.success p') → SmallEntries p' := by
  refine ⟨rfl, fun p' hp' => ?_⟩
  have h' : Outcome.holds smallCheck (scheduleProg exAutoOpts exSchedLibs noDiamond 10 exDfs exBest { exTileOpts with innerpar := true } false false
      (fun _ _ => 32) (fun _ _ => 8) exIslProg) = true := by decide +kernel
  rw [hp'] at h'
  exact smallCheck_ok h'

/-- The same for the example of C62 and C65, with tiling. -/
example : ∀ p', scheduleProg exAutoOpts sumLibs noDiamond 10 exDfs exBest { exTileOpts with innerpar := true } true false (fun _ _ => 32) (fun _ _ => 8)
      sumProg = some (.success p') → SmallEntries p' := by
  intro p' hp'
  have h' : Outcome.holds smallCheck (scheduleProg exAutoOpts sumLibs noDiamond 10 exDfs exBest { exTileOpts with innerpar := true } true false
      (fun _ _ => 32) (fun _ _ => 8) sumProg) = true := by decide +kernel
  rw [hp'] at h'
  exact smallCheck_ok h'

end Pluto
