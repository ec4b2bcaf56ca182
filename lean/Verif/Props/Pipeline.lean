import Verif.Lemmas.PlutoTile
import Verif.Props.TileBands

/-! C50, C51: `pluto_tile` as a whole (`plutoTile`, Verif/Model/Pipeline.lean): choice of bands, one or two
levels of tiling, intra-tile reordering and wavefronts. `Prog.Legal`, `TypesRight`, `Stepwise`, `Uniform`,
`PureScalars`: Verif/Spec/. `Forward p b`: dependent instances that agree on the levels before the band do
not go backwards on levels of the band that are loops for all its statements. -/

namespace Pluto

/-- C50. `pluto_tile` keeps legal schedules legal: with any positive tile sizes, one or two levels of
tiling, with or without intra-tile reordering (whatever loop of those it is given `best` selects) and
with or without wavefront parallelization, it succeeds; the result runs exactly the instances of the
statements of `p`, extended by tile coordinates (`SameRuns`), and every dependent pair of instances of `p` is
run in order. `T` are the tile coordinates.
Missing for the full C50: `--innerpar`, diamond tiling, schedules with levels that mix scalar and loop rows,
or satisfy a dependence by several levels jointly (there the claim is false, `C19_violated`,
`C35_violated_tiling`), and wavefronts over bands with scalar levels (`Forward`; false,
`C20_violated`). -/
theorem C50_tile_partial (isEmpty : Cst → Bool) (hE : EmptyOracle isEmpty) (best : Prog → List Loop → Option Loop)
    (hbest : ∀ p ls L, best p ls = some L → L ∈ ls) (o : TileOpts) (hip : o.innerpar = false) (sizes sizes2 : Nat → Nat → Int)
    (hz : ∀ n m, 1 ≤ sizes n m) (hz2 : ∀ n m, 1 ≤ sizes2 n m) (p : Prog) (hok : p.OK) (hi : p.Info) (hst : Stepwise p) (hT : TypesRight p)
    (hU : Uniform p 0 p.hProps.length (List.range p.stmts.length)) (hps : PureScalars p)
    (hfw : o.parallel = true → ∀ bands, tileBands p = some bands → ∀ b ∈ bands, Forward p b) :
    ∃ p' T, plutoTile isEmpty best o sizes sizes2 p = some p' ∧ p'.OK ∧ p'.Legal ∧ SameRuns p p' T ∧
      ∀ d ∈ p.deps, d.rar = false → ∀ s t q, p.Inst d s t q →
        LexBefore (p'.timestamp d.src (T d.src s q ++ s) q) (p'.timestamp d.dest (T d.dest t q ++ t) q) := by
  obtain ⟨bands, hb, h⟩ := plutoTile_stage hE hbest o hip hz hz2 hok hi hst hT hU hps
  obtain ⟨p', h1, h2, _, T, h3⟩ := h (fun hp b hbm => hfw hp bands hb b hbm)
  exact ⟨p', T, h1, h2.ok, h2.legal, h3, h3.inOrder h2.legal⟩

/-- The condition on wavefronts holds for the bands `pluto_tile` selects, if no level of such a band is
scalar for all its statements. -/
theorem C50_forward (p : Prog) (hok : p.OK) (hi : p.Info) (hst : Stepwise p)
    (hU : Uniform p 0 p.hProps.length (List.range p.stmts.length)) (bands : List Band) (hb : tileBands p = some bands)
    (hns : ∀ b ∈ bands, ∀ m < b.width, ∃ i ∈ b.loop.stmts, ¬ p.Scalar (b.loop.depth + m) i) : ∀ b ∈ bands, Forward p b :=
  fun b hbm => tileBands_forward hi hst hU hok hb hbm (hns b hbm)

/-- C51. A loop that the parallelism test reports parallel in the result of `pluto_tile` carries no
dependence: dependent instances of its statements that agree on the levels outside it run in the same
iteration.
Missing for the full C51: as for C50; and loops that start at the first level of a tiled band but have only
some of its statements (`Aligned`). -/
theorem C51_parallel_partial (isEmpty : Cst → Bool) (hE : EmptyOracle isEmpty) (best : Prog → List Loop → Option Loop)
    (hbest : ∀ p ls L, best p ls = some L → L ∈ ls) (o : TileOpts) (hip : o.innerpar = false) (sizes sizes2 : Nat → Nat → Int)
    (hz : ∀ n m, 1 ≤ sizes n m) (hz2 : ∀ n m, 1 ≤ sizes2 n m) (p : Prog) (hok : p.OK) (hi : p.Info) (hst : Stepwise p) (hT : TypesRight p)
    (hU : Uniform p 0 p.hProps.length (List.range p.stmts.length)) (hps : PureScalars p)
    (hfw : o.parallel = true → ∀ bands, tileBands p = some bands → ∀ b ∈ bands, Forward p b)
    (p' : Prog) (h : plutoTile isEmpty best o sizes sizes2 p = some p') (L : Loop)
    (hL : ∀ bands, tileBands p = some bands → Aligned bands L) (hpar : loopIsParallel p' L = some true) :
    ∀ d ∈ p'.deps, d.rar = false → d.src ∈ L.stmts → d.dest ∈ L.stmts → ∀ s t q, p'.Inst d s t q →
      p'.TiedBelow d L.depth s t q → p'.phi d.src L.depth s q = p'.phi d.dest L.depth t q := by
  obtain ⟨bands, hb, hh⟩ := plutoTile_stage hE hbest o hip hz hz2 hok hi hst hT hU hps
  obtain ⟨p1, h1, _, h3, _⟩ := hh (fun hp b hbm => hfw hp bands hb b hbm)
  rw [h] at h1
  cases h1
  intro d hd hr hs ht s t q hin htied
  have := h3.parallel (hL bands hb) hpar d hd hr hs ht s t q hin htied
  unfold Prog.comp at this
  omega

/-! ### Examples -/

/-- The hypotheses hold for the tiling example, with all options set. -/
example : exTile.OK ∧ exTile.Info ∧ Stepwise exTile ∧ TypesRight exTile ∧
    Uniform exTile 0 exTile.hProps.length (List.range exTile.stmts.length) ∧ PureScalars exTile ∧
    (∀ bands, tileBands exTile = some bands → ∀ b ∈ bands, Forward exTile b) ∧
    (∀ bands, tileBands exTile = some bands → Aligned bands ⟨1, [0]⟩ ∧ Aligned bands ⟨2, [0]⟩) := by
  have hb : tileBands exTile = some exBands := by decide +kernel
  have hU : Uniform exTile 0 exTile.hProps.length (List.range exTile.stmts.length) := by decide +kernel
  refine ⟨exTile_ok.1, exTile_info, exTile_stepwise, by decide +kernel, hU, exTile_pure, ?_, ?_⟩
  · intro bands hbs
    exact C50_forward exTile exTile_ok.1 exTile_info exTile_stepwise hU bands hbs (by
      rw [hb] at hbs; cases hbs; decide +kernel)
  · intro bands hbs
    rw [hb] at hbs; cases hbs
    simp [Aligned, exBands]

end Pluto
