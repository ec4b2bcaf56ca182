import Verif.Lemmas.PostNoWave
import Verif.Props.InnerParTile
import Verif.Props.Mark
import Verif.Spec.Mark

/-! C51 without `--parallel`: `pluto_tile` makes no wavefronts, and every loop reported parallel is, whatever its statements. -/

namespace Pluto

/-- C51 without wavefronts: any loop, with any statements, that the parallelism test reports parallel in the result of `pluto_tile` carries
no dependence. Missing for the full C51: wavefronts (`C51_parallel_partial`, `C51_violated_innerpar`), levels mixing scalar and loop rows,
dependences satisfied by several levels jointly. -/
theorem C51_no_wavefront_partial (isEmpty : Cst → Bool) (hE : EmptyOracle isEmpty) (best : Prog → List Loop → Option Loop)
    (hbest : ∀ p ls L, best p ls = some L → L ∈ ls) (o : TileOpts) (hnp : o.parallel = false) (sizes sizes2 : Nat → Nat → Int)
    (hz : ∀ n m, 1 ≤ sizes n m) (hz2 : ∀ n m, 1 ≤ sizes2 n m) (p : Prog) (hok : p.OK) (hi : p.Info) (hst : Stepwise p) (hT : TypesRight p)
    (hU : Uniform p 0 p.hProps.length (List.range p.stmts.length)) (hps : PureScalars p)
    (p' : Prog) (h : plutoTile isEmpty best o sizes sizes2 p = some p') (L : Loop) (hpar : loopIsParallel p' L = some true) :
    CarriesNone p' L.stmts L.depth := by
  obtain ⟨p1, h1, _, i1⟩ := plutoTile_info hE hbest o hnp hz hz2 hok hi hst hT hU hps
  rw [h] at h1
  cases h1
  have hB : Bits p' [] := ⟨fun d hd hr l _ hb s t q hin htied => bit_false i1 hd hr hb hin htied⟩
  intro d hd hr hs ht s t q hin htied
  have := hB.parallel (L := L) (fun b hb => by cases hb) hpar d hd hr hs ht s t q hin htied
  unfold Prog.comp at this
  omega

/-- C53 after tiling, vectorization: without wavefronts, all loops that `pluto_mark_vector` marks in the code of the result of `pluto_tile`
are loops of the AST that carry no dependence and have no loop level below them.
Missing: as for `C51_no_wavefront_partial`. -/
theorem C53_vector_tiled_partial (isEmpty : Cst → Bool) (hE : EmptyOracle isEmpty) (best : Prog → List Loop → Option Loop)
    (hbest : ∀ p ls L, best p ls = some L → L ∈ ls) (o : TileOpts) (hnp : o.parallel = false) (sizes sizes2 : Nat → Nat → Int)
    (hz : ∀ n m, 1 ≤ sizes n m) (hz2 : ∀ n m, 1 ≤ sizes2 n m) (p : Prog) (hok : p.OK) (hi : p.Info) (hst : Stepwise p) (hT : TypesRight p)
    (hU : Uniform p 0 p.hProps.length (List.range p.stmts.length)) (hps : PureScalars p)
    (p' : Prog) (h : plutoTile isEmpty best o sizes sizes2 p = some p') (ast ms : List AstLoop) (hm : markVector p' ast = some ms) :
    ∀ a ∈ ms, a ∈ ast ∧ CarriesNone p' a.stmts a.depth ∧
      ∀ i ∈ a.stmts, ∀ l, a.depth < l → l < p'.hProps.length → p'.Scalar l i := by
  obtain ⟨p1, h1, _, i1⟩ := plutoTile_info hE hbest o hnp hz hz2 hok hi hst hT hU hps
  rw [h] at h1
  cases h1
  exact C53_vector p' i1 ast ms hm

/-- C53, vectorization in `pluto_schedule_prog` without `--parallel`: from legal schedules, with or without tiling, the steps after the
automatic transformation end, and all loops that `pluto_mark_vector` marks in the code of the result are loops of the AST that carry no
dependence and have no loop level below them.
Missing: as for `C51_no_wavefront_partial`. -/
theorem C53_vector_post_partial (isEmpty : Cst → Bool) (hE : EmptyOracle isEmpty) (best : Prog → List Loop → Option Loop)
    (hbest : ∀ p ls L, best p ls = some L → L ∈ ls) (o : TileOpts) (hnp : o.parallel = false) (tile identity : Bool)
    (sizes sizes2 : Nat → Nat → Int) (hz : ∀ n m, 1 ≤ sizes n m) (hz2 : ∀ n m, 1 ≤ sizes2 n m) (p : Prog) (hok : p.OK) (hst : Stepwise p)
    (hT : TypesRight p) (hU : Uniform p 0 p.hProps.length (List.range p.stmts.length)) (hps : PureScalars p) :
    ∃ p', postTransform isEmpty best o tile identity sizes sizes2 p = some p' ∧
      ∀ ast ms, markVector p' ast = some ms → ∀ a ∈ ms, a ∈ ast ∧ CarriesNone p' a.stmts a.depth ∧
        ∀ i ∈ a.stmts, ∀ l, a.depth < l → l < p'.hProps.length → p'.Scalar l i := by
  obtain ⟨p', h1, h2⟩ := postTransform_info hE hbest o hnp tile identity hz hz2 ⟨hok, hst, hU, hps⟩ hT
  exact ⟨p', h1, fun ast ms hm => C53_vector p' h2 ast ms hm⟩

/-- `exInner` with its first dependence only: the inner loop is parallel. -/
def exHalf : Prog := { exInner with deps := exInner.deps.take 1 }

/-- The hypotheses hold for `exHalf`: the second tile loop and the second loop inside tiles are reported parallel in the result of
`pluto_tile`, the first ones are not; the last loop is marked for vectorization. -/
example : ∃ (isEmpty : Cst → Bool) (p' : Prog), EmptyOracle isEmpty ∧ exHalf.OK ∧ exHalf.Info ∧ Stepwise exHalf ∧ TypesRight exHalf ∧
    Uniform exHalf 0 exHalf.hProps.length (List.range exHalf.stmts.length) ∧ PureScalars exHalf ∧
    plutoTile isEmpty exBest ⟨false, false, false, false, false⟩ (fun _ _ => 32) (fun _ _ => 8) exHalf = some p' ∧
    loopIsParallel p' ⟨0, [0]⟩ = some false ∧ loopIsParallel p' ⟨1, [0]⟩ = some true ∧
    loopIsParallel p' ⟨2, [0]⟩ = some false ∧ loopIsParallel p' ⟨3, [0]⟩ = some true ∧
    markVector p' [⟨0, [0]⟩, ⟨1, [0]⟩, ⟨2, [0]⟩, ⟨3, [0]⟩] = some [⟨3, [0]⟩] := by
  have hm : ∀ d ∈ exHalf.deps, d ∈ exInner.deps := fun d hd => List.mem_of_mem_take hd
  have hI : exHalf.Info := ⟨fun d hd => exInner_info.sat d (hm d hd), fun d hd => exInner_info.level d (hm d hd),
    fun d hd => exInner_info.unsat d (hm d hd), fun d hd => exInner_info.vec d (hm d hd), fun d hd => exInner_info.dirLen d (hm d hd),
    fun d hd => exInner_info.dir d (hm d hd)⟩
  exact ⟨innerOracle, (plutoTile innerOracle exBest ⟨false, false, false, false, false⟩ (fun _ _ => 32) (fun _ _ => 8) exHalf).getD exHalf,
    certOracle_ok _ _ innerEmpties_ok, by decide +kernel, hI, fun d hd => exInner_stepwise d (hm d hd), by decide +kernel, by decide +kernel,
    exInner_pure, by decide +kernel, by decide +kernel, by decide +kernel, by decide +kernel, by decide +kernel, by decide +kernel⟩

end Pluto
