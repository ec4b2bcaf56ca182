import Verif.Lemmas.TileBands
import Verif.Props.Band

/-! C19 for the bands that `pluto_tile` selects itself. `tileBands` is the band selection of
`pluto_tile`, `Stepwise`, `TypesRight`, `Uniform`: Verif/Spec/Polyloop.lean. -/

namespace Pluto

theorem levels_of {p : Prog} (hok : p.OK) {bands : List Band} (hb : BandsOK p bands) {sizes : Nat → Nat → Int}
    {a : Nat → TArg} (ha : ∀ (n : Nat) (b : Band), bands[n]? = some b → ∀ i ∈ b.loop.stmts, a i = ⟨b.loop.depth, sizes n, b.width⟩)
    (ha0 : ∀ i, (∀ b ∈ bands, i ∉ b.loop.stmts) → a i = ⟨0, fun _ => 0, 0⟩) :
    ∀ (i : Nat) (st0 : Stmt), p.stmts[i]? = some st0 → (a i).f + (a i).k ≤ st0.trans.length ∨ (a i).k = 0 := by
  intro i st0 hi
  by_cases hc : ∃ b ∈ bands, i ∈ b.loop.stmts
  · obtain ⟨b, hbm, hib⟩ := hc
    obtain ⟨n, hn⟩ := List.getElem?_of_mem hbm
    left
    rw [ha n b hn i hib, hok.levels st0 (List.mem_of_getElem? hi)]
    exact (hb.range b hbm).1
  · push Not at hc
    right; rw [ha0 i hc]

/-- C19, band selection. For a schedule in which every dependence is separated by one level and not
violated outside it, the bands `pluto_tile` selects exist, are disjoint, permutable, and no dependence
crosses them unsatisfied. -/
theorem C19_bands (p : Prog) (hok : p.OK) (hi : p.Info) (hst : Stepwise p) (hT : TypesRight p)
    (hU : Uniform p 0 p.hProps.length (List.range p.stmts.length)) (hps : PureScalars p) :
    ∃ bands, tileBands p = some bands ∧ BandsOK p bands ∧
      (∀ b ∈ bands, Permutable p b ∧ Separated p b ∧ Unmixed p b) := by
  obtain ⟨all, ha⟩ := C34_defined p hok (List.range p.stmts.length) List.nodup_range (by simp) 0
  have ha : getAllLoops p = some all := ha
  obtain ⟨bands, hb⟩ := tileBands_defined hok hi hst hU
  obtain ⟨done, hI⟩ := tileBands_inv ha hU hb
  exact ⟨bands, hb, inv_bandsOK ha hI, fun b hbm =>
    ⟨inv_permutable hi hT ha (fun L _ => hst.complete _) (fun L _ => hst.nonneg _) hI b hbm,
     inv_separated hok (hst.legal hok) ha hU hps hI b hbm, inv_unmixed hT ha hU hps hI b hbm⟩⟩

/-- C19, tiling the selected bands. For a schedule in which every dependence is separated by one level
and not violated outside it, and no level mixes scalar and loop rows, the first level of tiling done by
`pluto_tile` succeeds and gives a legal schedule, whatever the (positive) tile sizes.
Missing for the full C19: schedules with levels that mix scalar and loop rows, where tiling can break
dependences (`C19_violated`), and schedules that satisfy a dependence by several levels jointly
(`C35_violated_tiling`). -/
theorem C19_tile_partial (p : Prog) (hok : p.OK) (hi : p.Info) (hst : Stepwise p) (hT : TypesRight p)
    (hU : Uniform p 0 p.hProps.length (List.range p.stmts.length)) (hps : PureScalars p)
    (sizes : Nat → Nat → Int) (hz : ∀ n m, 1 ≤ sizes n m) :
    ∃ bands p', tileBands p = some bands ∧ tileScatteringDims p bands sizes = some p' ∧ p'.OK ∧ p'.Legal := by
  obtain ⟨bands, hb, hB, hall⟩ := C19_bands p hok hi hst hT hU hps
  obtain ⟨a, p', h1, h2, h3, h4⟩ := tileScattering_spec hok hB (fun n b _ m _ => hz n m)
  refine ⟨bands, p', hb, h1, h2.ok hok ?_, ?_⟩
  · exact levels_of hok hB h3 h4
  · exact C19_legal_partial p hok bands sizes hB (fun n b _ m _ => hz n m) (hst.legal hok) (fun b hb => (hall b hb).1)
      (fun b hb => (hall b hb).2.1) (fun b hb => (hall b hb).2.2) p' h1

/-! ### Examples -/

instance (p : Prog) (l i : Nat) : Decidable (p.ScalarType l i) :=
  decidable_of_iff (p.stmts[i]?.any (fun st => decide (st.hypTypes[l]? = some HypType.scalar)) = true) (by
    unfold Prog.ScalarType
    cases p.stmts[i]? <;> simp)

instance (p : Prog) : Decidable (TypesRight p) :=
  inferInstanceAs (Decidable (∀ i < p.stmts.length, ∀ l < p.hProps.length, p.ScalarType l i ↔ p.Scalar l i))

theorem exTile_stepwise : Stepwise exTile := by
  intro d hd _
  have key : ∀ s t q, exTile.Inst d s t q → ∃ i j n : Int, s = [i, j] ∧ q = [n] ∧
      ((d.src = 0 ∧ d.dest = 0 ∧ t = [i + 1, j - 1]) ∨ (d.src = 0 ∧ d.dest = 1 ∧ t = [i, j])) := fun s t q h =>
    exTile_pairs hd h.hs h.ht h.hp h.sat
  have hd' := hd
  simp only [exTile, List.mem_cons, List.not_mem_nil, or_false] at hd'
  rcases hd' with e | e
  · refine ⟨1, by decide, fun s t q h => ?_, fun l hl s t q h => ?_⟩ <;>
    obtain ⟨i, j, n, rfl, rfl, ⟨e1, e2, rfl⟩ | ⟨e1, e2, rfl⟩⟩ := key s t q h
    · simp [Prog.comp, Prog.phi, Prog.row, e1, e2, exTile, aff, dot]
    · rw [e] at e2; simp at e2
    · interval_cases l; simp [Prog.comp, Prog.phi, Prog.row, e1, e2, exTile, aff, dot]
    · rw [e] at e2; simp at e2
  · refine ⟨0, by decide, fun s t q h => ?_, fun l hl => by omega⟩
    obtain ⟨i, j, n, rfl, rfl, ⟨e1, e2, rfl⟩ | ⟨e1, e2, rfl⟩⟩ := key s t q h
    · rw [e] at e2; simp at e2
    · simp [Prog.comp, Prog.phi, Prog.row, e1, e2, exTile, aff, dot]

/-- The hypotheses of `C19_tile_partial` hold for the example (with `exTile_info`, `exTile_pure`). -/
example : exTile.OK ∧ exTile.Info ∧ Stepwise exTile ∧ TypesRight exTile ∧
    Uniform exTile 0 exTile.hProps.length (List.range exTile.stmts.length) ∧ PureScalars exTile :=
  ⟨exTile_ok.1, exTile_info, exTile_stepwise, by decide +kernel, by decide +kernel, exTile_pure⟩

example : tileBands exTile = some exBands := by decide +kernel

/-- A third nest of depth one whose loop is parallel: it gets a band of its own. -/
example : tileBands { exTile with stmts := exTile.stmts ++ [⟨1, 1, ⟨3, []⟩, [true], [[0, 0, 2], [1, 0, 0], [0, 0, 0]], [.scalar, .loop, .scalar]⟩] } =
    some (exBands ++ [⟨⟨1, [2]⟩, 1⟩]) := by decide +kernel

end Pluto
