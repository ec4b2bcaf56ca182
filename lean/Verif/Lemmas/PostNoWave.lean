import Verif.Lemmas.TileNoWave
import Verif.Lemmas.Schedule

namespace Pluto

/-- Without `--parallel` the steps after the automatic transformation leave the satisfaction data right. -/
theorem postTransform_info {isEmpty : Cst → Bool} (hE : EmptyOracle isEmpty) {best : Prog → List Loop → Option Loop}
    (hbest : ∀ p ls L, best p ls = some L → L ∈ ls) (o : TileOpts) (hnp : o.parallel = false) (tile identity : Bool)
    {sizes sizes2 : Nat → Nat → Int} (hz : ∀ n m, 1 ≤ sizes n m) (hz2 : ∀ n m, 1 ≤ sizes2 n m) {p : Prog} (H : Good p) (hT : TypesRight p) :
    ∃ p', postTransform isEmpty best o tile identity sizes sizes2 p = some p' ∧ p'.Info := by
  unfold postTransform stepIf
  cases tile with
  | true =>
    obtain ⟨p1, e1, i1, q1, f1⟩ := recompute_spec hE H.ok
    have H1 := H.resat q1 f1
    obtain ⟨p', h1, _, h2⟩ := plutoTile_info hE hbest o hnp hz hz2 H1.ok i1 H1.step (resat_types q1 hT) H1.uni H1.pure
    refine ⟨p', ?_, h2⟩
    unfold beforeWave
    simp [e1, h1]
  | false =>
    obtain ⟨p2, p1, h1, _, _, h4, _⟩ := untiled_good hE hbest o sizes sizes2 H
    exact ⟨p1, by simp [h1, hnp], h4⟩

end Pluto
