import Verif.Props.Dfp
import Verif.Props.OneToOne

/-! C67 for the schedules found with `--dfp`: they are one-to-one, and stay so through the later passes. -/

namespace Pluto

section
variable (o : AutoOpts) (delayedCut : Bool) (L : Libs) (lex : Lex) (hE : EmptyOracle L.isEmpty)
  (fcgOf : Auto → List Nat → Nat → Graph) (hF : FcgOracle fcgOf) (d0 : DfsState) (p0 p : Prog) (hL : LexScales p0 lex) (hp : p0.InputOK)
  (hne : p0.stmts ≠ []) (h : dfpTransform o delayedCut L lex fcgOf (quietSkew o.toSearchOpts L lex) d0 p0 = some p)
  (hpos : ∀ st ∈ p0.stmts, 0 < st.dim)
include hE hL hF hp hne h hpos

/-- C67 (missing: runs that introduce a skew, and statements without loops). With `--dfp`, different iterations of a statement have different
times, also when a dependence is left violated (`C56_violated`). -/
theorem C67_dfp_partial : p.OneToOne ∧ p.RowsFit := by
  obtain ⟨h1, h2, -, -⟩ := dfp_out hE hL hF (fun k hk => quietSkew_keeps hE k hk) hp hne h
  refine ⟨fun i hi x y q hx hy _ he => ?_, fun st hst r hr => ?_⟩
  · have hi0 : i < p0.stmts.length := by rw [← h1.len]; exact hi
    rw [h1.dim hi0] at hx hy
    exact C56_injective_partial o delayedCut L lex hE fcgOf hF d0 p0 p hL hp hne h hpos i hi0 x y q hx hy he
  · rw [h1.npar]
    exact (h2 st hst).2 r hr

/-- C67 (missing: as above). With `--dfp`, tiling, intra-tile optimization and wavefronts keep schedules one-to-one, and the remapping that
the library returns exists and computes the iterators back from the times. -/
theorem C67_dfp_post_partial (best : Prog → List Loop → Option Loop) (t : TileOpts) (tile identity : Bool) (sizes sizes2 : Nat → Nat → Int)
    (p' : Prog) (h' : postTransform L.isEmpty best t tile identity sizes sizes2 p = some p') :
    p'.OneToOne ∧ p'.RowsFit ∧ ∃ rs, getRemapping p' = some rs ∧ rs.length = p'.stmts.length ∧
      ∀ (i : Nat) (st : Stmt), p'.stmts[i]? = some st → ∃ r, rs[i]? = some r ∧
        ∀ x q : List Int, x.length = st.dim → q.length = p'.npar → Recovers r 0 x (st.time x q) q := by
  obtain ⟨a1, a2⟩ := C67_dfp_partial o delayedCut L lex hE fcgOf hF d0 p0 p hL hp hne h hpos
  obtain ⟨b1, b2⟩ := C67_post L.isEmpty best t tile identity sizes sizes2 p p' a1 a2 h'
  obtain ⟨rs, hrs⟩ := Option.isSome_iff_exists.mp ((C67_remap_defined p' b2).mpr b1)
  exact ⟨b1, b2, rs, hrs, C67_remap_inverse p' b2 rs hrs⟩

end

/-- A case of these: the run beside `C56_marked_partial`. -/
example : ∃ p, dfpTransform ⟨⟨true, true, false, true, -1⟩, .smart⟩ false exLibsDfp (lexIlp ⟨true, true, false, true, -1⟩ exLibsDfp) exConflict (quietSkew ⟨true, true, false, true, -1⟩ exLibsDfp (lexIlp ⟨true, true, false, true, -1⟩ exLibsDfp))
      ⟨fun _ => 0, fun _ => 0, fun _ => 0, 0⟩ exAuto = some p ∧ p.stmts.map (·.trans) = [[[0, 0, 0], [1, 0, 0], [0, 1, 0]], [[0, 1], [1, 0], [0, 0]]] ∧
      p.OneToOne ∧ p.RowsFit := by
  obtain ⟨p, h1, h2⟩ := Option.map_eq_some_iff.mp (show (dfpTransform ⟨⟨true, true, false, true, -1⟩, .smart⟩ false exLibsDfp (lexIlp ⟨true, true, false, true, -1⟩ exLibsDfp) exConflict (quietSkew ⟨true, true, false, true, -1⟩ exLibsDfp (lexIlp ⟨true, true, false, true, -1⟩ exLibsDfp))
      ⟨fun _ => 0, fun _ => 0, fun _ => 0, 0⟩ exAuto).map (fun p => p.stmts.map (·.trans)) =
      some [[[0, 0, 0], [1, 0, 0], [0, 1, 0]], [[0, 1], [1, 0], [0, 0]]] by decide +kernel)
  refine ⟨p, h1, h2, C67_dfp_partial _ _ _ _ (certOracle_ok _ _ exEmpties_ok) exConflict (fun a colour c => ⟨rfl, fun i j => ?_⟩) _ exAuto p ?_ ⟨by decide, by decide⟩ (by decide) h1 (by decide)⟩
  · simp only [exConflict]
    split_ifs <;> simp
  · exact lexIlp_scales (L := exLibsDfp) (listSolver_ok _) _

end Pluto
