import Verif.Lemmas.FusionFiles
import Verif.Props.PrecutExamples
import Verif.Props.Fusion

/-! C86: `--nofuse` in spite of a `.fst` file. -/

namespace Pluto

/-- C86 for `--nofuse` together with a `.fst` file (README: "If --nofuse is specified, distribution will be done in spite of a
.fst/.precut"). For a file as in `C72_fst_partial`: if some two statements do not depend on each other both ways, the level after that of
the file distributes: every instance of a statement has the same constant there, and any two statements that do not depend on each
other both ways have different ones, even if the file puts them into one component.
Missing for the full C86: diamond tiling (`--nodiamond-tile` assumed). -/
theorem C86_nofuse_fst_partial (o : AutoOpts) (L : Libs) (hE : EmptyOracle L.isEmpty) (hL : FeasibleOracle L.solve)
    (fuel : Nat) (d0 : DfsState) (p0 p : Prog) (hp : p0.InputOK) (ho : o.fuse = .no)
    (comps : List (List Nat × Int)) (rest : List Int) (pre : Option (List Int))
    (hP : Partition p0.stmts.length comps) (hn : comps.length ≤ p0.stmts.length)
    (hord : ∀ d ∈ p0.deps, d.rar = false → (∃ s t q, p0.Inst d s t q) → ∀ c c', InComp comps d.src c → InComp comps d.dest c' → c ≤ c')
    (h2 : ∃ i < p0.stmts.length, ∃ j < p0.stmts.length, ¬ p0.Mutual i j)
    (h : autoTransformFiles o L noDiamond ⟨some (fstText comps ++ rest), pre⟩ fuel d0 p0 = some (.success p)) :
    ∃ c : Nat → Int, (∀ i < p0.stmts.length, ∀ j < p0.stmts.length, ¬ p0.Mutual i j → c i ≠ c j) ∧
      ∀ i k, InComp comps i k → ∀ x q : List Int, x.length = p0.dim i → q.length = p0.npar →
        (p.timestamp i x q)[0]? = some (k : Int) ∧ (p.timestamp i x q)[1]? = some (c i) := by
  have hF : FileGives L.isEmpty ⟨some (fstText comps ++ rest), pre⟩ p0 1 (fstRows p0 (comps.map Prod.fst)) := by
    intro a r g1 g2 g3 g4
    simp only [precut] at g4
    have hr : ∃ a', r = some a' := by
      cases r with
      | some a' => exact ⟨a', rfl⟩
      | none =>
        exfalso
        unfold fstText at g4
        rw [List.cons_append] at g4
        unfold precutFst at g4
        dsimp only at g4
        rw [if_neg (by rw [g1.len]; omega)] at g4
        simp only [Option.bind_eq_bind, Option.bind_eq_some_iff] at g4
        obtain ⟨_, _, _, _, g5⟩ := g4
        simp at g5
    obtain ⟨a', rfl⟩ := hr
    obtain ⟨n, g, l, e1, e2, p4, g5, g6⟩ := fst_given g1 g2 g3 g4
    unfold fstText at e1
    rw [List.cons_append, List.cons.injEq] at e1
    rw [← e1.1, ← e1.2, Int.toNat_natCast] at e2
    have := readComps_text _ _ _ _ e2
    subst this
    exact ⟨p4, a', rfl, g5, g6⟩
  have hcomp : ∀ i < p0.stmts.length, ∀ c, InComp comps i c → ∀ x q : List Int, x.length = p0.dim i → q.length = p0.npar →
      rowTime p0 (fstRows p0 (comps.map Prod.fst)) i x q = [(c : Int)] := by
    intro i hi c hc x q hx hq
    rw [fstRows_time hp _ hi hx hq, compConst_partition hP hc]
  have hleg : ∀ d ∈ p0.deps, d.rar = false → ∀ s t q, p0.Inst d s t q →
      ¬ LexBefore (rowTime p0 (fstRows p0 (comps.map Prod.fst)) d.dest t q) (rowTime p0 (fstRows p0 (comps.map Prod.fst)) d.src s q) := by
    intro d hd hr s t q hi hb
    obtain ⟨b1, b2, _⟩ := hp.deps d hd
    obtain ⟨c, hc⟩ := hP.all d.src b1
    obtain ⟨c', hc'⟩ := hP.all d.dest b2
    rw [hcomp _ b1 c hc s q hi.hs hi.hp, hcomp _ b2 c' hc' t q hi.ht hi.hp] at hb
    have := hord d hd hr ⟨s, t, q, hi⟩ c c' hc hc'
    obtain ⟨l, x, y, e1, e2, e3, _⟩ := hb
    cases l with
    | zero =>
      simp only [List.getElem?_cons_zero, Option.some.injEq] at e1 e2
      omega
    | succ l => simp at e1
  obtain ⟨c, c1, c2⟩ := files_nofuse _ hE hL fuel d0 p hp ho hF (fstRows_fit p0 _) hleg h2 h
  refine ⟨c, fun i hi j hj hm e => hm (c1 i hi j hj e), ?_⟩
  intro i k hk x q hx hq
  have hi := hP.ids i k hk
  obtain ⟨z, hz⟩ := c2 i hi x q hx hq
  rw [← hz, hcomp i hi k hk x q hx hq]
  exact ⟨rfl, rfl⟩

/-- C86 for `--nofuse` together with a `.precut` file, as in `C72_precut_partial`: after the `m` rows of the file comes a level that distributes;
any two statements that do not depend on each other both ways have different constants there.
Missing for the full C86: diamond tiling (`--nodiamond-tile` assumed). -/
theorem C86_nofuse_precut_partial (o : AutoOpts) (L : Libs) (hE : EmptyOracle L.isEmpty) (hL : FeasibleOracle L.solve)
    (fuel : Nat) (d0 : DfsState) (p0 p : Prog) (hp : p0.InputOK) (ho : o.fuse = .no)
    (depth m : Nat) (l : List CutStmt) (rest : List Int) (hl : CutFits p0 depth m l)
    (hpar : ∀ s ∈ l, ∀ r ∈ s.rows, ∀ v ∈ r.params, v = 0)
    (hord : ∀ d ∈ p0.deps, d.rar = false → ∀ s t q, p0.Inst d s t q →
      ¬ LexBefore (fileTime l d.dest t q) (fileTime l d.src s q))
    (h2 : ∃ i < p0.stmts.length, ∃ j < p0.stmts.length, ¬ p0.Mutual i j)
    (h : autoTransformFiles o L noDiamond ⟨none, some (precutText p0 depth l ++ rest)⟩ fuel d0 p0 = some (.success p)) :
    ∃ c : Nat → Int, (∀ i < p0.stmts.length, ∀ j < p0.stmts.length, ¬ p0.Mutual i j → c i ≠ c j) ∧
      ∀ i < p0.stmts.length, ∀ x q : List Int, x.length = p0.dim i → q.length = p0.npar →
        fileTime l i x q ++ [c i] <+: p.timestamp i x q := by
  have hne : p0.stmts ≠ [] := by
    obtain ⟨i0, hi0, _⟩ := h2
    intro e
    rw [e] at hi0
    simp at hi0
  have hF : FileGives L.isEmpty ⟨none, some (precutText p0 depth l ++ rest)⟩ p0 m (cutRowsOf p0 l) := by
    intro a r g1 g2 g3 g4
    simp only [precut] at g4
    obtain ⟨a', g5, rfl⟩ := Option.map_eq_some_iff.mp g4
    obtain ⟨p4, g6, g7⟩ := precut_given hp hne hl g1 g2 g3 g5
    exact ⟨p4, a', rfl, g6, g7⟩
  have hleg : ∀ d ∈ p0.deps, d.rar = false → ∀ s t q, p0.Inst d s t q →
      ¬ LexBefore (rowTime p0 (cutRowsOf p0 l) d.dest t q) (rowTime p0 (cutRowsOf p0 l) d.src s q) := by
    intro d hd hr s t q hi
    obtain ⟨b1, b2, _⟩ := hp.deps d hd
    rw [cutRows_time hp hl hpar b1, cutRows_time hp hl hpar b2]
    exact hord d hd hr s t q hi
  obtain ⟨c, c1, c2⟩ := files_nofuse _ hE hL fuel d0 p hp ho hF (cutRows_fit hp hl) hleg h2 h
  refine ⟨c, fun i hi j hj hm e => hm (c1 i hi j hj e), ?_⟩
  intro i hi x q hx hq
  have := c2 i hi x q hx hq
  rwa [cutRows_time hp hl hpar hi] at this

/-- One component for `S0` and `S1`. -/
def exOneComp : List (List Nat × Int) := [([0, 1], 1)]

theorem exOneComp_in {i c : Nat} (h : InComp exOneComp i c) : i < 2 ∧ c = 0 := by
  obtain ⟨x, h1, h2⟩ := h
  match c, h1 with
  | 0, h1 =>
    simp only [exOneComp, List.getElem?_cons_zero, Option.some.injEq] at h1
    subst h1
    simp at h2
    omega
  | c + 1, h1 => simp [exOneComp] at h1

/-- C86: the hypotheses are met by a file that puts both statements into one component; the second level distributes them. -/
example : EmptyOracle cutLibs.isEmpty ∧ FeasibleOracle cutLibs.solve ∧ exCut.InputOK ∧ Partition exCut.stmts.length exOneComp ∧
    (∀ d ∈ exCut.deps, ∀ c c', InComp exOneComp d.src c → InComp exOneComp d.dest c' → c ≤ c') ∧ ¬ exCut.Mutual 0 1 ∧
    Outcome.view (autoTransformFiles ⟨⟨true, false, false, false, -1⟩, .no⟩ cutLibs noDiamond ⟨some (fstText exOneComp), none⟩ 10 ccDfs exCut) =
      some (true, [[[0, 0, 0], [0, 0, 0], [1, 0, 0]], [[0, 0, 0], [0, 0, 1], [1, 0, 0]]]) := by
  refine ⟨cutTab_ok, listSolver_ok _, ⟨by decide, by decide⟩, ⟨?_, ?_, ?_⟩, ?_, ?_, by decide +kernel⟩
  · exact fun i c h => (exOneComp_in h).1
  · intro i hi
    have : i = 0 ∨ i = 1 := by
      have : i < 2 := hi
      omega
    rcases this with rfl | rfl
    · exact ⟨0, ([0, 1], 1), rfl, by simp⟩
    · exact ⟨0, ([0, 1], 1), rfl, by simp⟩
  · intro i c c' h h'
    rw [(exOneComp_in h).2, (exOneComp_in h').2]
  · intro d _ c c' h1 h2
    rw [(exOneComp_in h1).2, (exOneComp_in h2).2]
  · intro h
    have := dependsOn_one (by decide) h.1
    omega

/-- C86: the complete transformation of the example for C72 (whose hypotheses on the file are shown there), with `--nofuse`: a level that
distributes follows. -/
example : CutFits exCut 1 2 exCutFile ∧ ¬ exCut.Mutual 0 1 ∧
    Outcome.view (autoTransformFiles ⟨⟨true, false, false, false, -1⟩, .no⟩ cutLibs noDiamond ⟨none, some (precutText exCut 1 exCutFile)⟩ 10 ccDfs
      exCut) = some (true, [[[1, 0, 0], [0, 0, 0], [0, 0, 1]], [[1, 0, 0], [0, 0, 1], [0, 0, 0]]]) := by
  refine ⟨exCutFile_fits, ?_, by decide +kernel⟩
  intro h
  have := dependsOn_one (by decide) h.1
  omega

end Pluto
