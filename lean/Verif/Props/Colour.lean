import Verif.Lemmas.FcgUpdate

/-! C55: colouring of the fusion conflict graph (`colourBlocks` is `colour_scc`). `Extends`, `Proper`,
`Blocks`, `Joined`: Verif/Spec/Colour.lean. -/

namespace Pluto

section
variable (g : Graph) (h01 : ∀ i j, g.adj i j = 0 ∨ g.adj i j = 1) (nvar c : Nat) (hc : c ≠ 0) (bs : List Block)
  (colour : List Nat) (hlen : colour.length = g.n) (hB : Blocks g.n bs) (hdim : ∀ b ∈ bs, 0 < b.count ∧ b.count ≤ nvar)
  (hnew : ∀ b ∈ bs, ∀ v, b.Has v → colourOf colour v ≠ c)
include h01 hc hlen hB hdim hnew

/-- C55. If colouring the statements of a component succeeds, then exactly one loop of each statement,
which had no colour, has been given the colour; no other colour has changed; and if no two loops of this
colour were joined by an edge before, none are now. -/
theorem C55_colour_sound (h : (colourBlocks g nvar c (fun _ => true) bs none colour).1 = true) :
    ∃ vs, Extends g.adj g.n c (colourOf colour) bs vs ∧
      (∀ u, colourOf (colourBlocks g nvar c (fun _ => true) bs none colour).2 u = if u ∈ vs then c else colourOf colour u) ∧
      (Proper g.adj g.n c (colourOf colour) →
        Proper g.adj g.n c (colourOf (colourBlocks g nvar c (fun _ => true) bs none colour).2)) := by
  obtain ⟨vs, h1, h2⟩ := (colourBlocks_spec g h01 nvar c hc (fun _ => true) bs none colour hlen hB hdim hnew (by simp)).1 h
  have hv : ∀ v ∈ vs, v < colour.length := by
    intro v hv
    obtain ⟨b, hb, hbv⟩ := forall₂_right_mem h1.one hv
    have := hB.inside b hb
    have := hbv.2
    omega
  have hcol : ∀ u, colourOf (colourBlocks g nvar c (fun _ => true) bs none colour).2 u = if u ∈ vs then c else colourOf colour u := by
    intro u
    rw [h2, colourOf_paint c vs colour hv]
  refine ⟨vs, h1, hcol, ?_⟩
  intro hp u v hu hv' e1 e2 hj
  rw [hcol] at e1 e2
  have sym : ∀ u v, Joined g.adj u v → Joined g.adj v u := fun _ _ => Or.symm
  by_cases m1 : u ∈ vs <;> by_cases m2 : v ∈ vs
  · by_cases e : u = v
    · subst e; exact h1.self u m1 hj
    · obtain ⟨i, hi, rfl⟩ := List.getElem_of_mem m1
      obtain ⟨j, hj', rfl⟩ := List.getElem_of_mem m2
      have hpw := List.pairwise_iff_getElem.mp h1.apart
      rcases Nat.lt_or_gt_of_ne (show i ≠ j by rintro rfl; exact e rfl) with hl | hl
      · exact hpw i j hi hj' hl hj
      · exact hpw j i hj' hi hl (sym _ _ hj)
  · rw [if_neg m2] at e2
    exact h1.old u m1 v hv' e2 (sym _ _ hj)
  · rw [if_neg m1] at e1
    exact h1.old v m2 u hu e1 hj
  · rw [if_neg m1] at e1
    rw [if_neg m2] at e2
    exact hp u v hu hv' e1 e2 hj

/-- C55. If it fails, then no choice of one uncoloured loop per statement would be a proper colouring, and
the colours are as they were. -/
theorem C55_colour_complete (h : (colourBlocks g nvar c (fun _ => true) bs none colour).1 = false) :
    (colourBlocks g nvar c (fun _ => true) bs none colour).2 = colour ∧ ∀ vs, ¬ Extends g.adj g.n c (colourOf colour) bs vs := by
  obtain ⟨h1, h2⟩ := (colourBlocks_spec g h01 nvar c hc (fun _ => true) bs none colour hlen hB hdim hnew (by simp)).2 h
  refine ⟨h1, fun vs hvs => ?_⟩
  obtain ⟨v, _, hv⟩ := h2 vs hvs
  cases hv

end

/-- C55. The vertices `update_fcg_between_sccs` and `colour_scc` use for the loops of the statements: those of
different statements are disjoint, there is one per loop of the statement, and together they are the vertices
below `fcgSize`. -/
theorem C55_blocks (p : Prog) :
    (∀ (i : Nat) (st : Stmt), p.stmts[i]? = some st → (stmtBlock p i).count = st.dimOrig) ∧
    (∀ i j v, (stmtBlock p i).Has v → (stmtBlock p j).Has v → i = j) ∧
    ∀ v, v < fcgSize p ↔ ∃ i < p.stmts.length, (stmtBlock p i).Has v := by
  refine ⟨fun i st h => by simp [stmtBlock, h], ?_, ?_⟩
  · intro i j v h1 h2
    by_contra hne
    exact stmtBlock_apart hne h1 h2
  · intro v
    constructor
    · intro h
      have key : ∀ n, v < fcgOffset p n → ∃ i < n, (stmtBlock p i).Has v := by
        intro n
        induction n with
        | zero => intro h; simp [fcgOffset] at h
        | succ n ih =>
          intro h
          by_cases hc : v < fcgOffset p n
          · obtain ⟨i, h1, h2⟩ := ih hc
            exact ⟨i, by omega, h2⟩
          · exact ⟨n, by omega, stmtBlock_has.mpr ⟨by omega, h⟩⟩
      exact key _ (by rw [fcgOffset_end]; exact h)
    · rintro ⟨i, hi, hv⟩
      have := stmtBlock_inside hi
      have := hv.2
      omega

/-- C55 (missing: `--nofuse`, see `C55_update_violated`). Updating the graph after the components below `k` have been
distributed from the others removes all edges between the loops of the two groups of statements and keeps all others. -/
theorem C55_update_partial (fuse : Fuse) (hf : fuse ≠ .no) (k : Nat) (d d' : Dfp) (h : d.updateFcg fuse k = some d') :
    d'.a = d.a ∧ d'.colour = d.colour ∧ d'.fcg.n = d.fcg.n ∧
    ∀ i j u v, i < d.a.p.stmts.length → j < d.a.p.stmts.length → (stmtBlock d.a.p i).Has u → (stmtBlock d.a.p j).Has v →
      d'.fcg.adj u v = if (d.a.scc i < (k : Int) ↔ d.a.scc j < (k : Int)) then d.fcg.adj u v else 0 := by
  unfold Dfp.updateFcg at h
  rw [if_neg hf] at h
  split_ifs at h with h1 h2
  · simp only [Option.some.injEq] at h
    subst h
    refine ⟨rfl, rfl, rfl, ?_⟩
    intro i j u v hi hj _ _
    have : i = j := by omega
    subst this
    rw [if_pos Iff.rfl]
  · simp only [Option.some.injEq] at h
    subst h
    refine ⟨rfl, rfl, rfl, ?_⟩
    intro i j u v hi hj hu hv
    show updateFcgCut d.a k d.fcg.adj (allPairs d.a.p.stmts.length) u v = _
    rcases updateFcgCut_adj d.a k (allPairs d.a.p.stmts.length) d.fcg.adj u v with ⟨e, x, hx, hs, hb⟩ | ⟨e, hn⟩
    · rw [e, if_neg]
      intro hiff
      rcases hb with ⟨b1, b2⟩ | ⟨b1, b2⟩
      · have e1 := (C55_blocks d.a.p).2.1 _ _ _ b1 hu
        have e2 := (C55_blocks d.a.p).2.1 _ _ _ b2 hv
        rw [e1, e2] at hs
        omega
      · have e1 := (C55_blocks d.a.p).2.1 _ _ _ b1 hu
        have e2 := (C55_blocks d.a.p).2.1 _ _ _ b2 hv
        rw [e1, e2] at hs
        omega
    · rw [e]
      split_ifs with hc
      · rfl
      · exfalso
        apply hn
        refine ⟨(i, j), ?_, by simp only; omega, .inl ⟨hu, hv⟩⟩
        simp only [allPairs, List.mem_flatMap, List.mem_range, List.mem_map]
        exact ⟨i, hi, j, hj, rfl⟩

/-- Two statements with one loop each, distributed by their last schedule rows. -/
def exNoFuse : Prog :=
  ⟨1, 0, [⟨1, 1, ⟨2, []⟩, [true], [[0, 0]], [.scalar]⟩, ⟨1, 1, ⟨2, []⟩, [true], [[0, 1]], [.scalar]⟩], [], [.scalar]⟩

def exNoFuseDfp : Dfp := ⟨⟨exNoFuse, ⟨2, fun _ _ => 0⟩, ⟨fun _ => 0, fun _ => 0, fun _ => 0, 0⟩, fun i => i, 2⟩, ⟨2, fun _ _ => 1⟩, [0, 0], 0, false⟩

/-- C55 fails with `--nofuse`: the two statements have different constants in their last rows, that is, they have been
distributed, but the edges between their loops stay (lib/framework-dfp.c:920-935 uses the vertices of statement `i`
for both ends), and the edge that says that the loop of the second statement is not permutable is removed. -/
theorem C55_update_violated : ∃ d', exNoFuseDfp.updateFcg .no 1 = some d' ∧
    lastConst exNoFuse 0 ≠ lastConst exNoFuse 1 ∧
    d'.fcg.adj 0 1 = 1 ∧ d'.fcg.adj 1 0 = 1 ∧ exNoFuseDfp.fcg.adj 1 1 = 1 ∧ d'.fcg.adj 1 1 = 0 :=
  ⟨_, rfl, by decide, by decide, by decide, by decide, by decide⟩

/-- The hypotheses of C55 can be met and colouring needs to backtrack: two statements with two loops each; loop 0 is
joined to both loops of the other statement. -/
example : let g : Graph := ⟨4, fun i j => if i = 0 ∧ 2 ≤ j then 1 else 0⟩
    (∀ i j, g.adj i j = 0 ∨ g.adj i j = 1) ∧ Blocks g.n [⟨0, 2⟩, ⟨2, 2⟩] ∧
    colourBlocks g 2 1 (fun _ => true) [⟨0, 2⟩, ⟨2, 2⟩] none [0, 0, 0, 0] = (true, [0, 1, 1, 0]) ∧
    colourBlocks g 2 2 (fun _ => true) [⟨0, 2⟩, ⟨2, 2⟩] none [0, 1, 1, 0] = (false, [0, 1, 1, 0]) := by
  refine ⟨?_, ⟨by decide, ?_⟩, by decide, by decide⟩
  · intro i j
    dsimp only
    split_ifs <;> simp
  · refine .cons ?_ (.cons (by simp) .nil)
    intro b hb v h1 h2
    rw [List.mem_singleton] at hb
    subst hb
    unfold Block.Has at h1 h2
    simp only at h1 h2
    omega

/-- An update that removes the edges between the two statements only. -/
example : (exNoFuseDfp.updateFcg .max 1).map (fun d => (List.range 2).map (fun i => (List.range 2).map (d.fcg.adj i))) =
    some [[1, 0], [0, 1]] := by decide

end Pluto
