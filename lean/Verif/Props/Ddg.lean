import Verif.Lemmas.DdgMore

/-! C14, C16, C17, C47: the data dependence graph. -/

namespace Pluto

/-- Concrete graphs and an initial state for the examples. -/
def exGraph (n : Nat) (edges : List (Nat × Nat)) : Graph :=
  ⟨n, fun i j => if (i, j) ∈ edges then 1 else 0⟩
def exState : DfsState := ⟨fun _ => 7, fun _ => 3, fun _ => 9, 5⟩

/-- **C14.** `ddg_compute_scc` always terminates; two statements get the same component id iff each
reaches the other; an edge never goes to a lower id; the ids are exactly `0 .. num_sccs - 1`. Whatever
the vertex fields contained before. -/
theorem C14_scc (g : Graph) (s0 : DfsState) :
    ∃ s, ddgComputeScc g s0 = some s ∧
      (∀ i j, i < g.n → j < g.n → (s.scc i = s.scc j ↔ g.Reach i j ∧ g.Reach j i)) ∧
      (∀ i j, g.Edge i j → s.scc i ≠ s.scc j → s.scc i < s.scc j) ∧
      (∀ k : Int, (0 ≤ k ∧ k < s.num) ↔ ∃ i < g.n, s.scc i = k) := by
  obtain ⟨s, z, e, inv, hall⟩ := scc_spec g s0
  refine ⟨s, e, ?_, ?_, ?_⟩
  · intro i j hi hj
    exact inv.same i j hi hj (hall i hi) (hall j hj)
  · intro i j he hne
    have := inv.mono i j he (hall i he.1) (hall j he.2.1)
    omega
  · intro k
    constructor
    · rintro ⟨h0, h1⟩
      obtain ⟨i, hi, _, h⟩ := inv.onto k.toNat (by omega)
      exact ⟨i, hi, by omega⟩
    · rintro ⟨i, hi, rfl⟩
      exact inv.range i hi (hall i hi)

/-- Whole paths respect the order of the components. -/
theorem C14_order (g : Graph) (s0 : DfsState) (s : SccState) (h : ddgComputeScc g s0 = some s)
    (i j : Nat) (hr : g.Reach i j) : s.scc i ≤ s.scc j := by
  obtain ⟨s', e, _, h2, _⟩ := C14_scc g s0
  rw [h] at e
  cases e
  induction hr with
  | refl => exact le_refl _
  | tail _ e ih =>
    refine le_trans ih ?_
    by_contra hlt
    have := h2 _ _ e (by omega)
    omega

/-- Components `{0,2}`, `{1}`, `{3,4}`. -/
example : (ddgComputeScc (exGraph 5 [(2, 0), (0, 2), (2, 1), (1, 3), (3, 4), (4, 3)]) exState).map
    (fun s => ((List.range 5).map s.scc, s.num)) = some ([0, 1, 0, 2, 2], 3) := by decide +kernel

/-- **C16 does not hold.** With the only edge 0 - 2, statements 0 and 2 are connected but get
different ids, and 1 and 2 are not connected but get the same id. -/
theorem C16_violated : ∃ (g : Graph) (s0 : DfsState) (cc : Nat → Int) (k : Nat),
    ddgComputeCc g s0 = some (cc, k) ∧
      (∃ i < g.n, ∃ j < g.n, g.Connected i j ∧ cc i ≠ cc j) ∧
      (∃ i < g.n, ∃ j < g.n, ¬ g.Connected i j ∧ cc i = cc j) := by
  have hex : (ddgComputeCc (exGraph 3 [(0, 2)]) exState).map (fun r => (List.range 3).map r.1) =
      some [0, 1, 1] := by decide +kernel
  obtain ⟨⟨cc, k⟩, e, hcc⟩ := Option.map_eq_some_iff.mp hex
  have h0 : cc 0 = 0 ∧ cc 1 = 1 ∧ cc 2 = 1 := by simpa [List.range_succ] using hcc
  refine ⟨_, _, cc, k, e, ⟨0, by decide, 2, by decide, ?_, by omega⟩, ⟨1, by decide, 2, by decide, ?_,
    by omega⟩⟩
  · exact Relation.ReflTransGen.single (Or.inl ⟨by decide, by decide, by decide⟩)
  · intro h
    have key : ∀ a, (exGraph 3 [(0, 2)]).Connected 1 a → a = 1 := by
      intro a ha
      induction ha with
      | refl => rfl
      | tail _ e ih =>
        subst ih
        exfalso
        simp [Graph.Edge, exGraph] at e
    exact absurd (key 2 h) (by decide)

open Classical in
/-- **C16, what does hold.** The number of components reported is right (one per vertex without a
connected predecessor in the numbering), and the id given to `i` is the number of components that
start at or before `i`, minus one. Missing: `i` gets the id of its own component. -/
theorem C16_cc_partial (g : Graph) (s0 : DfsState) :
    ∃ cc, ddgComputeCc g s0 =
        some (cc, ((Finset.range g.n).filter (fun i => ∀ j < i, ¬ g.Connected j i)).card) ∧
      ∀ i < g.n, cc i =
        (((Finset.range (i + 1)).filter (fun i => ∀ j < i, ¬ g.Connected j i)).card : Int) - 1 := by
  obtain ⟨cc, e, h⟩ := cc_spec g s0
  have hl : ∀ k, leaders g k =
      ((Finset.range k).filter (fun i => ∀ j < i, ¬ g.Connected j i)).card := by
    intro k; unfold leaders Graph.Leader; congr
  refine ⟨cc, by rw [← hl]; exact e, fun i hi => ?_⟩
  rw [← hl, ← h i hi]
  omega

/-- When the vertices of every component are numbered consecutively, the ids do identify the
components. -/
theorem C16_consecutive_partial (g : Graph) (s0 : DfsState)
    (hc : ∀ i j k, i ≤ j → j ≤ k → k < g.n → g.Connected i k → g.Connected i j) :
    ∃ cc k, ddgComputeCc g s0 = some (cc, k) ∧
      ∀ i j, i < g.n → j < g.n → (cc i = cc j ↔ g.Connected i j) := by
  obtain ⟨cc, e, h⟩ := cc_spec g s0
  refine ⟨cc, _, e, ?_⟩
  have mono : ∀ a b, a ≤ b → leaders g a ≤ leaders g b := leaders_mono g
  -- ids agree exactly when no component starts in between
  have le_case : ∀ i j, i ≤ j → j < g.n → (cc i = cc j ↔ g.Connected i j) := by
    intro i j hij hj
    have hi := h i (by omega)
    have hj' := h j hj
    constructor
    · intro he
      have hl : leaders g (i + 1) = leaders g (j + 1) := by omega
      -- every vertex in (i, j] is connected to its predecessor chain
      have step : ∀ m, i ≤ m → m ≤ j → g.Connected i m := by
        intro m him hmj
        induction m using Nat.strong_induction_on with
        | _ m ih =>
          by_cases hm : i = m
          · subst hm; exact Relation.ReflTransGen.refl
          · have h1 : leaders g (m + 1) = leaders g m := by
              have a := mono (i + 1) m (by omega)
              have b := mono (m + 1) (j + 1) (by omega)
              have c := mono m (m + 1) (by omega)
              omega
            rw [leaders_succ] at h1
            have h2 : ¬ g.Leader m := by
              intro hL
              rw [if_pos hL] at h1
              omega
            unfold Graph.Leader at h2
            push Not at h2
            obtain ⟨l, hl1, hl2⟩ := h2
            by_cases hli : i ≤ l
            · exact (ih l hl1 hli (by omega)).trans hl2
            · have h3 := hc l i m (by omega) (by omega) (by omega) hl2
              exact (connected_symm h3).trans hl2
      exact step j hij (le_refl _)
    · intro hconn
      have key : ∀ m, i ≤ m → m ≤ j → leaders g (m + 1) = leaders g (i + 1) := by
        intro m him hmj
        induction m, him using Nat.le_induction with
        | base => rfl
        | succ m him ih =>
          rw [leaders_succ, ih (by omega), if_neg, Nat.add_zero]
          intro hL
          exact hL i (by omega) (hc i (m + 1) j (by omega) hmj hj hconn)
      have := key j hij (le_refl _)
      omega
  intro i j hi hj
  by_cases hij : i ≤ j
  · exact le_case i j hij hj
  · rw [eq_comm, le_case j i (by omega) hi]
    exact ⟨connected_symm, connected_symm⟩

example : (ddgComputeCc (exGraph 4 [(0, 1), (3, 2)]) exState).map (fun r => ((List.range 4).map r.1, r.2)) =
    some ([0, 0, 1, 1], 2) := by decide +kernel

/-- **C17 does not hold.** On 0 → 3 → 2 → 1 the entry (0, 1) stays zero: the loop over intermediate
vertices is innermost. -/
theorem C17_violated : ∃ (g : Graph) (i j : Nat), i < g.n ∧ j < g.n ∧ g.Path i j ∧
    (transitiveClosure g).adj i j = 0 := by
  refine ⟨exGraph 4 [(0, 3), (3, 2), (2, 1)], 0, 1, by decide, by decide, ?_, by decide +kernel⟩
  have e1 : (exGraph 4 [(0, 3), (3, 2), (2, 1)]).Edge 0 3 := ⟨by decide, by decide, by decide⟩
  have e2 : (exGraph 4 [(0, 3), (3, 2), (2, 1)]).Edge 3 2 := ⟨by decide, by decide, by decide⟩
  have e3 : (exGraph 4 [(0, 3), (3, 2), (2, 1)]).Edge 2 1 := ⟨by decide, by decide, by decide⟩
  exact ((Relation.TransGen.single e1).tail e2).tail e3

/-- **C17, what does hold.** Every non-zero entry is a path, and paths of one and two edges are found.
Missing: longer paths may be missed. -/
theorem C17_closure_partial (g : Graph) (i j : Nat) (hi : i < g.n) (hj : j < g.n) :
    ((transitiveClosure g).adj i j ≠ 0 → g.Path i j) ∧
    (g.Edge i j ∨ (∃ k, g.Edge i k ∧ g.Edge k j) → (transitiveClosure g).adj i j ≠ 0) := by
  refine ⟨tc_sound g i j hi hj, ?_⟩
  rintro (h | ⟨k, h1, h2⟩)
  · exact tc_edge g h.2.2
  · exact tc_two g h1 h2

/-- **C17, transitive input.** On a graph whose edges are already transitive the result is exactly the
path relation. -/
theorem C17_transitive_partial (g : Graph) (ht : ∀ i j k, g.Edge i j → g.Edge j k → g.Edge i k)
    (i j : Nat) (hi : i < g.n) (hj : j < g.n) : (transitiveClosure g).adj i j ≠ 0 ↔ g.Path i j := by
  refine ⟨tc_sound g i j hi hj, fun h => tc_edge g ?_⟩
  have : g.Edge i j := by
    induction h with
    | single h => exact h
    | tail h e ih => exact ht _ _ _ (ih e.1) e
  exact this.2.2

example : (transitiveClosure (exGraph 3 [(0, 1), (1, 2)])).adj 0 2 = 1 := by decide +kernel

/-- **C47.** The weight of the edge (i, j) is the number of dependences from `i` to `j` that are neither
read-after-read nor satisfied - after creation and after every update, whatever the weights were. -/
theorem C47_weight (p : Prog) (g : Graph) (i j : Nat) :
    (ddgCreate p).adj i j =
        p.deps.countP (fun d => d.src == i && d.dest == j && !d.rar && !d.satisfied) ∧
      (ddgUpdate g p).adj i j =
        p.deps.countP (fun d => d.src == i && d.dest == j && !d.rar && !d.satisfied) ∧
      (ddgCreate p).n = p.stmts.length ∧ (ddgUpdate g p).n = g.n := by
  refine ⟨?_, ?_, rfl, rfl⟩
  · show countDeps _ _ _ _ = _
    rw [countDeps_spec, Nat.zero_add]
  · show countDeps _ _ _ _ = _
    rw [countDeps_spec, Nat.zero_add]

/-- **C47.** There is no edge iff nothing remains to be satisfied between the two statements. -/
theorem C47_absent (p : Prog) (g : Graph) (i j : Nat) :
    (ddgUpdate g p).adj i j = 0 ↔ ∀ d ∈ p.deps, d.src = i → d.dest = j → d.rar = false → d.satisfied = true := by
  rw [(C47_weight p g i j).2.1, List.countP_eq_zero]
  constructor
  · intro h d hd h1 h2 h3
    have := h d hd
    simpa [h1, h2, h3] using this
  · intro h d hd
    have := h d hd
    cases h3 : d.rar <;> simp
    intro h1 h2
    exact this h1 h2 h3

/-- Two unsatisfied dependences 0 → 1, one satisfied, one read-after-read. -/
example : (ddgCreate ⟨1, 0, [], [⟨0, 1, false, ⟨0, []⟩, ⟨0, []⟩, false, -1, [], []⟩,
    ⟨0, 1, false, ⟨0, []⟩, ⟨0, []⟩, false, -1, [], []⟩, ⟨0, 1, false, ⟨0, []⟩, ⟨0, []⟩, true, -1, [], []⟩,
    ⟨0, 1, true, ⟨0, []⟩, ⟨0, []⟩, false, -1, [], []⟩], []⟩).adj 0 1 = 2 := by decide +kernel

end Pluto
