import Verif.Lemmas.FcgBuild3
import Verif.Lemmas.DfpColour
import Verif.Props.Ddg

/-! C58: the fusion conflict graph (`buildFcg`). Loop `k` of statement `i` is vertex `fcgOffset p i + k`. `PermutableLoop`,
`Fusable`: Verif/Spec/FcgBuild.lean. -/

namespace Pluto

theorem vertex_has {p : Prog} {i k : Nat} (hk : k < (stmtBlock p i).count) : (stmtBlock p i).Has (fcgOffset p i + k) :=
  ⟨Nat.le_add_right _ _, Nat.add_lt_add_left hk _⟩

theorem vertex_inj {p : Prog} {i j k l : Nat} (hk : k < (stmtBlock p i).count) (hl : l < (stmtBlock p j).count)
    (h : fcgOffset p i + k = fcgOffset p j + l) : i = j ∧ k = l := by
  by_cases e : i = j
  · subst e; exact ⟨rfl, by omega⟩
  · have := stmtBlock_apart e (vertex_has hk)
    rw [h] at this
    exact absurd (vertex_has hl) this

theorem mem_upperPairs {n i j : Nat} : (i, j) ∈ upperPairs n ↔ i < j ∧ j < n := by
  unfold upperPairs
  simp only [List.mem_flatMap, List.mem_map, List.mem_range, List.mem_range'_1, Prod.mk.injEq]
  constructor
  · rintro ⟨a, ha, b, hb, rfl, rfl⟩; omega
  · rintro ⟨h1, h2⟩; exact ⟨i, by omega, j, by omega, rfl, rfl⟩

theorem mem_selfEdges {lp : Cst → Bool} {o : SearchOpts} {p : Prog} {colour : List Nat} {c i k : Nat} (hi : i < p.stmts.length)
    (hk : k < (stmtBlock p i).count) : fcgOffset p i + k ∈ selfEdges lp o p colour c ↔
      intraDeps o p i ≠ [] ∧ colourable colour c (fcgOffset p i + k) = true ∧ lp (selfSystem o p i k) = false := by
  unfold selfEdges
  simp only [List.mem_flatMap, List.mem_range]
  constructor
  · rintro ⟨i', hi', h⟩
    split_ifs at h with he
    · simp at h
    · simp only [List.mem_map, List.mem_filter, List.mem_range, Bool.and_eq_true, Bool.not_eq_true'] at h
      obtain ⟨k', ⟨hk', h1, h2⟩, e⟩ := h
      obtain ⟨rfl, rfl⟩ := vertex_inj hk' hk e
      exact ⟨he, h1, h2⟩
  · rintro ⟨h1, h2, h3⟩
    refine ⟨i, hi, ?_⟩
    rw [if_neg h1]
    simp only [List.mem_map, List.mem_filter, List.mem_range, Bool.and_eq_true, Bool.not_eq_true']
    exact ⟨k, ⟨hk, h2, h3⟩, rfl⟩

theorem mem_pairEdges {lp : Cst → Bool} {o : SearchOpts} {p : Prog} {colour : List Nat} {c i j i' j' k l : Nat} {self : List Nat}
    (hk : k < (stmtBlock p i).count) (hl : l < (stmtBlock p j).count) :
    (fcgOffset p i + k, fcgOffset p j + l) ∈ pairEdges lp o p colour c self i' j' ↔
      i' = i ∧ j' = j ∧ colourable colour c (fcgOffset p i + k) = true ∧
      (fcgOffset p i + k ∈ self ∨ (colourable colour c (fcgOffset p j + l) = true ∧ lp (pairSystem o p i j k l) = false)) := by
  unfold pairEdges
  simp only [List.mem_flatMap, List.mem_range]
  constructor
  · rintro ⟨k', hk', h⟩
    split_ifs at h with h1 h2
    · simp at h
    · simp only [List.mem_map, List.mem_range, Prod.mk.injEq] at h
      obtain ⟨l', hl', e1, e2⟩ := h
      obtain ⟨rfl, rfl⟩ := vertex_inj hk' hk e1
      obtain ⟨rfl, rfl⟩ := vertex_inj hl' hl e2
      exact ⟨rfl, rfl, by simpa using h1, Or.inl h2⟩
    · simp only [List.mem_map, List.mem_filter, List.mem_range, Bool.and_eq_true, Bool.not_eq_true', Prod.mk.injEq] at h
      obtain ⟨l', ⟨hl', h3, h4⟩, e1, e2⟩ := h
      obtain ⟨rfl, rfl⟩ := vertex_inj hk' hk e1
      obtain ⟨rfl, rfl⟩ := vertex_inj hl' hl e2
      exact ⟨rfl, rfl, by simpa using h1, Or.inr ⟨h3, h4⟩⟩
  · rintro ⟨rfl, rfl, h1, h2⟩
    refine ⟨k, hk, ?_⟩
    rw [if_neg (by simp [h1])]
    split_ifs with h3
    · simp only [List.mem_map, List.mem_range]
      exact ⟨l, hl, rfl⟩
    · rcases h2 with h2 | ⟨h2, h4⟩
      · exact absurd h2 h3
      · simp only [List.mem_map, List.mem_filter, List.mem_range, Bool.and_eq_true, Bool.not_eq_true']
        exact ⟨l, ⟨hl, h2, h4⟩, rfl⟩

theorem mem_intraEdges {p : Prog} {i j i' k l : Nat} (hk : k < (stmtBlock p i).count) (hl : l < (stmtBlock p j).count) :
    (fcgOffset p i + k, fcgOffset p j + l) ∈ intraEdges p i' ↔ i' = i ∧ j = i ∧ k ≠ l := by
  unfold intraEdges allPairs
  simp only [List.mem_map, List.mem_filter, List.mem_flatMap, List.mem_range, Prod.mk.injEq, bne_iff_ne]
  constructor
  · rintro ⟨⟨a, b⟩, ⟨⟨a', ha, b', hb, e⟩, hne⟩, e1, e2⟩
    obtain ⟨rfl, rfl⟩ := e
    obtain ⟨rfl, rfl⟩ := vertex_inj ha hk e1
    obtain ⟨rfl, rfl⟩ := vertex_inj hb hl e2
    exact ⟨rfl, rfl, hne⟩
  · rintro ⟨rfl, rfl, hne⟩
    exact ⟨(k, l), ⟨⟨k, hk, l, hl, rfl⟩, hne⟩, rfl, rfl⟩

theorem mem_distributeEdges {a : Auto} {i j k l : Nat} (hk : k < (stmtBlock a.p i).count) (hl : l < (stmtBlock a.p j).count) :
    (fcgOffset a.p i + k, fcgOffset a.p j + l) ∈ distributeEdges a ↔
      i < j ∧ j < a.p.stmts.length ∧ (transitiveClosure (ddgCreate a.p)).isAdjacent i j = false ∧ sccsFused a i j = true := by
  unfold distributeEdges
  simp only [List.mem_flatMap]
  constructor
  · rintro ⟨⟨i', j'⟩, hij, h⟩
    split_ifs at h with h1 h2
    · simp at h
    · simp at h
    · simp only [List.mem_flatMap, List.mem_map, List.mem_range, Prod.mk.injEq] at h
      obtain ⟨k', hk', l', hl', e1, e2⟩ := h
      obtain ⟨rfl, rfl⟩ := vertex_inj hk' hk e1
      obtain ⟨rfl, rfl⟩ := vertex_inj hl' hl e2
      obtain ⟨g1, g2⟩ := mem_upperPairs.mp hij
      exact ⟨g1, g2, by simpa using h1, by simpa using h2⟩
  · rintro ⟨h1, h2, h3, h4⟩
    refine ⟨(i, j), mem_upperPairs.mpr ⟨h1, h2⟩, ?_⟩
    rw [if_neg (by simp [h3]), if_neg (by simp [h4])]
    simp only [List.mem_flatMap, List.mem_map, List.mem_range]
    exact ⟨k, hk, l, hl, rfl⟩

theorem sccsFused_iff {a : Auto} {i j : Nat} : sccsFused a i j = true ↔ Unsplit a i j := by
  unfold sccsFused Unsplit
  simp only [List.all_eq_true, List.mem_range, Bool.or_eq_true, beq_iff_eq]
  refine forall₂_congr fun l _ => ?_
  rw [or_iff_not_imp_left]
  rfl

theorem ddg_edge {p : Prog} {i j : Nat} : (ddgCreate p).Edge i j ↔ i < p.stmts.length ∧ j < p.stmts.length ∧ LiveEdge p i j := by
  unfold Graph.Edge LiveEdge
  rw [(C47_weight p (ddgCreate p) i j).1]
  refine and_congr_right fun _ => and_congr_right fun _ => ?_
  rw [← Nat.pos_iff_ne_zero, List.countP_pos_iff]
  refine exists_congr fun d => and_congr_right fun _ => ?_
  cases d.rar <;> cases d.satisfied <;> simp

/-- All edges of the graph. -/
theorem buildFcg_adj {lp : Cst → Bool} {o : SearchOpts} {a : Auto} {colour : List Nat} {c i j k l : Nat} (hi : i < a.p.stmts.length)
    (hj : j < a.p.stmts.length) (hk : k < (stmtBlock a.p i).count) (hl : l < (stmtBlock a.p j).count) :
    (buildFcg lp o a colour c).adj (fcgOffset a.p i + k) (fcgOffset a.p j + l) = 1 ↔
      (i = j ∧ k = l ∧ fcgOffset a.p i + k ∈ selfEdges lp o a.p colour c) ∨ (i = j ∧ k ≠ l) ∨
      (i < j ∧ a.g.isAdjacent i j = true ∧ colourable colour c (fcgOffset a.p i + k) = true ∧
        (fcgOffset a.p i + k ∈ selfEdges lp o a.p colour c ∨
          (colourable colour c (fcgOffset a.p j + l) = true ∧ lp (pairSystem o a.p i j k l) = false))) ∨
      (i < j ∧ c = 1 ∧ (transitiveClosure (ddgCreate a.p)).isAdjacent i j = false ∧ sccsFused a i j = true) := by
  unfold buildFcg
  simp only
  have hm : (fcgOffset a.p i + k, fcgOffset a.p j + l) ∈ fcgEdges lp o a colour c ↔
      (i = j ∧ k = l ∧ fcgOffset a.p i + k ∈ selfEdges lp o a.p colour c) ∨ (i = j ∧ k ≠ l) ∨
      (i < j ∧ a.g.isAdjacent i j = true ∧ colourable colour c (fcgOffset a.p i + k) = true ∧
        (fcgOffset a.p i + k ∈ selfEdges lp o a.p colour c ∨
          (colourable colour c (fcgOffset a.p j + l) = true ∧ lp (pairSystem o a.p i j k l) = false))) ∨
      (i < j ∧ c = 1 ∧ (transitiveClosure (ddgCreate a.p)).isAdjacent i j = false ∧ sccsFused a i j = true) := by
    unfold fcgEdges
    simp only [List.mem_append]
    constructor
    · rintro (((h | h) | h) | h)
      · simp only [List.mem_map, Prod.mk.injEq] at h
        obtain ⟨v, hv, rfl, e⟩ := h
        obtain ⟨rfl, rfl⟩ := vertex_inj hk hl e
        exact Or.inl ⟨rfl, rfl, hv⟩
      · simp only [List.mem_flatMap] at h
        obtain ⟨⟨i', j'⟩, hij, h⟩ := h
        split_ifs at h with h1
        · obtain ⟨rfl, rfl, h2, h3⟩ := (mem_pairEdges hk hl).mp h
          exact Or.inr (Or.inr (Or.inl ⟨(mem_upperPairs.mp hij).1, h1, h2, h3⟩))
        · simp at h
      · simp only [List.mem_flatMap] at h
        obtain ⟨i', _, h⟩ := h
        obtain ⟨rfl, rfl, h'⟩ := (mem_intraEdges hk hl).mp h
        exact Or.inr (Or.inl ⟨rfl, h'⟩)
      · split_ifs at h with h1
        · obtain ⟨g1, _, g2, g3⟩ := (mem_distributeEdges hk hl).mp h
          exact Or.inr (Or.inr (Or.inr ⟨g1, h1, g2, g3⟩))
        · simp at h
    · rintro (⟨rfl, rfl, h⟩ | ⟨rfl, h⟩ | ⟨h1, h2, h3, h4⟩ | ⟨h1, h2, h3, h4⟩)
      · exact Or.inl (Or.inl (Or.inl (List.mem_map.mpr ⟨_, h, rfl⟩)))
      · exact Or.inl (Or.inr (List.mem_flatMap.mpr ⟨i, List.mem_range.mpr hi, (mem_intraEdges hk hl).mpr ⟨rfl, rfl, h⟩⟩))
      · refine Or.inl (Or.inl (Or.inr (List.mem_flatMap.mpr ⟨(i, j), mem_upperPairs.mpr ⟨h1, hj⟩, ?_⟩)))
        rw [if_pos h2]
        exact (mem_pairEdges hk hl).mpr ⟨rfl, rfl, h3, h4⟩
      · refine Or.inr ?_
        rw [if_pos h2]
        exact (mem_distributeEdges hk hl).mpr ⟨h1, hj, h3, h4⟩
  rw [← hm]
  split_ifs with h <;> simp [h]

section
variable (lp : Cst → Bool) (hlp : LpOracle lp) (o : SearchOpts) (a : Auto) (hp : a.p.Padded) (hd : ∀ d ∈ a.p.deps, DepOK a.p d)
  (hne : NonemptyDeps a.p) (colour : List Nat) (c : Nat)

/-- C58. The graph has a vertex per loop and entries 0 or 1, so what C55, C56 and C57 say about graphs of that kind holds for it. -/
theorem C58_oracle : FcgOracle (buildFcg lp o) := by
  intro a colour c
  refine ⟨rfl, fun i j => ?_⟩
  unfold buildFcg
  simp only
  split_ifs <;> simp

include hlp hp hd hne

/-- C58. A loop that can still be given colour `c`, of a statement with dependences of its own, gets a self edge iff
it cannot be a level of the schedule. -/
theorem C58_self (i : Nat) (hi : i < a.p.stmts.length) (k : Nat) (hk : k < (stmtBlock a.p i).count)
    (hc : colourOf colour (fcgOffset a.p i + k) = 0 ∨ colourOf colour (fcgOffset a.p i + k) = c)
    (hs : ∃ d ∈ a.p.deps, SelfDep o i d) :
    (buildFcg lp o a colour c).adj (fcgOffset a.p i + k) (fcgOffset a.p i + k) = 1 ↔ ¬ PermutableLoop o a.p i k := by
  rw [buildFcg_adj hi hi hk hk, mem_selfEdges hi hk, ← lp_self (o := o) hd hlp hp hne hk]
  have h1 : intraDeps o a.p i ≠ [] := by
    obtain ⟨d, h1, h2⟩ := hs
    exact List.ne_nil_of_mem (mem_intraDeps.mpr ⟨h1, h2⟩)
  have h2 : colourable colour c (fcgOffset a.p i + k) = true := by
    unfold colourable
    rcases hc with h | h <;> simp [h]
  simp [h1, h2]

/-- C58. Two loops of different, directly dependent statements that can both still be given colour `c` are joined by an edge
iff they cannot be made one level by scaling and shifting. (`hg`: the dependence graph has only
edges for unsatisfied dependences.) -/
theorem C58_conflict (hg : ∀ i j, a.g.adj i j ≠ 0 → LiveEdge a.p i j) (i j : Nat) (hij : i < j) (hj : j < a.p.stmts.length)
    (hadj : a.g.adj i j ≠ 0 ∨ a.g.adj j i ≠ 0)
    (k l : Nat) (hk : k < (stmtBlock a.p i).count) (hl : l < (stmtBlock a.p j).count)
    (hck : colourOf colour (fcgOffset a.p i + k) = 0 ∨ colourOf colour (fcgOffset a.p i + k) = c)
    (hcl : colourOf colour (fcgOffset a.p j + l) = 0 ∨ colourOf colour (fcgOffset a.p j + l) = c) :
    (buildFcg lp o a colour c).adj (fcgOffset a.p i + k) (fcgOffset a.p j + l) = 1 ↔ ¬ Fusable o a.p i j k l := by
  have hi : i < a.p.stmts.length := by omega
  have hcol : ∀ v, colourOf colour v = 0 ∨ colourOf colour v = c → colourable colour c v = true := by
    intro v hv
    unfold colourable
    rcases hv with h | h <;> simp [h]
  have hadj' : a.g.isAdjacent i j = true := by simpa [Graph.isAdjacent] using hadj
  have htc : (transitiveClosure (ddgCreate a.p)).isAdjacent i j = true := by
    have hedge : ∀ x y, x < a.p.stmts.length → y < a.p.stmts.length → LiveEdge a.p x y → (transitiveClosure (ddgCreate a.p)).adj x y ≠ 0 :=
      fun x y hx hy h => (C17_closure_partial (ddgCreate a.p) x y hx hy).2 (Or.inl (ddg_edge.mpr ⟨hx, hy, h⟩))
    rw [Graph.isAdjacent, decide_eq_true_eq]
    rcases hadj with h | h
    · exact Or.inl (hedge i j hi hj (hg _ _ h))
    · exact Or.inr (hedge j i hj hi (hg _ _ h))
  have hself : fcgOffset a.p i + k ∈ selfEdges lp o a.p colour c → ¬ Fusable o a.p i j k l := by
    intro hs hf
    obtain ⟨_, _, h3⟩ := (mem_selfEdges hi hk).mp hs
    have : PermutableLoop o a.p i k := by
      obtain ⟨v, e1, _, h1, _, h2, u, w, g1, g2, g3, g4⟩ := hf
      exact ⟨v, e1, h1, fun d hdm hc => h2 d hdm (Or.inr (Or.inl hc)), u, w, g1, g2, g3, fun hb d hdm hc => g4 hb d hdm (Or.inr (Or.inl hc))⟩
    rw [← lp_self (o := o) hd hlp hp hne hk, h3] at this
    cases this
  have hpair := lp_pair (o := o) hd hlp hp hne hij hk hl
  rw [buildFcg_adj hi hj hk hl]
  constructor
  · rintro (⟨h, _⟩ | ⟨h, _⟩ | ⟨_, _, _, h | ⟨_, h⟩⟩ | ⟨_, _, h, _⟩)
    · omega
    · omega
    · exact hself h
    · rw [← hpair, h]; simp
    · rw [htc] at h; cases h
  · intro h
    rw [← hpair] at h
    exact Or.inr (Or.inr (Or.inl ⟨hij, hadj', hcol _ hck, Or.inr ⟨hcol _ hcl, by simpa using h⟩⟩))

omit hlp hp hd hne in
/-- C58. There is an edge between any two different loops of a statement. -/
theorem C58_same (i : Nat) (hi : i < a.p.stmts.length) (k l : Nat) (hk : k < (stmtBlock a.p i).count) (hl : l < (stmtBlock a.p i).count)
    (hkl : k ≠ l) : (buildFcg lp o a colour c).adj (fcgOffset a.p i + k) (fcgOffset a.p i + l) = 1 :=
  (buildFcg_adj hi hi hk hl).mpr (Or.inr (Or.inl ⟨rfl, hkl⟩))

omit hlp hp hd hne in
/-- C58. Loops of statements without a direct dependence are joined only in the graph for the first colour, if no scalar level
separates their components and there is no chain of one or two unsatisfied dependences between the statements (in either
direction). -/
theorem C58_unrelated (i j : Nat) (hij : i < j) (hj : j < a.p.stmts.length) (hadj : a.g.adj i j = 0 ∧ a.g.adj j i = 0)
    (k l : Nat) (hk : k < (stmtBlock a.p i).count) (hl : l < (stmtBlock a.p j).count)
    (h : (buildFcg lp o a colour c).adj (fcgOffset a.p i + k) (fcgOffset a.p j + l) = 1) :
    c = 1 ∧ Unsplit a i j ∧ ∀ x y, x = i ∧ y = j ∨ x = j ∧ y = i →
      ¬ LiveEdge a.p x y ∧ ¬ ∃ z < a.p.stmts.length, LiveEdge a.p x z ∧ LiveEdge a.p z y := by
  have hi : i < a.p.stmts.length := by omega
  rcases (buildFcg_adj hi hj hk hl).mp h with ⟨h, _⟩ | ⟨h, _⟩ | ⟨_, h, _⟩ | ⟨_, h1, h2, h3⟩
  · omega
  · omega
  · simp [Graph.isAdjacent, hadj] at h
  · refine ⟨h1, sccsFused_iff.mp h3, ?_⟩
    have hn : ∀ x y, x = i ∧ y = j ∨ x = j ∧ y = i → (transitiveClosure (ddgCreate a.p)).adj x y = 0 := by
      simp only [Graph.isAdjacent, decide_eq_false_iff_not, not_or, not_not] at h2
      rintro x y (⟨rfl, rfl⟩ | ⟨rfl, rfl⟩)
      · exact h2.1
      · exact h2.2
    intro x y hxy
    have hx : x < a.p.stmts.length := by rcases hxy with ⟨rfl, rfl⟩ | ⟨rfl, rfl⟩ <;> assumption
    have hy : y < a.p.stmts.length := by rcases hxy with ⟨rfl, rfl⟩ | ⟨rfl, rfl⟩ <;> assumption
    refine ⟨fun e => ?_, ?_⟩
    · exact (C17_closure_partial (ddgCreate a.p) x y hx hy).2 (Or.inl (ddg_edge.mpr ⟨hx, hy, e⟩)) (hn x y hxy)
    · rintro ⟨z, hz, e1, e2⟩
      exact (C17_closure_partial (ddgCreate a.p) x y hx hy).2 (Or.inr ⟨z, ddg_edge.mpr ⟨hx, hz, e1⟩, ddg_edge.mpr ⟨hz, hy, e2⟩⟩) (hn x y hxy)

omit hlp hp hd hne in
/-- C58. Conversely, in the graph for the first colour all loops of two statements are joined if no scalar level separates
their components and no chain of unsatisfied dependences leads from one to the other. -/
theorem C58_distribute (i j : Nat) (hij : i < j) (hj : j < a.p.stmts.length) (k l : Nat) (hk : k < (stmtBlock a.p i).count)
    (hl : l < (stmtBlock a.p j).count) (hu : Unsplit a i j)
    (hno : ¬ Relation.TransGen (LiveEdge a.p) i j ∧ ¬ Relation.TransGen (LiveEdge a.p) j i) :
    (buildFcg lp o a colour 1).adj (fcgOffset a.p i + k) (fcgOffset a.p j + l) = 1 := by
  have hi : i < a.p.stmts.length := by omega
  have hpath : ∀ x y, (ddgCreate a.p).Path x y → Relation.TransGen (LiveEdge a.p) x y := fun x y h =>
    Relation.TransGen.mono (fun x y h => (ddg_edge.mp h).2.2) _ _ h
  refine (buildFcg_adj hi hj hk hl).mpr (Or.inr (Or.inr (Or.inr ⟨hij, rfl, ?_, sccsFused_iff.mpr hu⟩)))
  simp only [Graph.isAdjacent, decide_eq_false_iff_not, not_or, not_not]
  constructor
  · by_contra h
    exact hno.1 (hpath _ _ ((C17_closure_partial (ddgCreate a.p) i j hi hj).1 h))
  · by_contra h
    exact hno.2 (hpath _ _ ((C17_closure_partial (ddgCreate a.p) j i hj hi).1 h))

end

/-! ### The hypotheses can be met -/

/-- `0 ≤ i, j` for source and target. -/
def fcgBox : List Row := [⟨false, [1, 0, 0, 0, 0]⟩, ⟨false, [0, 1, 0, 0, 0]⟩, ⟨false, [0, 0, 1, 0, 0]⟩, ⟨false, [0, 0, 0, 1, 0]⟩]

def fcgDep0 : Dep :=
  let c : Cst := ⟨5, ⟨true, [-1, 0, 1, 0, -1]⟩ :: ⟨true, [0, -1, 0, 1, 1]⟩ :: fcgBox⟩
  ⟨0, 0, false, c, c, false, -1, [], []⟩

def fcgDep1 : Dep :=
  let c : Cst := ⟨5, ⟨true, [-1, 0, 0, 1, 0]⟩ :: ⟨true, [0, -1, 1, 0, 0]⟩ :: fcgBox⟩
  ⟨0, 1, false, c, c, false, -1, [], []⟩

def fcgStmt : Stmt := ⟨2, 2, ⟨3, [⟨false, [1, 0, 0]⟩, ⟨false, [0, 1, 0]⟩]⟩, [true, true], [], []⟩

/-- `S0(i,j)` depends on `S0(i-1,j+1)` and `S1(j,i)` on `S0(i,j)`; `S2` is independent. -/
def exFcgProg : Prog := ⟨2, 0, [fcgStmt, fcgStmt, fcgStmt], [fcgDep0, fcgDep1], []⟩

def exFcg : Auto :=
  ⟨exFcgProg, ⟨3, fun i j => if i = 0 ∧ j = 0 ∨ i = 0 ∧ j = 1 then 1 else 0⟩, ⟨fun _ => 0, fun _ => 0, fun _ => 0, 0⟩, fun i => i, 3⟩

def exFcgOpts : SearchOpts := ⟨true, true, false, true, -1⟩

/-- The general hypotheses hold. -/
theorem exFcg_ok : (∃ lp, LpOracle lp) ∧ exFcg.p.Padded ∧ (∀ d ∈ exFcg.p.deps, DepOK exFcg.p d) ∧ NonemptyDeps exFcg.p ∧
    (∀ i j, exFcg.g.adj i j ≠ 0 → LiveEdge exFcg.p i j) := by
  refine ⟨⟨fun c => @decide (∃ x : List ℚ, x.length + 1 = c.ncols ∧ (∀ v ∈ x, 0 ≤ v) ∧ c.Sat x) (Classical.propDecidable _),
    fun c _ => by simp⟩, ?_, ?_, ?_, ?_⟩
  · intro st hst
    simp only [exFcg, exFcgProg, List.mem_cons, List.not_mem_nil, or_false, or_self] at hst
    subst hst
    decide
  · intro d hd
    simp only [exFcg, exFcgProg, List.mem_cons, List.not_mem_nil, or_false] at hd
    rcases hd with rfl | rfl <;> exact ⟨by decide, by decide, by decide, by decide, by decide, by decide⟩
  · intro d hd
    simp only [exFcg, exFcgProg, List.mem_cons, List.not_mem_nil, or_false] at hd
    rcases hd with rfl | rfl
    · have h : DepInst (R := ℚ) fcgDep0.dpoly 2 2 0 [0, 1] [1, 0] [] :=
        ⟨rfl, rfl, rfl, by simp [Cst.Sat, Row.Sat, fcgDep0, fcgBox, aff, dot]⟩
      exact ⟨⟨_, _, _, h⟩, ⟨_, _, _, h⟩⟩
    · have h : DepInst (R := ℚ) fcgDep1.dpoly 2 2 0 [0, 1] [1, 0] [] :=
        ⟨rfl, rfl, rfl, by simp [Cst.Sat, Row.Sat, fcgDep1, fcgBox, aff, dot]⟩
      exact ⟨⟨_, _, _, h⟩, ⟨_, _, _, h⟩⟩
  · intro i j h
    simp only [exFcg] at h
    split_ifs at h with h1
    · rcases h1 with ⟨rfl, rfl⟩ | ⟨rfl, rfl⟩
      · exact ⟨fcgDep0, by simp [exFcg, exFcgProg], rfl, rfl, rfl, rfl⟩
      · exact ⟨fcgDep1, by simp [exFcg, exFcgProg], rfl, rfl, rfl, rfl⟩
    · exact absurd rfl h

/-- Hypotheses of `C58_self`: `S0` depends on itself; loop 0 can be a level and loop 1 cannot. -/
example : (∃ d ∈ exFcg.p.deps, SelfDep exFcgOpts 0 d) ∧ (stmtBlock exFcg.p 0).count = 2 ∧
    PermutableLoop exFcgOpts exFcg.p 0 0 ∧ ¬ PermutableLoop exFcgOpts exFcg.p 0 1 := by
  have hcap : ∀ b, ¬ Cap exFcgOpts exFcg.p b := by
    rintro b (⟨h, _⟩ | ⟨_, h, _⟩)
    · exact h rfl
    · exact absurd h (by decide)
  refine ⟨⟨fcgDep0, by simp [exFcg, exFcgProg], rfl, rfl, rfl, nofun⟩, rfl, ?_, ?_⟩
  · refine ⟨⟨fun _ => 0, fun _ => 1, fun _ => 0⟩, rfl, ⟨le_refl _, le_refl _, fun b hb => absurd hb (hcap b)⟩, ?_, [], 0, rfl, by simp,
      le_refl _, fun h => by cases h⟩
    rintro d hd ⟨_, h1, h2, _⟩ _ s t q hi
    simp only [exFcg, exFcgProg, List.mem_cons, List.not_mem_nil, or_false] at hd
    rcases hd with rfl | rfl
    · have h3 := hi.sat ⟨true, [-1, 0, 1, 0, -1]⟩ (by simp [fcgDep0])
      match s, t, q, hi.hs, hi.ht, hi.hp with
      | [i, j], [i', j'], [], _, _, _ =>
        simp [Row.Sat, aff, dot] at h3
        simp only [LoopLevel.time, List.getD_cons_zero, one_mul, add_zero]
        linarith
    · cases h2
  · rintro ⟨v, hv, ⟨h1, _⟩, h2, _⟩
    have h := h2 fcgDep0 (by simp [exFcg, exFcgProg]) ⟨rfl, rfl, rfl, nofun⟩ rfl [0, 1] [1, 0] []
      ⟨rfl, rfl, rfl, by simp [Cst.Sat, Row.Sat, fcgDep0, fcgBox, aff, dot]⟩
    simp only [LoopLevel.time, fcgDep0, hv, List.getD_cons_succ, List.getD_cons_zero] at h
    linarith

/-- Hypotheses of `C58_conflict`: `S1` depends on `S0`; loop 0 of `S0` can be fused with loop 1 of `S1` and not with loop 0. -/
example : exFcg.g.adj 0 1 ≠ 0 ∧ Fusable exFcgOpts exFcg.p 0 1 0 1 ∧ ¬ Fusable exFcgOpts exFcg.p 0 1 0 0 := by
  have hcap : ∀ b, ¬ Cap exFcgOpts exFcg.p b := by
    rintro b (⟨h, _⟩ | ⟨_, h, _⟩)
    · exact h rfl
    · exact absurd h (by decide)
  refine ⟨by decide, ?_, ?_⟩
  · refine ⟨⟨fun i => i, fun _ => 1, fun _ => 0⟩, rfl, rfl, ⟨le_refl _, le_refl _, fun b hb => absurd hb (hcap b)⟩,
      ⟨le_refl _, le_refl _, fun b hb => absurd hb (hcap b)⟩, ?_, [], 0, rfl, by simp, le_refl _, fun h => by cases h⟩
    rintro d hd _ _ s t q hi
    simp only [exFcg, exFcgProg, List.mem_cons, List.not_mem_nil, or_false] at hd
    rcases hd with rfl | rfl
    · have h3 := hi.sat ⟨true, [-1, 0, 1, 0, -1]⟩ (by simp [fcgDep0])
      match s, t, q, hi.hs, hi.ht, hi.hp with
      | [i, j], [i', j'], [], _, _, _ =>
        simp [Row.Sat, aff, dot] at h3
        simp only [LoopLevel.time, fcgDep0, List.getD_cons_zero, one_mul, add_zero]
        linarith
    · have h3 := hi.sat ⟨true, [-1, 0, 0, 1, 0]⟩ (by simp [fcgDep1])
      match s, t, q, hi.hs, hi.ht, hi.hp with
      | [i, j], [i', j'], [], _, _, _ =>
        simp [Row.Sat, aff, dot] at h3
        simp only [LoopLevel.time, fcgDep1, List.getD_cons_zero, List.getD_cons_succ, one_mul, add_zero]
        linarith
  · rintro ⟨v, hv0, hv1, ⟨h1, hs0, _⟩, ⟨_, hs1, _⟩, h2, _⟩
    have h := h2 fcgDep1 (by simp [exFcg, exFcgProg]) (Or.inl ⟨rfl, Or.inl ⟨rfl, rfl⟩⟩) rfl [v.shift 1 + 1, 0] [0, v.shift 1 + 1] []
      ⟨rfl, rfl, rfl, by simp [Cst.Sat, Row.Sat, fcgDep1, fcgBox, aff, dot]; linarith⟩
    simp only [LoopLevel.time, fcgDep1, hv0, hv1, List.getD_cons_zero] at h
    nlinarith

/-- Hypotheses of `C58_unrelated` and `C58_distribute`: `S2` is unrelated to `S1`, and no level separates them. -/
example : exFcg.g.adj 1 2 = 0 ∧ exFcg.g.adj 2 1 = 0 ∧ Unsplit exFcg 1 2 ∧
    ¬ Relation.TransGen (LiveEdge exFcg.p) 1 2 ∧ ¬ Relation.TransGen (LiveEdge exFcg.p) 2 1 := by
  have h0 : ∀ x y, LiveEdge exFcg.p x y → x = 0 := by
    rintro x y ⟨d, hd, _, _, rfl, rfl⟩
    simp only [exFcg, exFcgProg, List.mem_cons, List.not_mem_nil, or_false] at hd
    rcases hd with rfl | rfl <;> rfl
  have h1 : ∀ x y, Relation.TransGen (LiveEdge exFcg.p) x y → x = 0 := by
    intro x y h
    obtain ⟨z, hz, _⟩ := Relation.TransGen.head'_iff.mp h
    exact h0 _ _ hz
  refine ⟨by decide, by decide, ?_, fun h => absurd (h1 _ _ h) (by decide), fun h => absurd (h1 _ _ h) (by decide)⟩
  intro l hl
  exact absurd hl (by simp [exFcg, exFcgProg])

end Pluto
