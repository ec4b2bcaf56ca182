import Verif.Lemmas.FcgCluster4

/-! C76: the fusion conflict graph of `--clusterscc` and its parallelism preventing edges (`clBuildFcg`). Loop `j` of component
`s` is vertex `a.sccOffset s + j`. `LpSolver` (what is assumed about the solver), `SccPermutable`, `SccFusable`, `LoopLevel.Same`:
Verif/Spec/FcgCluster.lean; `LoopLevel`: Verif/Spec/FcgBuild.lean. -/

namespace Pluto

theorem cutId_rowConst {a : Auto} {s t : Nat} : clFused a s t = true ↔ SccUnsplit a s t := by
  unfold clFused SccUnsplit
  simp only [List.all_eq_true, List.mem_range, Bool.or_eq_true, beq_iff_eq]
  refine forall₂_congr fun l _ => ?_
  rw [or_iff_not_imp_left]
  rfl

theorem colourable_iff {colour : List Nat} {c v : Nat} : colourable colour c v = true ↔ colourOf colour v = 0 ∨ colourOf colour v = c := by
  unfold colourable
  simp

theorem connected_iff {a : Auto} {s t : Nat} : a.connected s t = true ↔ ∃ i i', InScc a s i ∧ InScc a t i' ∧ a.g.adj i i' ≠ 0 := by
  unfold Auto.connected InScc
  simp only [List.any_eq_true, List.mem_range, Bool.and_eq_true, decide_eq_true_eq, Nat.pos_iff_ne_zero]
  constructor
  · rintro ⟨i, hi, h1, i', hi', h2, h3⟩
    exact ⟨i, i', ⟨hi, h1⟩, ⟨hi', h2⟩, h3⟩
  · rintro ⟨i, i', ⟨hi, h1⟩, ⟨hi', h2⟩, h3⟩
    exact ⟨i, hi, h1, i', hi', h2, h3⟩

/-- All edges of the graph. -/
theorem clBuild_adj {lp : Cst → List Int → Option (List ℚ)} {o : SearchOpts} {co : ClOpts} {a : Auto} {colour : List Nat} {c : Nat}
    {hpar sc : Nat → Bool} {s t j k : Nat} (hs : s < a.num) (ht : t < a.num) (hj : j < a.width s) (hk : k < a.width t) :
    (clBuildFcg lp o co a colour c hpar sc).g.adj (a.sccOffset s + j) (a.sccOffset t + k) = 1 ↔
      (s = t ∧ j = k ∧ clSelf lp o a colour c s j = true) ∨ (s = t ∧ j ≠ k) ∨
      (s < t ∧ a.connected s t = true ∧ clPair lp o a colour c s t j k = true) ∨
      (s < t ∧ c = 1 ∧ Auto.connected { a with g := transitiveClosure (ddgCreate a.p) } s t = false ∧ clFused a s t = true) := by
  have hm : (a.sccOffset s + j, a.sccOffset t + k) ∈ clEdges lp o a colour c ↔
      (s = t ∧ j = k ∧ clSelf lp o a colour c s j = true) ∨ (s = t ∧ j ≠ k) ∨
      (s < t ∧ a.connected s t = true ∧ clPair lp o a colour c s t j k = true) ∨
      (s < t ∧ c = 1 ∧ Auto.connected { a with g := transitiveClosure (ddgCreate a.p) } s t = false ∧ clFused a s t = true) := by
    unfold clEdges clPairs clDistribute
    simp only [List.mem_append, List.mem_flatMap, List.mem_range, mem_clEntries hj hk, List.mem_filter]
    constructor
    · rintro (((⟨s', _, rfl, rfl, h⟩ | ⟨⟨s', t'⟩, ⟨h1, h2⟩, rfl, rfl, h⟩) | ⟨s', _, rfl, rfl, h⟩) | h)
      · simp only [Bool.and_eq_true, beq_iff_eq] at h
        exact Or.inl ⟨rfl, h⟩
      · exact Or.inr (Or.inr (Or.inl ⟨(mem_upperPairs.mp h1).1, h2, h⟩))
      · exact Or.inr (Or.inl ⟨rfl, by simpa using h⟩)
      · split_ifs at h with hc
        · rw [List.mem_flatMap] at h
          obtain ⟨⟨s', t'⟩, h1, h⟩ := h
          split_ifs at h with h2 h3
          · simp at h
          · simp at h
          · obtain ⟨rfl, rfl, _⟩ := (mem_clEntries hj hk).mp h
            exact Or.inr (Or.inr (Or.inr ⟨(mem_upperPairs.mp h1).1, hc, by simpa using h2, by simpa using h3⟩))
        · simp at h
    · rintro (⟨rfl, rfl, h⟩ | ⟨rfl, h⟩ | ⟨h1, h2, h⟩ | ⟨h1, h2, h3, h4⟩)
      · exact Or.inl (Or.inl (Or.inl ⟨s, hs, rfl, rfl, by simp [h]⟩))
      · exact Or.inl (Or.inr ⟨s, hs, rfl, rfl, by simpa using h⟩)
      · exact Or.inl (Or.inl (Or.inr ⟨(s, t), ⟨mem_upperPairs.mpr ⟨h1, ht⟩, h2⟩, rfl, rfl, h⟩))
      · refine Or.inr ?_
        rw [if_pos h2, List.mem_flatMap]
        refine ⟨(s, t), mem_upperPairs.mpr ⟨h1, ht⟩, ?_⟩
        rw [if_neg (by simp [h3]), if_neg (by simp [h4])]
        exact (mem_clEntries hj hk).mpr ⟨rfl, rfl, rfl⟩
  rw [← hm]
  unfold clBuildFcg
  simp only
  split_ifs with h <;> simp [h]

/-- The parallelism preventing entries between two components. -/
theorem mem_clInterPar {lp : Cst → List Int → Option (List ℚ)} {o : SearchOpts} {co : ClOpts} {a : Auto} {colour : List Nat} {c : Nat}
    {hpar sc : Nat → Bool} {s t j k : Nat} (hj : j < a.width s) (hk : k < a.width t) : ∀ (l : List (Nat × Nat)) (chk : Bool),
    ((s, t) ∈ l → (chk = true ∨ clCheck lp o co a colour c hpar sc s t = true) → clPairPar lp o a colour c s t j k = true →
      (a.sccOffset s + j, a.sccOffset t + k) ∈ clInterPar lp o co a colour c hpar sc chk l) ∧
    ((a.sccOffset s + j, a.sccOffset t + k) ∈ clInterPar lp o co a colour c hpar sc chk l → (s, t) ∈ l ∧
      clPairPar lp o a colour c s t j k = true) := by
  intro l
  induction l with
  | nil => intro chk; exact ⟨by simp, by simp [clInterPar]⟩
  | cons x l ih =>
    intro chk
    rw [clInterPar]
    obtain ⟨i1, i2⟩ := ih (chk || clCheck lp o co a colour c hpar sc x.1 x.2)
    constructor
    · intro hm hc hp
      rw [List.mem_append]
      rcases List.mem_cons.mp hm with rfl | hm
      · left
        rw [if_pos (by simpa using hc)]
        exact (mem_clEntries hj hk).mpr ⟨rfl, rfl, hp⟩
      · right
        refine i1 hm ?_ hp
        rcases hc with hc | hc
        · left; simp [hc]
        · exact Or.inr hc
    · intro hm
      rcases List.mem_append.mp hm with hm | hm
      · split_ifs at hm with hc
        · obtain ⟨h1, h2, h3⟩ := (mem_clEntries hj hk).mp hm
          rw [h1, h2] at h3
          exact ⟨by simp [← h1, ← h2], h3⟩
        · simp at hm
      · exact ⟨List.mem_cons_of_mem _ (i2 hm).1, (i2 hm).2⟩

section
variable (lp : Cst → List Int → Option (List ℚ)) (hlp : LpSolver lp) (o : SearchOpts) (co : ClOpts) (a : Auto) (hp : a.p.Padded)
  (hd : ∀ d ∈ a.p.deps, DepOK a.p d) (hne : NonemptyDeps a.p) (colour : List Nat) (c : Nat) (hpar sc : Nat → Bool)

/-- C76. The graph has a vertex per loop of a component, and different loops of a component are joined. So what C75 says about
graphs of this kind holds for it. -/
theorem C76_oracle : ClFcgOracle (clBuildFcg lp o co) := by
  intro a colour c hpar sc
  exact ⟨rfl, fun s hs j hj j' hj' hjj => (clBuild_adj hs hs hj hj').mpr (Or.inr (Or.inl ⟨rfl, hjj⟩))⟩

include hlp hp hd hne

theorem clSelf_iff {s j : Nat} (hj : j < a.width s) : clSelf lp o a colour c s j = true ↔
    (∃ d ∈ a.p.deps, DepWithin o (InScc a s) d) ∧ (colourOf colour (a.sccOffset s + j) = 0 ∨ colourOf colour (a.sccOffset s + j) = c) ∧
      ¬ SccPermutable o a s j := by
  unfold clSelf
  have h1 : (clDeps o a [s]).isEmpty = false ↔ ∃ d ∈ a.p.deps, DepWithin o (InScc a s) d := by
    rw [← not_iff_not, Bool.not_eq_false, List.isEmpty_iff, List.eq_nil_iff_forall_not_mem, not_exists]
    refine forall_congr' fun d => not_congr ?_
    rw [mem_clDeps (hd d)]
    simp [DepWithin]
  simp only [Bool.and_eq_true, Bool.not_eq_true', h1, colourable_iff, Option.isNone_iff_eq_none, (clSelfSol_spec hlp hp hd hne hj).1, and_assoc]

/-- C76. A loop that can still be given colour `c`, of a component with dependences among its statements, gets a self edge iff
it cannot be a level for them. -/
theorem C76_self (s : Nat) (hs : s < a.num) (j : Nat) (hj : j < a.width s)
    (hc : colourOf colour (a.sccOffset s + j) = 0 ∨ colourOf colour (a.sccOffset s + j) = c)
    (hdep : ∃ d ∈ a.p.deps, DepWithin o (InScc a s) d) :
    (clBuildFcg lp o co a colour c hpar sc).g.adj (a.sccOffset s + j) (a.sccOffset s + j) = 1 ↔ ¬ SccPermutable o a s j := by
  rw [clBuild_adj hs hs hj hj, clSelf_iff lp hlp o a hp hd hne colour c hj]
  constructor
  · rintro (⟨_, _, _, _, h⟩ | ⟨_, h⟩ | ⟨h, _⟩ | ⟨h, _⟩)
    · exact h
    · exact absurd rfl h
    · omega
    · omega
  · exact fun h => Or.inl ⟨rfl, rfl, hdep, hc, h⟩

omit hlp hp hd hne in
/-- A loop that can be fused is a level on its own, if no dependences restrict this. -/
theorem SccFusable.permutable {o : SearchOpts} {a : Auto} {s t j k : Nat} (h : SccFusable o a s t j k) :
    ((¬ ∃ d ∈ a.p.deps, DepWithin o (InScc a s) d) → SccPermutable o a s j) ∧
    ((¬ ∃ d ∈ a.p.deps, DepWithin o (InScc a t) d) → SccPermutable o a t k) := by
  obtain ⟨v, h1, h2, _⟩ := h
  have key : ∀ s j, (∀ i, InScc a s i → v.Takes o a.p i j) → (¬ ∃ d ∈ a.p.deps, DepWithin o (InScc a s) d) → SccPermutable o a s j := by
    intro s j h hn
    refine ⟨⟨v.loop, v.scale, fun _ => 0⟩, fun i hi => ⟨?_, rfl⟩, fun d hdm hw => absurd ⟨d, hdm, hw⟩ hn, List.replicate a.p.npar 0, 0, by simp,
      by simp, le_refl _, fun _ d hdm hw => absurd ⟨d, hdm, hw⟩ hn⟩
    obtain ⟨e1, e2, e3, e4, e5⟩ := h i hi
    exact ⟨e1, e2, e3, le_refl _, fun b hb => le_trans e4 (e5 b hb)⟩
  exact ⟨key s j h1, key t k h2⟩

/-- C76 (missing: `hclash`, see `C76_violated_padding`). Loops `j` and `k` of two dependent components that can both still be
given colour `c` are joined by an edge iff one of them cannot be a level for its own component without shifts, or the two
cannot be made one level by scaling and shifting. (`hg`: the dependence graph has only edges for unsatisfied dependences.) -/
theorem C76_conflict_partial (hg : ∀ i j, a.g.adj i j ≠ 0 → LiveEdge a.p i j) (s t : Nat) (hst : s < t) (ht : t < a.num)
    (hadj : ∃ i i', InScc a s i ∧ InScc a t i' ∧ a.g.adj i i' ≠ 0)
    (j k : Nat) (hj : j < a.width s) (hk : k < a.width t)
    (hcj : colourOf colour (a.sccOffset s + j) = 0 ∨ colourOf colour (a.sccOffset s + j) = c)
    (hck : colourOf colour (a.sccOffset t + k) = 0 ∨ colourOf colour (a.sccOffset t + k) = c)
    (hclash : ∀ d ∈ a.p.deps, DepWithin o (fun i => InScc a s i ∨ InScc a t i) d →
      d.src ≠ a.p.npar + 1 + d.dest * (a.p.nvar + 1) ∨
      (∀ i, InScc a s i → depthOf a.p i ≠ j) ∧ (∀ i, InScc a t i → depthOf a.p i ≠ k)) :
    (clBuildFcg lp o co a colour c hpar sc).g.adj (a.sccOffset s + j) (a.sccOffset t + k) = 1 ↔
      ¬ (SccPermutable o a s j ∧ SccPermutable o a t k ∧ SccFusable o a s t j k) := by
  have hs : s < a.num := by omega
  have hcon := connected_iff.mpr hadj
  have htc : Auto.connected { a with g := transitiveClosure (ddgCreate a.p) } s t = true := by
    obtain ⟨i, i', h1, h2, h3⟩ := hadj
    exact connected_iff.mpr ⟨i, i', h1, h2,
      (C17_closure_partial (ddgCreate a.p) i i' h1.1 h2.1).2 (Or.inl (ddg_edge.mpr ⟨h1.1, h2.1, hg _ _ h3⟩))⟩
  have hpair : clPair lp o a colour c s t j k = true ↔
      clSelf lp o a colour c s j = true ∨ clSelf lp o a colour c t k = true ∨ ¬ SccFusable o a s t j k := by
    unfold clPair
    simp only [Bool.and_eq_true, Bool.or_eq_true, colourable_iff.mpr hcj, colourable_iff.mpr hck, true_and, Option.isNone_iff_eq_none,
      (clPairSol_spec hlp hp hd hne (by omega : s ≠ t) hj hk hclash).1]
  rw [clBuild_adj hs ht hj hk, hpair, clSelf_iff lp hlp o a hp hd hne colour c hj, clSelf_iff lp hlp o a hp hd hne colour c hk, htc]
  constructor
  · rintro (⟨h, _⟩ | ⟨h, _⟩ | ⟨_, _, ⟨_, _, h⟩ | ⟨_, _, h⟩ | h⟩ | ⟨_, _, h, _⟩)
    · omega
    · omega
    · tauto
    · tauto
    · tauto
    · cases h
  · intro h
    refine Or.inr (Or.inr (Or.inl ⟨hst, hcon, ?_⟩))
    by_contra hn
    simp only [not_or, not_not] at hn
    obtain ⟨h1, h2, h3⟩ := hn
    have h4 := h3.permutable
    refine h ⟨?_, ?_, h3⟩
    · by_contra h5
      by_cases h6 : ∃ d ∈ a.p.deps, DepWithin o (InScc a s) d
      · exact h1 ⟨h6, hcj, h5⟩
      · exact h5 (h4.1 h6)
    · by_contra h5
      by_cases h6 : ∃ d ∈ a.p.deps, DepWithin o (InScc a t) d
      · exact h2 ⟨h6, hck, h5⟩
      · exact h5 (h4.2 h6)

omit hlp hp hd hne in
/-- C76. There is an edge between any two different loops of a component. -/
theorem C76_same (s : Nat) (hs : s < a.num) (j k : Nat) (hj : j < a.width s) (hk : k < a.width s) (hjk : j ≠ k) :
    (clBuildFcg lp o co a colour c hpar sc).g.adj (a.sccOffset s + j) (a.sccOffset s + k) = 1 :=
  (clBuild_adj hs hs hj hk).mpr (Or.inr (Or.inl ⟨rfl, hjk⟩))

omit hlp hp hd hne in
/-- C76. Loops of components without a direct dependence (from the first to the second) are joined only in the graph for the first
colour, if no scalar level separates the components and no chain of one or two unsatisfied dependences leads from a statement
of the first to a statement of the second. -/
theorem C76_unrelated (s t : Nat) (hst : s < t) (ht : t < a.num) (hadj : ∀ i i', InScc a s i → InScc a t i' → a.g.adj i i' = 0)
    (j k : Nat) (hj : j < a.width s) (hk : k < a.width t)
    (h : (clBuildFcg lp o co a colour c hpar sc).g.adj (a.sccOffset s + j) (a.sccOffset t + k) = 1) :
    c = 1 ∧ SccUnsplit a s t ∧ ∀ i i', InScc a s i → InScc a t i' →
      ¬ LiveEdge a.p i i' ∧ ¬ ∃ z < a.p.stmts.length, LiveEdge a.p i z ∧ LiveEdge a.p z i' := by
  have hs : s < a.num := by omega
  rcases (clBuild_adj hs ht hj hk).mp h with ⟨h, _⟩ | ⟨h, _⟩ | ⟨_, h, _⟩ | ⟨_, h1, h2, h3⟩
  · omega
  · omega
  · obtain ⟨i, i', h1, h2, h3⟩ := connected_iff.mp h
    exact absurd (hadj i i' h1 h2) h3
  · refine ⟨h1, cutId_rowConst.mp h3, fun i i' hi hi' => ?_⟩
    have hz : ¬ (transitiveClosure (ddgCreate a.p)).adj i i' ≠ 0 := by
      intro hz
      have : Auto.connected { a with g := transitiveClosure (ddgCreate a.p) } s t = true := connected_iff.mpr ⟨i, i', hi, hi', hz⟩
      rw [h2] at this
      cases this
    refine ⟨fun e => hz ((C17_closure_partial (ddgCreate a.p) i i' hi.1 hi'.1).2 (Or.inl (ddg_edge.mpr ⟨hi.1, hi'.1, e⟩))), ?_⟩
    rintro ⟨z, hzl, e1, e2⟩
    exact hz ((C17_closure_partial (ddgCreate a.p) i i' hi.1 hi'.1).2
      (Or.inr ⟨z, ddg_edge.mpr ⟨hi.1, hzl, e1⟩, ddg_edge.mpr ⟨hzl, hi'.1, e2⟩⟩))

omit hlp hp hd hne in
/-- C76. Conversely, in the graph for the first colour all loops of two components are joined if no scalar level separates them
and no chain of unsatisfied dependences leads from the first to the second. -/
theorem C76_distribute (s t : Nat) (hst : s < t) (ht : t < a.num) (j k : Nat) (hj : j < a.width s) (hk : k < a.width t)
    (hu : SccUnsplit a s t) (hno : ∀ i i', InScc a s i → InScc a t i' → ¬ Relation.TransGen (LiveEdge a.p) i i') :
    (clBuildFcg lp o co a colour 1 hpar sc).g.adj (a.sccOffset s + j) (a.sccOffset t + k) = 1 := by
  have hs : s < a.num := by omega
  refine (clBuild_adj hs ht hj hk).mpr (Or.inr (Or.inr (Or.inr ⟨hst, rfl, ?_, cutId_rowConst.mpr hu⟩)))
  rw [Bool.eq_false_iff]
  intro h
  obtain ⟨i, i', h1, h2, h3⟩ := connected_iff.mp h
  exact hno i i' h1 h2 (Relation.TransGen.mono (fun x y h => (ddg_edge.mp h).2.2) _ _ ((C17_closure_partial (ddgCreate a.p) i i' h1.1 h2.1).1 h3))

/-- C76 (missing: `--nodepbound`, see `C76_violated_nodepbound`). A component that is called parallel has no dependences among
its statements, or one of its loops can be a level that runs source and target of all these dependences at the same time. -/
theorem C76_parallel_partial (hb : o.nodepbound = false) (s : Nat) (h : (clBuildFcg lp o co a colour c hpar sc).isPar s = true) :
    (¬ ∃ d ∈ a.p.deps, DepWithin o (InScc a s) d) ∨
    ∃ j < a.width s, ∃ v : LoopLevel, (∀ i, InScc a s i → v.Takes o a.p i j ∧ v.shift i = 0) ∧
      ∀ d ∈ a.p.deps, DepWithin o (InScc a s) d → v.Weak a.p d ∧ v.Same a.p d := by
  have h' : clIsPar lp o co a colour c s = true := h
  unfold clIsPar at h'
  simp only [Bool.or_eq_true, Bool.and_eq_true, List.any_eq_true, List.mem_range, List.isEmpty_iff] at h'
  rcases h' with h' | ⟨_, j, hj, _, h'⟩
  · left
    rintro ⟨d, hdm, hw⟩
    have : d ∈ clDeps o a [s] := (mem_clDeps (hd d)).mpr ⟨hdm, by simpa [DepWithin] using hw⟩
    rw [h'] at this
    simp at this
  · right
    refine ⟨j, hj, ?_⟩
    cases e : clSelfSol lp o a s j with
    | none => rw [e] at h'; cases h'
    | some x =>
      rw [e] at h'
      obtain ⟨g1, g2, v, g3, g4, g5⟩ := (clSelfSol_spec hlp hp hd hne hj).2 x e
      refine ⟨v, g3, fun d hdm hw => ⟨g4 d hdm hw, ?_⟩⟩
      intro hr y z q hi hi'
      have h1 := g4 d hdm hw hr y z q hi
      have h2 := g5 hb d hdm hw y z q hi'
      rw [lpSolParallel_zero g1 g2 h' q hi'.hp] at h2
      linarith

/-- C76 (missing: `--nodepbound`, as above). With typed fusion, a loop that can be given colour `c` and that has neither kind of
self edge, of a component with dependences among its statements, can be a level that runs source and target of all these
dependences at the same time. -/
theorem C76_par_self_partial (hb : o.nodepbound = false) (hty : co.typed = true) (s : Nat) (hs : s < a.num) (j : Nat) (hj : j < a.width s)
    (hc : colourOf colour (a.sccOffset s + j) = 0 ∨ colourOf colour (a.sccOffset s + j) = c)
    (hdep : ∃ d ∈ a.p.deps, DepWithin o (InScc a s) d)
    (h1 : (clBuildFcg lp o co a colour c hpar sc).g.adj (a.sccOffset s + j) (a.sccOffset s + j) = 0)
    (h2 : (clBuildFcg lp o co a colour c hpar sc).par (a.sccOffset s + j) (a.sccOffset s + j) = 0) :
    ∃ v : LoopLevel, (∀ i, InScc a s i → v.Takes o a.p i j ∧ v.shift i = 0) ∧
      ∀ d ∈ a.p.deps, DepWithin o (InScc a s) d → v.Weak a.p d ∧ v.Same a.p d := by
  have hper : SccPermutable o a s j := by
    by_contra hn
    have := (C76_self lp hlp o co a hp hd hne colour c hpar sc s hs j hj hc hdep).mpr hn
    omega
  have hsp : clSelfPar lp o co a colour c s j = false := by
    rw [Bool.eq_false_iff]
    intro h
    unfold clBuildFcg clParEdges at h2
    simp only at h2
    rw [if_pos (List.mem_append_left _ (List.mem_flatMap.mpr ⟨s, List.mem_range.mpr hs, (mem_clEntries hj hj).mpr ⟨rfl, rfl, by simp [h]⟩⟩))] at h2
    cases h2
  unfold clSelfPar at hsp
  have hdn : (clDeps o a [s]).isEmpty = false := by
    obtain ⟨d, hdm, hw⟩ := hdep
    have : d ∈ clDeps o a [s] := (mem_clDeps (hd d)).mpr ⟨hdm, by simpa [DepWithin] using hw⟩
    rw [Bool.eq_false_iff]
    intro h
    rw [List.isEmpty_iff] at h
    rw [h] at this
    simp at this
  rw [hty, hdn, colourable_iff.mpr hc] at hsp
  cases e : clSelfSol lp o a s j with
  | none => exact absurd hper ((clSelfSol_spec hlp hp hd hne hj).1.mp e)
  | some x =>
    rw [e] at hsp
    simp only [Bool.not_false, Bool.and_true, Bool.true_and, Bool.not_eq_false'] at hsp
    obtain ⟨g1, g2, v, g3, g4, g5⟩ := (clSelfSol_spec hlp hp hd hne hj).2 x e
    refine ⟨v, g3, fun d hdm hw => ⟨g4 d hdm hw, ?_⟩⟩
    intro hr y z q hi hi'
    have h1 := g4 d hdm hw hr y z q hi
    have h2 := g5 hb d hdm hw y z q hi'
    rw [lpSolParallel_zero g1 g2 hsp q hi'.hp] at h2
    linarith

/-- C76 (missing: `hclash` and `--nodepbound`, as above). With typed fusion, let `s` and `t` be dependent components one of which
is called parallel; not both are stencils, and not both have got a parallel level already under `--hybridcut`. If loops `j` and
`k` that can be given colour `c` are joined by neither kind of edge, they can be made one level that runs source and target
of all the dependences at the same time. -/
theorem C76_par_partial (hb : o.nodepbound = false) (hty : co.typed = true) (s t : Nat) (hst : s < t) (ht : t < a.num)
    (hadj : ∃ i i', InScc a s i ∧ InScc a t i' ∧ a.g.adj i i' ≠ 0)
    (hip : (clBuildFcg lp o co a colour c hpar sc).isPar s = true ∨ (clBuildFcg lp o co a colour c hpar sc).isPar t = true)
    (hsc : ¬ (sc s = true ∧ sc t = true)) (hh : ¬ (co.hybrid = true ∧ hpar s = true ∧ hpar t = true))
    (j k : Nat) (hj : j < a.width s) (hk : k < a.width t)
    (hcj : colourOf colour (a.sccOffset s + j) = 0 ∨ colourOf colour (a.sccOffset s + j) = c)
    (hck : colourOf colour (a.sccOffset t + k) = 0 ∨ colourOf colour (a.sccOffset t + k) = c)
    (hclash : ∀ d ∈ a.p.deps, DepWithin o (fun i => InScc a s i ∨ InScc a t i) d →
      d.src ≠ a.p.npar + 1 + d.dest * (a.p.nvar + 1) ∨
      (∀ i, InScc a s i → depthOf a.p i ≠ j) ∧ (∀ i, InScc a t i → depthOf a.p i ≠ k))
    (h1 : (clBuildFcg lp o co a colour c hpar sc).g.adj (a.sccOffset s + j) (a.sccOffset t + k) = 0)
    (h2 : (clBuildFcg lp o co a colour c hpar sc).par (a.sccOffset s + j) (a.sccOffset t + k) = 0) :
    ∃ v : LoopLevel, (∀ i, InScc a s i → v.Takes o a.p i j) ∧ (∀ i, InScc a t i → v.Takes o a.p i k) ∧
      ∀ d ∈ a.p.deps, DepWithin o (fun i => InScc a s i ∨ InScc a t i) d → v.Weak a.p d ∧ v.Same a.p d := by
  have hs : s < a.num := by omega
  have hcon := connected_iff.mpr hadj
  have hchk : clCheck lp o co a colour c hpar sc s t = true := by
    have hip' : clIsPar lp o co a colour c s = true ∨ clIsPar lp o co a colour c t = true := hip
    unfold clCheck
    rw [hty]
    simp only [Bool.and_eq_true, Bool.or_eq_true, hip', Bool.not_eq_true', Bool.and_true, and_true]
    constructor
    · rw [Bool.eq_false_iff]
      simpa [and_assoc] using hh
    · rw [Bool.eq_false_iff]
      simpa using hsc
  have hpair : clPair lp o a colour c s t j k = false := by
    rw [Bool.eq_false_iff]
    intro h
    have := (clBuild_adj (lp := lp) (o := o) (co := co) (colour := colour) (c := c) (hpar := hpar) (sc := sc) hs ht hj hk).mpr
      (Or.inr (Or.inr (Or.inl ⟨hst, hcon, h⟩)))
    omega
  have hpar' : clPairPar lp o a colour c s t j k = false := by
    rw [Bool.eq_false_iff]
    intro h
    have hm := (mem_clInterPar (lp := lp) (o := o) (co := co) (colour := colour) (c := c) (hpar := hpar) (sc := sc) hj hk (clPairs a) false).1
      (List.mem_filter.mpr ⟨mem_upperPairs.mpr ⟨hst, ht⟩, hcon⟩) (Or.inr hchk) h
    unfold clBuildFcg clParEdges at h2
    simp only at h2
    rw [if_pos (List.mem_append_right _ hm)] at h2
    cases h2
  unfold clPair at hpair
  unfold clPairPar at hpar'
  rw [colourable_iff.mpr hcj, colourable_iff.mpr hck] at hpair hpar'
  simp only [Bool.true_and, Bool.or_eq_false_iff] at hpair
  rw [hpair.1, hpair.2.1] at hpar'
  cases e : clPairSol lp o a s t j k with
  | none => rw [e] at hpair; simp at hpair
  | some x =>
    rw [e] at hpar'
    simp only [Bool.not_false, Bool.and_true, Bool.true_and, Bool.not_eq_false'] at hpar'
    obtain ⟨g1, g2, v, g3, g3', g4, g5⟩ := (clPairSol_spec hlp hp hd hne (by omega : s ≠ t) hj hk hclash).2 x e
    refine ⟨v, g3, g3', fun d hdm hw => ⟨g4 d hdm hw, ?_⟩⟩
    intro hr y z q hi hi'
    have h1 := g4 d hdm hw hr y z q hi
    have h2 := g5 hb d hdm hw y z q hi'
    rw [lpSolParallel_zero g1 g2 hpar' q hi'.hp] at h2
    linarith

end

end Pluto
