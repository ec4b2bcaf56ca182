import Verif.Props.Precut

/-! C72: runs with `.precut` files, and what is not checked. -/

namespace Pluto

/-- `S0: (i, 0)`, `S1: (i, 1)`. -/
def exCutFile : List CutStmt :=
  [⟨[⟨[1], [0], 0⟩, ⟨[0], [0], 0⟩], 7, [1]⟩, ⟨[⟨[1], [0], 0⟩, ⟨[0], [0], 1⟩], 7, [1]⟩]

theorem exCutFile_fits : CutFits exCut 1 2 exCutFile := by
  refine ⟨rfl, by decide, ?_⟩
  intro i s hs
  match i, hs with
  | 0, hs =>
    simp only [exCutFile, List.getElem?_cons_zero, Option.some.injEq] at hs
    subst hs; decide
  | 1, hs =>
    simp only [exCutFile, List.getElem?_cons_succ, List.getElem?_cons_zero, Option.some.injEq] at hs
    subst hs; decide
  | i + 2, hs => simp [exCutFile] at hs

/-- The hypotheses of `C72_precut_partial` are met: a complete transformation that keeps the order. -/
example : EmptyOracle cutLibs.isEmpty ∧ FeasibleOracle cutLibs.solve ∧ exCut.InputOK ∧ CutFits exCut 1 2 exCutFile ∧
    (∀ s ∈ exCutFile, ∀ r ∈ s.rows, ∀ v ∈ r.params, v = 0) ∧
    (∀ d ∈ exCut.deps, d.rar = false → ∀ s t q, exCut.Inst d s t q →
      ¬ LexBefore (fileTime exCutFile d.dest t q) (fileTime exCutFile d.src s q)) ∧
    Outcome.view (runFiles ⟨none, some (precutText exCut 1 exCutFile)⟩ exCut) = some (true, [[[1, 0, 0], [0, 0, 0]], [[1, 0, 0], [0, 0, 1]]]) := by
  refine ⟨cutTab_ok, listSolver_ok _, ⟨by decide, by decide⟩, exCutFile_fits, by decide, ?_, by decide +kernel⟩
  intro d hd _ s t q hi
  simp only [exCut, List.mem_cons, List.not_mem_nil, or_false] at hd
  subst hd
  obtain ⟨hs, ht, hq, hsat⟩ := hi
  match s, hs, t, ht, q, hq with
  | [a], _, [b], _, [n], _ =>
    have he := hsat ⟨true, [-1, 1, 0, 0]⟩ (by simp [exCutRows])
    simp [Row.Sat, aff, dot] at he
    have hab : b = a := by omega
    subst hab
    rintro ⟨l, x, y, h1, h2, h3, h4⟩
    match l, h1, h2 with
    | 0, h1, h2 =>
      simp [fileTime, exCutFile, CutRow.value, aff, dot] at h1 h2
      omega
    | 1, h1, h2 =>
      simp [fileTime, exCutFile, CutRow.value, aff, dot] at h1 h2
      omega
    | l + 2, h1, h2 => simp [fileTime, exCutFile] at h1

/-- A row that reverses the only loop of `a[i] = a[i-1]`: no other loop is needed, the dependence cannot be satisfied, failure is reported
(so the hypothesis of `C72_failure_restores` is met). -/
example : Outcome.view (runFiles ⟨none, some (precutText { exCut with stmts := [exLoopN], deps := [exSelf 0] } 0 [⟨[⟨[-1], [0], 0⟩], 7, []⟩])⟩
    { exCut with stmts := [exLoopN], deps := [exSelf 0] }) = some (false, [[]]) ∧
    CutFits { exCut with stmts := [exLoopN], deps := [exSelf 0] } 0 1 [⟨[⟨[-1], [0], 0⟩], 7, []⟩] := by
  refine ⟨by decide +kernel, rfl, by decide, ?_⟩
  intro i s hs
  match i, hs with
  | 0, hs =>
    simp only [List.getElem?_cons_zero, Option.some.injEq] at hs
    subst hs; decide
  | i + 1, hs => simp at hs

def exSwap : List (List Nat × Int) := [([1], 0), ([0], 0)]

theorem exSwap_partition : Partition 2 exSwap := by
  have hin : ∀ {i c : Nat}, InComp exSwap i c → (i = 1 ∧ c = 0) ∨ (i = 0 ∧ c = 1) := by
    rintro i c ⟨x, h1, h2⟩
    match c, h1 with
    | 0, h1 =>
      simp only [exSwap, List.getElem?_cons_zero, Option.some.injEq] at h1
      subst h1
      simp at h2
      exact .inl ⟨h2, rfl⟩
    | 1, h1 =>
      simp only [exSwap, List.getElem?_cons_succ, List.getElem?_cons_zero, Option.some.injEq] at h1
      subst h1
      simp at h2
      exact .inr ⟨h2, rfl⟩
    | c + 2, h1 => simp [exSwap] at h1
  refine ⟨?_, ?_, ?_⟩
  · intro i c h
    rcases hin h with ⟨rfl, _⟩ | ⟨rfl, _⟩ <;> omega
  · intro i hi
    have : i = 0 ∨ i = 1 := by omega
    rcases this with rfl | rfl
    · exact ⟨1, ([0], 0), rfl, by simp⟩
    · exact ⟨0, ([1], 0), rfl, by simp⟩
  · intro i c c' h h'
    rcases hin h with ⟨h1, h2⟩ | ⟨h1, h2⟩ <;> rcases hin h' with ⟨h3, h4⟩ | ⟨h3, h4⟩ <;> omega

theorem exCut_pair : exCut.Inst ⟨0, 1, false, ⟨4, exCutRows⟩, ⟨4, exCutRows⟩, false, -1, [], []⟩ ([1] : List Int) [1] [2] :=
  ⟨rfl, rfl, rfl, by decide⟩

/-- A schedule of `exCut` whose first rows are the constants 1 for `S0` and 0 for `S1` is not legal. -/
theorem exCut_illegal (p : Prog) (r0 r1 : List (List Int)) (h : p.stmts.map (·.trans) = [[0, 0, 1] :: r0, [0, 0, 0] :: r1]) :
    ¬ LexBefore (p.timestamp 0 [1] [2]) (p.timestamp 1 [1] [2]) := by
  have e0 : p.stmts[0]?.map (·.trans) = some ([0, 0, 1] :: r0) := by rw [← List.getElem?_map, h]; rfl
  have e1 : p.stmts[1]?.map (·.trans) = some ([0, 0, 0] :: r1) := by rw [← List.getElem?_map, h]; rfl
  unfold Prog.timestamp
  rw [e0, e1]
  rintro ⟨l, x, y, h1, h2, h3, h4⟩
  cases l with
  | zero =>
    simp [aff, dot] at h1 h2
    omega
  | succ l =>
    have := h4 0 (by omega)
    simp [aff, dot] at this

/-- C72 violated: the order of the components of a `.fst` file is not checked against the dependences. With the components in the
wrong order the rows found later satisfy the dependence once more, and success is reported for a schedule that runs `S1` before `S0`. -/
theorem C72_violated_order :
    ¬ ∀ (o : AutoOpts) (L : Libs) (fuel : Nat) (d0 : DfsState) (p0 p : Prog) (comps : List (List Nat × Int)),
      EmptyOracle L.isEmpty → FeasibleOracle L.solve → p0.InputOK → Partition p0.stmts.length comps → comps.length ≤ p0.stmts.length →
      autoTransformFiles o L noDiamond ⟨some (fstText comps), none⟩ fuel d0 p0 = some (.success p) →
      ∀ d ∈ p0.deps, d.rar = false → ∀ s t q, p0.Inst d s t q → LexBefore (p.timestamp d.src s q) (p.timestamp d.dest t q) := by
  intro h
  have hv : Outcome.view (runFiles ⟨some (fstText exSwap), none⟩ exCut) =
      some (true, [[[0, 0, 1], [1, 0, 0], [0, 0, 0]], [[0, 0, 0], [1, 0, 0], [0, 0, 1]]]) := by decide +kernel
  obtain ⟨p, h1, h2⟩ := view_success hv
  exact exCut_illegal p _ _ h2 (h _ _ _ _ exCut p exSwap cutTab_ok (listSolver_ok _) ⟨by decide, by decide⟩ exSwap_partition
    (by decide) h1 _ (by simp [exCut]) rfl _ _ _ exCut_pair)

/-- C72 violated: a `.fst` file that does not list every statement is accepted; the statements left out are put in component 0. Here
component 0 is empty, component 1 is `S0`, and `S1` is not listed: `S1` runs before `S0`. -/
theorem C72_violated_unlisted :
    ¬ ∀ (o : AutoOpts) (L : Libs) (fuel : Nat) (d0 : DfsState) (p0 p : Prog) (comps : List (List Nat × Int)),
      EmptyOracle L.isEmpty → FeasibleOracle L.solve → p0.InputOK →
      (∀ d ∈ p0.deps, ∀ c c', InComp comps d.src c → InComp comps d.dest c' → c ≤ c') →
      autoTransformFiles o L noDiamond ⟨some (fstText comps), none⟩ fuel d0 p0 = some (.success p) →
      ∀ d ∈ p0.deps, d.rar = false → ∀ s t q, p0.Inst d s t q → LexBefore (p.timestamp d.src s q) (p.timestamp d.dest t q) := by
  intro h
  have hv : Outcome.view (runFiles ⟨some (fstText [([], 0), ([0], 0)]), none⟩ exCut) =
      some (true, [[[0, 0, 1], [1, 0, 0], [0, 0, 0]], [[0, 0, 0], [1, 0, 0], [0, 0, 1]]]) := by decide +kernel
  obtain ⟨p, h1, h2⟩ := view_success hv
  refine exCut_illegal p _ _ h2 (h _ _ _ _ _ p [([], 0), ([0], 0)] cutTab_ok (listSolver_ok _) ⟨by decide, by decide⟩ ?_
    h1 _ (by simp [exCut]) rfl _ _ _ exCut_pair)
  intro d hd c c' _ hc'
  simp only [exCut, List.mem_cons, List.not_mem_nil, or_false] at hd
  subst hd
  obtain ⟨x, h3, h4⟩ := hc'
  match c', h3 with
  | 0, h3 =>
    simp only [List.getElem?_cons_zero, Option.some.injEq] at h3
    subst h3
    simp at h4
  | 1, h3 =>
    simp only [List.getElem?_cons_succ, List.getElem?_cons_zero, Option.some.injEq] at h3
    subst h3
    simp at h4
  | c + 2, h3 => simp at h3

/-- C72 violated: a `.precut` file cannot be used "to check if a particular transformation is a valid one": a partial transformation
that reverses a dependence is completed and success is reported. -/
theorem C72_violated_check :
    ¬ ∀ (o : AutoOpts) (L : Libs) (fuel : Nat) (d0 : DfsState) (p0 p : Prog) (depth m : Nat) (l : List CutStmt),
      EmptyOracle L.isEmpty → FeasibleOracle L.solve → p0.InputOK → CutFits p0 depth m l →
      autoTransformFiles o L noDiamond ⟨none, some (precutText p0 depth l)⟩ fuel d0 p0 = some (.success p) →
      ∀ d ∈ p0.deps, d.rar = false → ∀ s t q, p0.Inst d s t q → LexBefore (p.timestamp d.src s q) (p.timestamp d.dest t q) := by
  intro h
  have hv : Outcome.view (runFiles ⟨none, some (precutText exCut 0 [⟨[⟨[0], [0], 1⟩], 7, []⟩, ⟨[⟨[0], [0], 0⟩], 7, []⟩])⟩ exCut) =
      some (true, [[[0, 0, 1], [1, 0, 0], [0, 0, 0]], [[0, 0, 0], [1, 0, 0], [0, 0, 1]]]) := by decide +kernel
  obtain ⟨p, h1, h2⟩ := view_success hv
  refine exCut_illegal p _ _ h2 (h _ _ _ _ _ p 0 1 _ cutTab_ok (listSolver_ok _) ⟨by decide, by decide⟩ ⟨rfl, by decide, ?_⟩
    h1 _ (by simp [exCut]) rfl _ _ _ exCut_pair)
  intro i s hs
  match i, hs with
  | 0, hs =>
    simp only [List.getElem?_cons_zero, Option.some.injEq] at hs
    subst hs; decide
  | 1, hs =>
    simp only [List.getElem?_cons_succ, List.getElem?_cons_zero, Option.some.injEq] at hs
    subst hs; decide
  | i + 2, hs => simp at hs

theorem exFree_fits (n : Nat) (r : CutRow) (h1 : r.loops.length = 1) (h2 : r.params.length = 1) :
    CutFits (exFreeLoops n) 0 1 (List.replicate n ⟨[r], 7, []⟩) := by
  refine ⟨by simp [exFreeLoops], ?_, ?_⟩
  · intro s hs
    rw [List.eq_of_mem_replicate hs]
    exact ⟨rfl, rfl⟩
  · intro i s hs
    obtain ⟨hi, e⟩ := List.getElem?_eq_some_iff.mp hs
    rw [List.getElem_replicate] at e
    subst e
    simp only [List.length_replicate] at hi
    intro r' hr
    rw [List.mem_singleton] at hr
    subst hr
    have : (exFreeLoops n).dim i = 1 := by
      simp [Prog.dim, exFreeLoops, hi, exLoopN]
    rw [this]
    exact ⟨h1, h2⟩

/-- C72 violated: coefficients of parameters in a `.precut` file are read and thrown away. The row `i + N` becomes `i`. -/
theorem C72_violated_params :
    ¬ ∀ (o : AutoOpts) (L : Libs) (fuel : Nat) (d0 : DfsState) (p0 p : Prog) (depth m : Nat) (l : List CutStmt),
      EmptyOracle L.isEmpty → FeasibleOracle L.solve → p0.InputOK → p0.deps = [] → CutFits p0 depth m l →
      autoTransformFiles o L noDiamond ⟨none, some (precutText p0 depth l)⟩ fuel d0 p0 = some (.success p) →
      ∀ i < p0.stmts.length, ∀ x q : List Int, fileTime l i x q <+: p.timestamp i x q := by
  intro h
  have hv : Outcome.view (runFiles ⟨none, some (precutText (exFreeLoops 1) 0 [⟨[⟨[1], [1], 0⟩], 7, []⟩])⟩ (exFreeLoops 1)) =
      some (true, [[[1, 0, 0]]]) := by decide +kernel
  obtain ⟨p, h1, h2⟩ := view_success hv
  have := h _ _ _ _ _ p 0 1 _ cutTab_ok (listSolver_ok _) ⟨by decide, by decide⟩ rfl (exFree_fits 1 ⟨[1], [1], 0⟩ rfl rfl) h1 0 (by decide) [1] [2]
  have e0 : p.stmts[0]?.map (·.trans) = some [[1, 0, 0]] := by rw [← List.getElem?_map, h2]; rfl
  unfold Prog.timestamp at this
  rw [e0] at this
  simp [fileTime, CutRow.value, aff, dot] at this

/-- C72 violated: `get_loop_type` only looks for positive coefficients. The row `-i` of a `.precut` file is a loop, the transformation
returned has it, and both the statement and the program call it a scalar dimension. -/
theorem C72_violated_type :
    ¬ ∀ (o : AutoOpts) (L : Libs) (fuel : Nat) (d0 : DfsState) (p0 p : Prog) (depth m : Nat) (l : List CutStmt),
      EmptyOracle L.isEmpty → FeasibleOracle L.solve → p0.InputOK → CutFits p0 depth m l →
      autoTransformFiles o L noDiamond ⟨none, some (precutText p0 depth l)⟩ fuel d0 p0 = some (.success p) →
      ∀ (st : Stmt) (k : Nat) (r : List Int), st ∈ p.stmts → st.trans[k]? = some r → r.dropLast.any (· ≠ 0) = true →
        st.hypTypes[k]? = some .loop ∧ p.hProps[k]? = some .loop := by
  intro h
  have hv : (match runFiles ⟨none, some (precutText (exFreeLoops 1) 0 [⟨[⟨[-1], [0], 0⟩], 7, []⟩])⟩ (exFreeLoops 1) with
      | some (.success p) => some (p.stmts.map (fun st => (st.trans, st.hypTypes)), p.hProps)
      | _ => none) = some ([([[-1, 0, 0]], [.scalar])], [.scalar]) := by decide +kernel
  generalize hr : runFiles ⟨none, some (precutText (exFreeLoops 1) 0 [⟨[⟨[-1], [0], 0⟩], 7, []⟩])⟩ (exFreeLoops 1) = r at hv
  match r, hv with
  | some (.success p), hv =>
    simp only [Option.some.injEq, Prod.mk.injEq] at hv
    obtain ⟨hv1, hv2⟩ := hv
    have hm : (([[-1, 0, 0]] : List (List Int)), [HypType.scalar]) ∈ p.stmts.map (fun st => (st.trans, st.hypTypes)) := by rw [hv1]; simp
    obtain ⟨st, hst, e⟩ := List.mem_map.mp hm
    simp only [Prod.mk.injEq] at e
    have := h _ _ _ _ _ p 0 1 _ cutTab_ok (listSolver_ok _) ⟨by decide, by decide⟩ (exFree_fits 1 ⟨[-1], [0], 0⟩ rfl rfl) hr st 0 [-1, 0, 0]
      hst (by rw [e.1]; rfl) (by decide)
    rw [hv2] at this
    cases this.2

/-- C72 violated: the number of rows of a `.precut` file is taken from the last statement. If another one has more, they stay in its
schedule, which is then longer than the number of hyperplanes; success is reported. -/
theorem C72_violated_rows :
    ¬ ∀ (o : AutoOpts) (L : Libs) (fuel : Nat) (d0 : DfsState) (p0 p : Prog) (depth : Nat) (l : List CutStmt),
      EmptyOracle L.isEmpty → FeasibleOracle L.solve → p0.InputOK →
      autoTransformFiles o L noDiamond ⟨none, some (precutText p0 depth l)⟩ fuel d0 p0 = some (.success p) →
      ∀ st ∈ p.stmts, st.trans.length = p.hProps.length := by
  intro h
  have hv : (match runFiles ⟨none, some (precutText (exFreeLoops 3) 0 [⟨[⟨[1], [0], 0⟩], 7, []⟩, ⟨[⟨[1], [0], 0⟩, ⟨[1], [0], 5⟩], 7, []⟩,
        ⟨[⟨[1], [0], 0⟩], 7, []⟩])⟩ (exFreeLoops 3) with
      | some (.success p) => some (p.stmts.map (fun st => st.trans.length), p.hProps.length)
      | _ => none) = some ([1, 2, 1], 1) := by decide +kernel
  generalize hr : runFiles ⟨none, some (precutText (exFreeLoops 3) 0 [⟨[⟨[1], [0], 0⟩], 7, []⟩, ⟨[⟨[1], [0], 0⟩, ⟨[1], [0], 5⟩], 7, []⟩,
        ⟨[⟨[1], [0], 0⟩], 7, []⟩])⟩ (exFreeLoops 3) = r at hv
  match r, hv with
  | some (.success p), hv =>
    simp only [Option.some.injEq, Prod.mk.injEq] at hv
    obtain ⟨hv1, hv2⟩ := hv
    have := h _ _ _ _ _ p 0 _ cutTab_ok (listSolver_ok _) ⟨by decide, by decide⟩ hr
    have h2 : (2 : Nat) ∈ p.stmts.map (fun st => st.trans.length) := by rw [hv1]; simp
    obtain ⟨st, hst, e⟩ := List.mem_map.mp h2
    have := this st hst
    omega

end Pluto
