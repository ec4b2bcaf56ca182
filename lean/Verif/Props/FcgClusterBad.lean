import Verif.Lemmas.LpOpt
import Verif.Props.FcgCluster

/-! C76: cases that meet the hypotheses, and where the graph is not as it should be. -/

namespace Pluto

/-- There is a solver as assumed. -/
theorem lpSolver_exists : ∃ lp, LpSolver lp := by
  classical
  refine ⟨fun c _ => if h : ∃ x : List ℚ, x.length + 1 = c.ncols ∧ (∀ v ∈ x, 0 ≤ v) ∧ c.Sat x then some h.choose else none, fun c obj _ => ⟨?_, ?_⟩⟩
  · intro x hx
    dsimp only at hx
    split_ifs at hx with h
    cases hx
    exact h.choose_spec
  · intro hx h
    dsimp only at hx
    rw [dif_pos h] at hx
    cases hx

def seqStmt : Stmt := ⟨1, 1, ⟨2, [⟨false, [1, 0]⟩]⟩, [true], [], []⟩

/-- Instance `i + k` of statement `t` depends on instance `i` of statement `s`, for all `i ≥ 0`. -/
def seqDep (s t : Nat) (k : Int) : Dep :=
  let c : Cst := ⟨3, [⟨true, [-1, 1, -k]⟩, ⟨false, [1, 0, 0]⟩]⟩
  ⟨s, t, false, c, c, false, -1, [], []⟩

theorem seqDep_inst {s t : Nat} {k : Int} {x y q : List ℚ} (h : DepInst (seqDep s t k).dpoly 1 1 0 x y q) :
    ∃ i : ℚ, x = [i] ∧ y = [i + k] ∧ q = [] ∧ 0 ≤ i := by
  have h1 := h.sat ⟨true, [-1, 1, -k]⟩ (by simp [seqDep])
  have h2 := h.sat ⟨false, [1, 0, 0]⟩ (by simp [seqDep])
  match x, y, q, h.hs, h.ht, h.hp with
  | [i], [i'], [], _, _, _ =>
    simp [Row.Sat, aff, dot] at h1 h2
    exact ⟨i, rfl, by rw [show i' = i + k by linarith], rfl, h2⟩

theorem seqDep_has (s t : Nat) (k : Int) : DepInst (R := ℚ) (seqDep s t k).dpoly 1 1 0 [0] [(k : ℚ)] [] :=
  ⟨rfl, rfl, rfl, by simp [Cst.Sat, Row.Sat, seqDep, aff, dot]⟩

/-- Four loops over `i ≥ 0`: `S1(i)` depends on `S0(i)`, `S2(i+1)` on `S2(i)`, `S3(i+1)` on `S3(i)`, and `S3(i)` on `S2(i)`. Each
statement is a component. -/
def exChk : Auto :=
  ⟨⟨1, 0, [seqStmt, seqStmt, seqStmt, seqStmt], [seqDep 0 1 0, seqDep 2 2 1, seqDep 3 3 1, seqDep 2 3 0], []⟩,
   ⟨4, fun i j => if (i, j) ∈ [(0, 1), (2, 2), (3, 3), (2, 3)] then 1 else 0⟩, ⟨fun _ => 0, fun _ => 0, fun _ => 0, 0⟩, fun i => i, 4⟩

/-- `nodepbound`: is `--nodepbound` given? -/
def chkOpts (nodepbound : Bool) : SearchOpts := ⟨true, true, false, nodepbound, -1⟩

theorem chk_cap (b : Bool) (c : Int) : ¬ Cap (chkOpts b) exChk.p c := by
  rintro (⟨h, _⟩ | ⟨_, h, _⟩)
  · exact h rfl
  · exact absurd h (by decide)

theorem exChk_ok : exChk.p.Padded ∧ (∀ d ∈ exChk.p.deps, DepOK exChk.p d) ∧ NonemptyDeps exChk.p ∧
    ∀ i j, exChk.g.adj i j ≠ 0 → LiveEdge exChk.p i j := by
  refine ⟨?_, ?_, ?_, ?_⟩
  · intro st hst
    simp only [exChk, List.mem_cons, List.not_mem_nil, or_false, or_self] at hst
    subst hst
    decide
  · intro d hd
    simp only [exChk, List.mem_cons, List.not_mem_nil, or_false] at hd
    rcases hd with rfl | rfl | rfl | rfl <;> exact ⟨by decide, by decide, by decide, by decide, by decide, by decide⟩
  · intro d hd
    simp only [exChk, List.mem_cons, List.not_mem_nil, or_false] at hd
    rcases hd with rfl | rfl | rfl | rfl <;> exact ⟨⟨_, _, _, seqDep_has 0 0 _⟩, ⟨_, _, _, seqDep_has 0 0 _⟩⟩
  · intro i j h
    simp only [exChk] at h
    split_ifs at h with h1
    · simp only [List.mem_cons, List.not_mem_nil, or_false, Prod.mk.injEq] at h1
      rcases h1 with ⟨rfl, rfl⟩ | ⟨rfl, rfl⟩ | ⟨rfl, rfl⟩ | ⟨rfl, rfl⟩
      · exact ⟨seqDep 0 1 0, by simp [exChk], rfl, rfl, rfl, rfl⟩
      · exact ⟨seqDep 2 2 1, by simp [exChk], rfl, rfl, rfl, rfl⟩
      · exact ⟨seqDep 3 3 1, by simp [exChk], rfl, rfl, rfl, rfl⟩
      · exact ⟨seqDep 2 3 0, by simp [exChk], rfl, rfl, rfl, rfl⟩
    · exact absurd rfl h

/-- All loops at their own speed. -/
def idLevel : LoopLevel := ⟨fun _ => 0, fun _ => 1, fun _ => 0⟩

theorem idLevel_takes (b : Bool) (i : Nat) (hi : i < 4) : idLevel.Takes (chkOpts b) exChk.p i 0 := by
  refine ⟨rfl, fun _ => ⟨le_refl _, fun c hc => absurd hc (chk_cap b c)⟩, fun h => ?_, le_refl _, fun c hc => absurd hc (chk_cap b c)⟩
  interval_cases i <;> exact absurd h (by decide)

theorem idLevel_legal (b : Bool) (D : Dep → Prop) : idLevel.Legal (chkOpts b) exChk.p D := by
  refine ⟨?_, [], 1, rfl, by simp, by norm_num, ?_⟩
  · intro d hd _ _ x y q hi
    simp only [exChk, List.mem_cons, List.not_mem_nil, or_false] at hd
    rcases hd with rfl | rfl | rfl | rfl <;>
    · obtain ⟨i, rfl, rfl, rfl, h⟩ := seqDep_inst (s := 0) (t := 0) hi
      simp [LoopLevel.time, idLevel]
  · intro _ d hd _ x y q hi
    simp only [exChk, List.mem_cons, List.not_mem_nil, or_false] at hd
    rcases hd with rfl | rfl | rfl | rfl <;>
    · obtain ⟨i, rfl, rfl, rfl, h⟩ := seqDep_inst (s := 0) (t := 0) hi
      simp [LoopLevel.time, idLevel]

/-- Hypotheses of `C76_self`, `C76_conflict_partial`, `C76_parallel_partial` and `C76_par_self_partial`: component 2 has a
dependence of its own and its loop can be a level, but there is no such level that makes it parallel; components 2 and 3 are dependent and their
loops can be made one level. -/
example : (∃ d ∈ exChk.p.deps, DepWithin (chkOpts false) (InScc exChk 2) d) ∧ SccPermutable (chkOpts false) exChk 2 0 ∧
    (∃ i i', InScc exChk 2 i ∧ InScc exChk 3 i' ∧ exChk.g.adj i i' ≠ 0) ∧ SccFusable (chkOpts false) exChk 2 3 0 0 ∧
    ¬ ∃ v : LoopLevel, v.Takes (chkOpts false) exChk.p 2 0 ∧ v.Same exChk.p (seqDep 2 2 1) := by
  refine ⟨⟨seqDep 2 2 1, by simp [exChk], rfl, nofun, ⟨by decide, rfl⟩, ⟨by decide, rfl⟩⟩,
    ⟨idLevel, fun i hi => ⟨idLevel_takes _ i hi.1, rfl⟩, idLevel_legal _ _⟩,
    ⟨2, 3, ⟨by decide, rfl⟩, ⟨by decide, rfl⟩, by decide⟩,
    ⟨idLevel, fun i hi => idLevel_takes _ i hi.1, fun i hi => idLevel_takes _ i hi.1, idLevel_legal _ _⟩, ?_⟩
  rintro ⟨v, ⟨h1, h2, _⟩, h3⟩
  have h := h3 rfl _ _ _ (seqDep_has 2 2 1) (seqDep_has 2 2 1)
  have h2' := (h2 (by decide)).1
  simp [LoopLevel.time, seqDep, h1] at h
  linarith

/-- The solver returns an optimum if the objective is not negative. -/
def FcgLpOptimal (lp : Cst → List Int → Option (List ℚ)) : Prop :=
  ∀ c obj x, (∀ v ∈ obj, 0 ≤ v) → lp c obj = some x → ∀ y : List ℚ, y.length + 1 = c.ncols → (∀ v ∈ y, 0 ≤ v) → c.Sat y → dot obj x ≤ dot obj y

/-- Such solvers exist. -/
theorem lpOptimal_exists : ∃ lp, LpSolver lp ∧ FcgLpOptimal lp := by
  classical
  refine ⟨fun c obj => if h : c.WF ∧ ∃ x : List ℚ, x.length + 1 = c.ncols ∧ (∀ v ∈ x, 0 ≤ v) ∧ c.Sat x then
    if ho : ∀ v ∈ obj, 0 ≤ v then some (lp_optimum h.1 ho h.2).choose else some h.2.choose else none, fun c obj hc => ⟨?_, ?_⟩, ?_⟩
  · intro x hx
    dsimp only at hx
    split_ifs at hx with h ho
    · cases hx
      exact (lp_optimum h.1 ho h.2).choose_spec.1
    · cases hx
      exact h.2.choose_spec
  · intro hx h
    dsimp only at hx
    rw [dif_pos ⟨hc, h⟩] at hx
    split_ifs at hx
  · intro c obj x ho hx
    dsimp only at hx
    split_ifs at hx with h
    cases hx
    exact (lp_optimum h.1 ho h.2).choose_spec.2

/-- C76. `check_parallel` (lib/framework-dfp.c:447-455) is set once and for all by the first pair of components to which it
applies. In `exChk` that is components 0 and 1. So components 2 and 3, both called stencils and neither of them parallel, get a
parallelism preventing edge too: their loops will not be fused, although this would lose no parallelism. Without components
0 and 1 there is no such edge. -/
theorem C76_violated_check (lp : Cst → List Int → Option (List ℚ)) (hlp : LpSolver lp) :
    let f := clBuildFcg lp (chkOpts false) ⟨true, false, false, true⟩ exChk [0, 0, 0, 0] 1 (fun _ => false) (fun s => decide (2 ≤ s))
    f.isPar 2 = false ∧ f.isPar 3 = false ∧ f.g.adj 2 3 = 0 ∧ f.par 2 3 = 1 ∧
    ∀ l : List (Nat × Nat), (2, 3) ∉ clInterPar lp (chkOpts false) ⟨true, false, false, true⟩ exChk [0, 0, 0, 0] 1 (fun _ => false) (fun s => decide (2 ≤ s))
      false (l.filter (fun x => decide (2 ≤ x.1) && decide (2 ≤ x.2))) := by
  obtain ⟨hp, hd, hne, hg⟩ := exChk_ok
  have hw : ∀ s, s < 4 → exChk.width s = 1 := by decide
  have ho : ∀ s, s < 4 → exChk.sccOffset s = s := by decide
  have hcol : ∀ v, colourOf [0, 0, 0, 0] v = 0 := by
    intro v
    match v with
    | 0 | 1 | 2 | 3 => rfl
    | v + 4 => rfl
  have hclash : ∀ s t, ∀ d ∈ exChk.p.deps, DepWithin (chkOpts false) (fun i => InScc exChk s i ∨ InScc exChk t i) d →
      d.src ≠ exChk.p.npar + 1 + d.dest * (exChk.p.nvar + 1) ∨
      (∀ i, InScc exChk s i → depthOf exChk.p i ≠ 0) ∧ (∀ i, InScc exChk t i → depthOf exChk.p i ≠ 0) := by
    intro s t d hdm _
    left
    simp only [exChk, List.mem_cons, List.not_mem_nil, or_false] at hdm
    rcases hdm with rfl | rfl | rfl | rfl <;> decide
  have hnp : ∀ s, s = 2 ∨ s = 3 → clIsPar lp (chkOpts false) ⟨true, false, false, true⟩ exChk [0, 0, 0, 0] 1 s = false := by
    intro s hs
    rw [Bool.eq_false_iff]
    intro h
    have hdep : seqDep s s 1 ∈ exChk.p.deps ∧ DepWithin (chkOpts false) (InScc exChk s) (seqDep s s 1) := by
      rcases hs with rfl | rfl
      · exact ⟨by simp [exChk], rfl, nofun, ⟨by decide, rfl⟩, ⟨by decide, rfl⟩⟩
      · exact ⟨by simp [exChk], rfl, nofun, ⟨by decide, rfl⟩, ⟨by decide, rfl⟩⟩
    rcases C76_parallel_partial lp hlp (chkOpts false) ⟨true, false, false, true⟩ exChk hp hd hne [0, 0, 0, 0] 1 (fun _ => false)
      (fun s => decide (2 ≤ s)) rfl s h with h1 | ⟨j, hj, v, h1, h2⟩
    · exact h1 ⟨_, hdep⟩
    · rw [hw s (by omega)] at hj
      obtain rfl : j = 0 := by omega
      obtain ⟨⟨e1, e2, _⟩, _⟩ := h1 s hdep.2.2.2.1
      have h3 := (h2 _ hdep.1 hdep.2).2 rfl _ _ _ (seqDep_has s s 1) (seqDep_has s s 1)
      have e3 := (e2 (by rcases hs with rfl | rfl <;> decide)).1
      simp [LoopLevel.time, seqDep, e1] at h3
      linarith
  have hself : ∀ s, s = 2 ∨ s = 3 → clSelf lp (chkOpts false) exChk [0, 0, 0, 0] 1 s 0 = false := by
    intro s hs
    rw [Bool.eq_false_iff]
    intro h
    rw [clSelf_iff lp hlp (chkOpts false) exChk hp hd hne _ _ (by rw [hw s (by omega)]; omega)] at h
    exact h.2.2 ⟨idLevel, fun i hi => ⟨idLevel_takes _ i hi.1, rfl⟩, idLevel_legal _ _⟩
  have hadj : (clBuildFcg lp (chkOpts false) ⟨true, false, false, true⟩ exChk [0, 0, 0, 0] 1 (fun _ => false) (fun s => decide (2 ≤ s))).g.adj 2 3 ≠ 1 := by
    intro h
    have := (C76_conflict_partial lp hlp (chkOpts false) ⟨true, false, false, true⟩ exChk hp hd hne [0, 0, 0, 0] 1 (fun _ => false)
      (fun s => decide (2 ≤ s)) hg 2 3 (by omega) (by decide) ⟨2, 3, ⟨by decide, rfl⟩, ⟨by decide, rfl⟩, by decide⟩ 0 0
      (by rw [hw 2 (by omega)]; omega) (by rw [hw 3 (by omega)]; omega) (Or.inl (hcol _)) (Or.inl (hcol _)) (hclash 2 3)).mp h
    exact this ⟨⟨idLevel, fun i hi => ⟨idLevel_takes _ i hi.1, rfl⟩, idLevel_legal _ _⟩,
      ⟨idLevel, fun i hi => ⟨idLevel_takes _ i hi.1, rfl⟩, idLevel_legal _ _⟩,
      ⟨idLevel, fun i hi => idLevel_takes _ i hi.1, fun i hi => idLevel_takes _ i hi.1, idLevel_legal _ _⟩⟩
  have hpp : clPairPar lp (chkOpts false) exChk [0, 0, 0, 0] 1 2 3 0 0 = true := by
    unfold clPairPar
    rw [hself 2 (by omega), hself 3 (by omega), colourable_iff.mpr (Or.inl (hcol _)), colourable_iff.mpr (Or.inl (hcol _))]
    obtain ⟨g1, g2⟩ := clPairSol_spec (o := chkOpts false) hlp hp hd hne (show (2 : Nat) ≠ 3 by omega) (j := 0) (k := 0)
      (by rw [hw 2 (by omega)]; omega) (by rw [hw 3 (by omega)]; omega) (hclash 2 3)
    cases e : clPairSol lp (chkOpts false) exChk 2 3 0 0 with
    | none => exact absurd ⟨idLevel, fun i hi => idLevel_takes _ i hi.1, fun i hi => idLevel_takes _ i hi.1, idLevel_legal _ _⟩ (g1.mp e)
    | some x =>
      simp only [Bool.not_false, Bool.true_and, Bool.not_eq_true']
      rw [Bool.eq_false_iff]
      intro hx
      obtain ⟨q1, q2, v, q3, _, q4, q5⟩ := g2 x e
      have hin : InScc exChk 2 2 := ⟨by decide, rfl⟩
      have := q5 rfl (seqDep 2 2 1) (by simp [exChk]) ⟨rfl, nofun, Or.inl hin, Or.inl hin⟩ _ _ _ (seqDep_has 2 2 1)
      rw [lpSolParallel_zero q1 q2 hx [] rfl] at this
      obtain ⟨e1, e2, _⟩ := q3 2 hin
      have e3 := (e2 (by decide)).1
      simp [LoopLevel.time, seqDep, e1] at this
      linarith
  refine ⟨hnp 2 (by omega), hnp 3 (by omega), ?_, ?_, ?_⟩
  · have : ∀ u v, (clBuildFcg lp (chkOpts false) ⟨true, false, false, true⟩ exChk [0, 0, 0, 0] 1 (fun _ => false) (fun s => decide (2 ≤ s))).g.adj u v = 0 ∨
        (clBuildFcg lp (chkOpts false) ⟨true, false, false, true⟩ exChk [0, 0, 0, 0] 1 (fun _ => false) (fun s => decide (2 ≤ s))).g.adj u v = 1 := by
      intro u v
      unfold clBuildFcg
      simp only
      split_ifs <;> simp
    rcases this 2 3 with h | h
    · exact h
    · exact absurd h hadj
  · have hchk : clCheck lp (chkOpts false) ⟨true, false, false, true⟩ exChk [0, 0, 0, 0] 1 (fun _ => false) (fun s => decide (2 ≤ s)) 0 1 = true := by
      have : clDeps (chkOpts false) exChk [0] = [] := by decide
      unfold clCheck clIsPar
      rw [this]
      simp
    have hpairs : clPairs exChk = [(0, 1), (2, 3)] := by decide
    have hm := (mem_clInterPar (lp := lp) (o := chkOpts false) (co := ⟨true, false, false, true⟩) (a := exChk) (colour := [0, 0, 0, 0]) (c := 1)
      (hpar := fun _ => false) (sc := fun s => decide (2 ≤ s)) (s := 2) (t := 3) (j := 0) (k := 0) (by rw [hw 2 (by omega)]; omega)
      (by rw [hw 3 (by omega)]; omega) [(2, 3)] true).1 (by simp) (Or.inl rfl) hpp
    unfold clBuildFcg clParEdges
    simp only
    rw [if_pos]
    refine List.mem_append_right _ ?_
    rw [hpairs, clInterPar, hchk]
    exact List.mem_append_right _ hm
  · intro l
    have hno : ∀ (l : List (Nat × Nat)), (∀ x ∈ l, 2 ≤ x.1 ∧ 2 ≤ x.2) →
        clInterPar lp (chkOpts false) ⟨true, false, false, true⟩ exChk [0, 0, 0, 0] 1 (fun _ => false) (fun s => decide (2 ≤ s)) false l = [] := by
      intro l hl
      induction l with
      | nil => rfl
      | cons x l ih =>
        have hx := hl x (by simp)
        have : clCheck lp (chkOpts false) ⟨true, false, false, true⟩ exChk [0, 0, 0, 0] 1 (fun _ => false) (fun s => decide (2 ≤ s)) x.1 x.2 = false := by
          unfold clCheck
          simp [hx.1, hx.2]
        rw [clInterPar, this]
        simp only [Bool.or_false, Bool.false_eq_true, if_false, List.nil_append]
        exact ih (fun y hy => hl y (by simp [hy]))
    rw [hno _ (fun x hx => by simpa using (List.mem_filter.mp hx).2)]
    simp

/-- A loop that carries a dependence: `S(i+1)` depends on `S(i)`. -/
def exSeq : Auto :=
  ⟨⟨1, 0, [seqStmt], [seqDep 0 0 1], []⟩, ⟨1, fun _ _ => 1⟩, ⟨fun _ => 0, fun _ => 0, fun _ => 0, 0⟩, fun _ => 0, 1⟩

/-- C76. With `--nodepbound` there are no constraints on the bounding function, so the LP solver returns 0 for it and every
component with a loop that can be a level is called parallel, here one whose only loop carries a dependence. -/
theorem C76_violated_nodepbound (lp : Cst → List Int → Option (List ℚ)) (hlp : LpSolver lp) (hopt : FcgLpOptimal lp) :
    (clBuildFcg lp (chkOpts true) ⟨true, false, false, true⟩ exSeq [0] 1 (fun _ => false) (fun _ => false)).isPar 0 = true ∧
    ¬ ∃ v : LoopLevel, v.Takes (chkOpts true) exSeq.p 0 0 ∧ v.Same exSeq.p (seqDep 0 0 1) := by
  constructor
  · have hrows : clSelfSystem (chkOpts true) exSeq 0 0 = ⟨4, [⟨false, [1, 0, 0, 0]⟩, ⟨false, [0, 1, 0, 0]⟩, ⟨false, [0, 0, 1, 0]⟩,
        ⟨false, [1, 0, 0, 0]⟩, ⟨false, [0, 1, 0, -1]⟩, ⟨true, [0, 0, 1, 0]⟩, ⟨false, [0, 0, 0, 0]⟩, ⟨false, [0, 1, 0, 0]⟩]⟩ := by decide +kernel
    have hobj : fcgObjective exSeq.p = [5, 3, 1] := by decide +kernel
    have hwf : (clSelfSystem (chkOpts true) exSeq 0 0).WF := by rw [hrows]; decide
    have hsat : (clSelfSystem (chkOpts true) exSeq 0 0).Sat ([0, 1, 0] : List ℚ) := by
      rw [hrows]
      simp [Cst.Sat, Row.Sat, aff, dot]
    have hcols : (clSelfSystem (chkOpts true) exSeq 0 0).ncols = 4 := by rw [hrows]
    have hiso : clIsPar lp (chkOpts true) ⟨true, false, false, true⟩ exSeq [0] 1 0 = true := by
      unfold clIsPar
      rw [show exSeq.width 0 = 1 by decide, show exSeq.sccOffset 0 = 0 by decide]
      simp only [List.range_one, List.any_cons, List.any_nil, Bool.or_false, Bool.true_and, Bool.or_eq_true]
      right
      rw [show colourable [0] 1 (0 + 0) = true by decide, Bool.true_and]
      cases e : clSelfSol lp (chkOpts true) exSeq 0 0 with
      | none => exact absurd ⟨_, by rw [hcols]; rfl, by simp, hsat⟩ ((hlp _ _ hwf).2 e)
      | some x =>
        obtain ⟨g1, g2, g3⟩ := (hlp _ _ hwf).1 x e
        have g4 := hopt _ _ x (by rw [hobj]; decide) e [0, 1, 0] (by rw [hcols]; rfl) (by simp) hsat
        rw [hcols] at g1
        rw [hobj] at g4
        match x, g1 with
        | [w, u, c], _ =>
          have h1 := g3 ⟨false, [0, 1, 0, -1]⟩ (by rw [hrows]; simp)
          have h2 := g2 w (by simp)
          have h3 := g2 c (by simp)
          simp [Row.Sat, aff, dot] at h1 g4
          have : w = 0 := by linarith
          subst this
          simp [lpSolParallel, exSeq]
    exact hiso
  · rintro ⟨v, ⟨h1, h2, _⟩, h3⟩
    have h := h3 rfl _ _ _ (seqDep_has 0 0 1) (seqDep_has 0 0 1)
    have h2' := (h2 (by decide)).1
    simp [LoopLevel.time, seqDep, h1] at h
    linarith

def padDep (s t : Nat) (rs : List Row) : Dep := ⟨s, t, false, ⟨5, rs⟩, ⟨5, rs⟩, false, -1, [], []⟩

def padLow : Stmt := ⟨2, 1, ⟨3, [⟨false, [1, 0, 0]⟩]⟩, [true, false], [], []⟩

def padFull : Stmt := ⟨2, 2, ⟨3, [⟨false, [1, 0, 0]⟩, ⟨false, [0, 1, 0]⟩]⟩, [true, true], [], []⟩

/-- `for (i) { S0(i); for (j) S1(i,j); for (j) S2(i,j); }`, where `S0(i+1)` depends on `S1(i,0)` and `S2(i,0)`, and `S2(i,0)` on `S0(i)`.
Component 0 is `S1` and component 1 consists of `S0` and `S2`. -/
def exPad : Auto := ⟨⟨2, 0, [padLow, padFull, padFull],
  [padDep 1 0 [⟨true, [-1, 0, 1, 0, -1]⟩, ⟨true, [0, 1, 0, 0, 0]⟩, ⟨false, [1, 0, 0, 0, 0]⟩],
   padDep 0 2 [⟨true, [-1, 0, 1, 0, 0]⟩, ⟨true, [0, 0, 0, 1, 0]⟩, ⟨false, [1, 0, 0, 0, 0]⟩],
   padDep 2 0 [⟨true, [-1, 0, 1, 0, -1]⟩, ⟨true, [0, 1, 0, 0, 0]⟩, ⟨false, [1, 0, 0, 0, 0]⟩]], []⟩,
  ⟨3, fun i j => if (i, j) ∈ [(1, 0), (0, 2), (2, 0)] then 1 else 0⟩, ⟨fun _ => 0, fun _ => 0, fun _ => 0, 0⟩, fun i => if i = 1 then 0 else 1, 2⟩

/-- The loops `j`. -/
def padLevel : LoopLevel := ⟨fun _ => 1, fun i => if i = 0 then 0 else 1, fun _ => 0⟩

/-- C76. The system for two loops asks for a coefficient of at least 1 also for the first padding dimension of a statement
(`j <= stmts[..]->dim_orig`, lib/framework-dfp.c:416-592). This does no harm as long as the constraints of dependences do not
mention padding dimensions, but they do when the number of the source statement is the number of the target's first
column (see `C76_conflict_partial`). Here `S0` has a single loop, and the loops `j` of the two components are joined by an edge
although they can be made one level. -/
theorem C76_violated_padding (lp : Cst → List Int → Option (List ℚ)) (hlp : LpSolver lp) :
    exPad.p.Padded ∧ (∀ d ∈ exPad.p.deps, DepOK exPad.p d) ∧ NonemptyDeps exPad.p ∧
    (∀ i j, exPad.g.adj i j ≠ 0 → LiveEdge exPad.p i j) ∧
    SccPermutable (chkOpts false) exPad 0 1 ∧ SccPermutable (chkOpts false) exPad 1 1 ∧ SccFusable (chkOpts false) exPad 0 1 1 1 ∧
    (clBuildFcg lp (chkOpts false) ⟨false, false, false, true⟩ exPad [0, 0, 0, 0] 1 (fun _ => false) (fun _ => false)).g.adj
      (exPad.sccOffset 0 + 1) (exPad.sccOffset 1 + 1) = 1 := by
  have hcap : ∀ c, ¬ Cap (chkOpts false) exPad.p c := by
    rintro c (⟨h, _⟩ | ⟨_, h, _⟩)
    · exact h rfl
    · exact absurd h (by decide)
  have htakes : ∀ i, i < 3 → padLevel.Takes (chkOpts false) exPad.p i 1 := by
    intro i hi
    refine ⟨rfl, fun h => ⟨?_, fun c hc => absurd hc (hcap c)⟩, fun h => ?_, le_refl _, fun c hc => absurd hc (hcap c)⟩
    · interval_cases i
      · exact absurd h (by decide)
      · exact le_refl _
      · exact le_refl _
    · interval_cases i
      · rfl
      · exact absurd h (by decide)
      · exact absurd h (by decide)
  have htime : ∀ d ∈ exPad.p.deps, ∀ s t q : List ℚ, DepInst d.dpoly 2 2 0 s t q → padLevel.time d.src s = 0 ∧ padLevel.time d.dest t = 0 := by
    intro d hdm s t q hi
    simp only [exPad, List.mem_cons, List.not_mem_nil, or_false] at hdm
    match s, t, q, hi.hs, hi.ht, hi.hp with
    | [i, j], [i', j'], [], _, _, _ =>
      have hs := hi.sat
      rcases hdm with rfl | rfl | rfl <;>
      · simp [padDep, Cst.Sat, Row.Sat, aff, dot] at hs
        simp [LoopLevel.time, padLevel, padDep, hs]
  have hlegal : ∀ D, padLevel.Legal (chkOpts false) exPad.p D := by
    intro D
    refine ⟨fun d hdm _ _ s t q hi => ?_, [], 0, rfl, by simp, le_refl _, fun _ d hdm _ s t q hi => ?_⟩
    · obtain ⟨h1, h2⟩ := htime d hdm s t q hi
      rw [h1, h2]
    · have hi' : DepInst d.dpoly 2 2 0 s t q := by
        simp only [exPad, List.mem_cons, List.not_mem_nil, or_false] at hdm
        rcases hdm with rfl | rfl | rfl <;> exact hi
      obtain ⟨h1, h2⟩ := htime d hdm s t q hi'
      rw [h1, h2]
      simp
  have hwf : (clPairSystem (chkOpts false) exPad 0 1 1 1).WF := by decide +kernel
  have hnone : clPairSol lp (chkOpts false) exPad 0 1 1 1 = none := by
    by_contra h
    obtain ⟨x, hx⟩ := Option.ne_none_iff_exists'.mp h
    obtain ⟨g1, _, g3⟩ := (hlp _ _ hwf).1 x hx
    have h1 := g3 ⟨true, [0, 0, 1, 0, 0, 0, 0, 0, 0, 0, 0]⟩ (by decide +kernel)
    have h2 := g3 ⟨false, [0, 0, 1, 0, 0, 0, 0, 0, 0, 0, -1]⟩ (by decide +kernel)
    have hl : x.length = 10 := by
      have : (clPairSystem (chkOpts false) exPad 0 1 1 1).ncols = 11 := rfl
      omega
    match x, hl with
    | [x0, x1, x2, x3, x4, x5, x6, x7, x8, x9], _ =>
      simp [Row.Sat, aff, dot] at h1 h2
      linarith
  refine ⟨?_, ?_, ?_, ?_, ⟨padLevel, fun i hi => ⟨htakes i hi.1, rfl⟩, hlegal _⟩, ⟨padLevel, fun i hi => ⟨htakes i hi.1, rfl⟩, hlegal _⟩,
    ⟨padLevel, fun i hi => htakes i hi.1, fun i hi => htakes i hi.1, hlegal _⟩, ?_⟩
  · intro st hst
    simp only [exPad, List.mem_cons, List.not_mem_nil, or_false] at hst
    rcases hst with rfl | rfl | rfl <;> decide
  · intro d hd
    simp only [exPad, List.mem_cons, List.not_mem_nil, or_false] at hd
    rcases hd with rfl | rfl | rfl <;> exact ⟨by decide, by decide, by decide, by decide, by decide, by decide⟩
  · intro d hd
    simp only [exPad, List.mem_cons, List.not_mem_nil, or_false] at hd
    rcases hd with rfl | rfl | rfl
    · have h : DepInst (R := ℚ) (padDep 1 0 [⟨true, [-1, 0, 1, 0, -1]⟩, ⟨true, [0, 1, 0, 0, 0]⟩, ⟨false, [1, 0, 0, 0, 0]⟩]).dpoly 2 2 0 [0, 0] [1, 0] [] :=
        ⟨rfl, rfl, rfl, by simp [Cst.Sat, Row.Sat, padDep, aff, dot]⟩
      exact ⟨⟨_, _, _, h⟩, ⟨_, _, _, h⟩⟩
    · have h : DepInst (R := ℚ) (padDep 0 2 [⟨true, [-1, 0, 1, 0, 0]⟩, ⟨true, [0, 0, 0, 1, 0]⟩, ⟨false, [1, 0, 0, 0, 0]⟩]).dpoly 2 2 0 [0, 0] [0, 0] [] :=
        ⟨rfl, rfl, rfl, by simp [Cst.Sat, Row.Sat, padDep, aff, dot]⟩
      exact ⟨⟨_, _, _, h⟩, ⟨_, _, _, h⟩⟩
    · have h : DepInst (R := ℚ) (padDep 2 0 [⟨true, [-1, 0, 1, 0, -1]⟩, ⟨true, [0, 1, 0, 0, 0]⟩, ⟨false, [1, 0, 0, 0, 0]⟩]).dpoly 2 2 0 [0, 0] [1, 0] [] :=
        ⟨rfl, rfl, rfl, by simp [Cst.Sat, Row.Sat, padDep, aff, dot]⟩
      exact ⟨⟨_, _, _, h⟩, ⟨_, _, _, h⟩⟩
  · intro i j h
    simp only [exPad] at h
    split_ifs at h with h1
    · simp only [List.mem_cons, List.not_mem_nil, or_false, Prod.mk.injEq] at h1
      rcases h1 with ⟨rfl, rfl⟩ | ⟨rfl, rfl⟩ | ⟨rfl, rfl⟩
      · exact ⟨_, List.mem_cons_self, rfl, rfl, rfl, rfl⟩
      · exact ⟨_, List.mem_cons_of_mem _ List.mem_cons_self, rfl, rfl, rfl, rfl⟩
      · exact ⟨_, List.mem_cons_of_mem _ (List.mem_cons_of_mem _ List.mem_cons_self), rfl, rfl, rfl, rfl⟩
    · exact absurd rfl h
  · have hw0 : exPad.width 0 = 2 := by decide
    have hw1 : exPad.width 1 = 2 := by decide
    refine (clBuild_adj (by decide) (by decide) (by rw [hw0]; omega) (by rw [hw1]; omega)).mpr (Or.inr (Or.inr (Or.inl ⟨by omega, by decide, ?_⟩)))
    unfold clPair
    rw [hnone]
    have hc : ∀ v, colourable [0, 0, 0, 0] 1 v = true := by
      intro v
      rw [colourable_iff]
      left
      match v with
      | 0 | 1 | 2 | 3 => rfl
      | v + 4 => rfl
    rw [hc, hc]
    simp

end Pluto
