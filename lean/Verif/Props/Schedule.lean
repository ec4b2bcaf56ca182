import Verif.Lemmas.Schedule
import Verif.Lemmas.AutoEven
import Verif.Props.Pipeline
import Verif.Props.Auto

/-! C52: `pluto_schedule_prog` as a whole (`scheduleProg`, Verif/Model/Pipeline.lean): the automatic
transformation, then tiling or reordering of loops, then wavefronts. `SameRuns`, `EagerAuto`, `LoopBands`:
Verif/Spec/Pipeline.lean. -/

namespace Pluto

/-- What the automatic transformation hands on: a program with consistent sizes, with hyperplane types as
many as hyperplanes and `loop` exactly for rows that depend on iterators, and scalar rows that do not
depend on parameters. -/
theorem C10_shape (o : AutoOpts) (L : Libs) (hE : EmptyOracle L.isEmpty) (hL : FeasibleOracle L.solve)
    (fuel : Nat) (d0 : DfsState) (p0 p : Prog) (hp : p0.InputOK)
    (h : autoTransform o L noDiamond fuel d0 p0 = some (.success p)) : p.OK ∧ TypesRight p ∧ PureScalars p :=
  auto_shape o L hE hL fuel d0 p0 p hp h

/-- C10: if the search stays in EAGER mode, every dependence of the result is satisfied by one level, with
no outer level going backwards. -/
theorem C10_stepwise (o : AutoOpts) (L : Libs) (hE : EmptyOracle L.isEmpty) (hL : FeasibleOracle L.solve)
    (fuel : Nat) (d0 : DfsState) (p0 p : Prog) (hp : p0.InputOK) (hz : EagerAuto o L noDiamond fuel d0 p0)
    (h : autoTransform o L noDiamond fuel d0 p0 = some (.success p)) : Stepwise p :=
  auto_stepwise o L hE hL fuel d0 p0 p hp hz h

/-- C10: if all statements have the same number of loops and the search stays in EAGER mode, then every level
of the schedules found is scalar for all statements or a loop for all. -/
theorem C10_levels (o : AutoOpts) (L : Libs) (hE : EmptyOracle L.isEmpty) (hL : FeasibleOracle L.solve) (hK : KernelOracle L.kernel)
    (fuel : Nat) (d0 : DfsState) (p0 p : Prog) (hp : p0.InputOK) (hz : EagerAuto o L noDiamond fuel d0 p0)
    (n : Nat) (hn : ∀ st ∈ p0.stmts, st.dim = n) (h : autoTransform o L noDiamond fuel d0 p0 = some (.success p)) :
    ∀ l i j, i < p.stmts.length → j < p.stmts.length → p.Scalar l i → p.Scalar l j :=
  auto_even o L hE hL hK fuel d0 p0 p hp hz n hn h

theorem beforeWave_tile {isEmpty : Cst → Bool} (hE : EmptyOracle isEmpty) {best : Prog → List Loop → Option Loop}
    (hbest : ∀ p ls L, best p ls = some L → L ∈ ls) (o : TileOpts) (hip : o.innerpar = false) {sizes sizes2 : Nat → Nat → Int}
    (hz : ∀ n m, 1 ≤ sizes n m) (hz2 : ∀ n m, 1 ≤ sizes2 n m) {p : Prog} (H : Good p) (hT : TypesRight p)
    (hfw : o.parallel = true → ∀ p1 bands, recompute isEmpty p = some p1 → tileBands p1 = some bands → LoopBands p1 bands) :
    ∃ p' T, beforeWave isEmpty best o true sizes sizes2 p = some p' ∧ p'.OK ∧ p'.Legal ∧ SameRuns p p' T := by
  obtain ⟨p1, e1, i1, q1, f1⟩ := recompute_spec hE H.ok
  have H1 := H.resat q1 f1
  obtain ⟨p', T, h1, h2, h3, h4, _⟩ := C50_tile_partial isEmpty hE best hbest o hip sizes sizes2 hz hz2 p1 H1.ok i1 H1.step
    (resat_types q1 hT) H1.uni H1.pure (fun hp bands hb => C50_forward p1 H1.ok i1 H1.step H1.uni bands hb (hfw hp p1 bands e1 hb))
  refine ⟨p', _, ?_, h2, h3, ((SameRuns.refl H.ok).same (resat_same q1 f1)).trans h4⟩
  unfold beforeWave
  simp [e1, h1]

/-- C52, after the automatic transformation: whatever the options `--tile`, `--second-level-tile`,
`--intratileopt`, `--parallel`, `--multipar` and `--identity` are, from legal schedules the rest of
`pluto_schedule_prog` makes legal schedules: it succeeds, runs exactly the instances of the statements,
extended by tile coordinates, and every dependent pair in order. Missing: as for `C50_tile_partial`. -/
theorem C52_post_partial (isEmpty : Cst → Bool) (hE : EmptyOracle isEmpty) (best : Prog → List Loop → Option Loop)
    (hbest : ∀ p ls L, best p ls = some L → L ∈ ls) (o : TileOpts) (hip : o.innerpar = false) (tile identity : Bool)
    (sizes sizes2 : Nat → Nat → Int) (hz : ∀ n m, 1 ≤ sizes n m) (hz2 : ∀ n m, 1 ≤ sizes2 n m)
    (p : Prog) (hok : p.OK) (hst : Stepwise p) (hT : TypesRight p)
    (hU : Uniform p 0 p.hProps.length (List.range p.stmts.length)) (hps : PureScalars p)
    (hfw : o.parallel = true → tile = true → ∀ p1 bands, recompute isEmpty p = some p1 → tileBands p1 = some bands → LoopBands p1 bands)
    (hfw' : o.parallel = true → tile = false → identity = false → ∀ p1 bands, beforeWave isEmpty best o false sizes sizes2 p = some p1 →
      outermostBands p1 = some bands → LoopBands p1 bands) :
    ∃ p' T, postTransform isEmpty best o tile identity sizes sizes2 p = some p' ∧ p'.OK ∧ p'.Legal ∧ SameRuns p p' T ∧
      ∀ d ∈ p.deps, d.rar = false → ∀ s t q, p.Inst d s t q →
        LexBefore (p'.timestamp d.src (T d.src s q ++ s) q) (p'.timestamp d.dest (T d.dest t q ++ t) q) := by
  have H : Good p := ⟨hok, hst, hU, hps⟩
  suffices h : ∃ p' T, postTransform isEmpty best o tile identity sizes sizes2 p = some p' ∧ p'.OK ∧ p'.Legal ∧ SameRuns p p' T by
    obtain ⟨p', T, h1, h2, h3, h4⟩ := h
    exact ⟨p', T, h1, h2, h3, h4, h4.inOrder h3⟩
  unfold postTransform stepIf
  cases tile with
  | true =>
    obtain ⟨p', T, h1, h2, h3, h4⟩ := beforeWave_tile hE hbest o hip hz hz2 H hT (fun hp => hfw hp rfl)
    exact ⟨p', T, by simp [h1], h2, h3, h4⟩
  | false =>
    obtain ⟨p2, p1, h1, h2, h3, h4, h5⟩ := untiled_good hE hbest o sizes sizes2 H
    rw [h1]
    have hS := (SameRuns.refl hok).same h5
    by_cases c : (o.parallel && !false && !identity) = true
    · simp only [Option.bind_eq_bind, Option.bind_some, c, if_true]
      simp only [Bool.not_false, Bool.and_true, Bool.and_eq_true, Bool.not_eq_true'] at c
      obtain ⟨bands, p', a1, a2, a3, _, a5⟩ := waveUntiled_stage o hip h2 h3 h4 (fun bands hb => hfw' c.1 rfl c.2 p1 bands h1 hb)
      exact ⟨p', _, a2, a3.ok, a3.legal, hS.same a5⟩
    · simp only [Option.bind_eq_bind, Option.bind_some, c]
      exact ⟨p1, _, rfl, h3.ok, h3.step.legal h3.ok, hS⟩

/-- C52. `pluto_schedule_prog` finds legal schedules or reports failure: if the automatic transformation
succeeds with `p`, then for any positive tile sizes and any of the options above the whole succeeds; the
result runs exactly the instances of the statements of the input `p0`, extended by tile coordinates, and
every dependent pair of instances of `p0` in order.
Missing for the full C52: diamond tiling and `--innerpar`; runs in which the search leaves EAGER mode
(`EagerAuto`); schedules with levels that mix scalar and loop rows (`hU`) and wavefronts over bands
with scalar levels (`hfw`, `hfw'`), where the claim is false (`C19_violated`, `C20_violated`). -/
theorem C52_schedule_partial (ao : AutoOpts) (L : Libs) (hE : EmptyOracle L.isEmpty) (hL : FeasibleOracle L.solve) (fuel : Nat) (d0 : DfsState)
    (best : Prog → List Loop → Option Loop) (hbest : ∀ p ls L, best p ls = some L → L ∈ ls) (o : TileOpts) (hip : o.innerpar = false)
    (tile : Bool) (sizes sizes2 : Nat → Nat → Int) (hz : ∀ n m, 1 ≤ sizes n m) (hz2 : ∀ n m, 1 ≤ sizes2 n m)
    (p0 : Prog) (hp : p0.InputOK) (hea : EagerAuto ao L noDiamond fuel d0 p0)
    (p : Prog) (h : autoTransform ao L noDiamond fuel d0 p0 = some (.success p))
    (hU : Uniform p 0 p.hProps.length (List.range p.stmts.length))
    (hfw : o.parallel = true → tile = true → ∀ p1 bands, recompute L.isEmpty p = some p1 → tileBands p1 = some bands → LoopBands p1 bands)
    (hfw' : o.parallel = true → tile = false → ∀ p1 bands, beforeWave L.isEmpty best o false sizes sizes2 p = some p1 →
      outermostBands p1 = some bands → LoopBands p1 bands) :
    ∃ p' T, scheduleProg ao L noDiamond fuel d0 best o tile false sizes sizes2 p0 = some (.success p') ∧ SameRuns p0 p' T ∧
      ∀ d ∈ p0.deps, d.rar = false → ∀ s t q, p0.Inst d s t q →
        LexBefore (p'.timestamp d.src (T d.src s q ++ s) q) (p'.timestamp d.dest (T d.dest t q ++ t) q) := by
  obtain ⟨k1, k2, k3⟩ := C10_shape ao L hE hL fuel d0 p0 p hp h
  have k4 := C10_stepwise ao L hE hL fuel d0 p0 p hp hea h
  obtain ⟨_, _, r1, r2⟩ := C10_legal_partial ao L hE hL fuel d0 p0 p hp h
  obtain ⟨p', T, a1, a2, a3, a4, _⟩ := C52_post_partial L.isEmpty hE best hbest o hip tile false sizes sizes2 hz hz2 p k1 k4 k2 hU k3 hfw
    (fun a b _ => hfw' a b)
  have hS := (restored_sameRuns (auto_npar hE hL hp h) r1 r2).trans a4
  refine ⟨p', _, ?_, hS, hS.inOrder a3⟩
  unfold scheduleProg
  simp [h, a1]

/-- C52 for programs whose statements all have the same number of loops: as `C52_schedule_partial`, with no
condition on the schedules found except on wavefronts. Missing: as there, and programs with statements
of different depth. -/
theorem C52_same_depth_partial (ao : AutoOpts) (L : Libs) (hE : EmptyOracle L.isEmpty) (hL : FeasibleOracle L.solve)
    (hK : KernelOracle L.kernel) (fuel : Nat) (d0 : DfsState)
    (best : Prog → List Loop → Option Loop) (hbest : ∀ p ls L, best p ls = some L → L ∈ ls) (o : TileOpts) (hip : o.innerpar = false)
    (tile : Bool) (sizes sizes2 : Nat → Nat → Int) (hz : ∀ n m, 1 ≤ sizes n m) (hz2 : ∀ n m, 1 ≤ sizes2 n m)
    (p0 : Prog) (hp : p0.InputOK) (n : Nat) (hn : ∀ st ∈ p0.stmts, st.dim = n) (hea : EagerAuto ao L noDiamond fuel d0 p0)
    (p : Prog) (h : autoTransform ao L noDiamond fuel d0 p0 = some (.success p))
    (hfw : o.parallel = true → tile = true → ∀ p1 bands, recompute L.isEmpty p = some p1 → tileBands p1 = some bands → LoopBands p1 bands)
    (hfw' : o.parallel = true → tile = false → ∀ p1 bands, beforeWave L.isEmpty best o false sizes sizes2 p = some p1 →
      outermostBands p1 = some bands → LoopBands p1 bands) :
    ∃ p' T, scheduleProg ao L noDiamond fuel d0 best o tile false sizes sizes2 p0 = some (.success p') ∧ SameRuns p0 p' T ∧
      ∀ d ∈ p0.deps, d.rar = false → ∀ s t q, p0.Inst d s t q →
        LexBefore (p'.timestamp d.src (T d.src s q ++ s) q) (p'.timestamp d.dest (T d.dest t q ++ t) q) :=
  C52_schedule_partial ao L hE hL fuel d0 best hbest o hip tile sizes sizes2 hz hz2 p0 hp hea p h
    (fun l _ _ i hi j hj _ hs => C10_levels ao L hE hL hK fuel d0 p0 p hp hea n hn h l i j (by simpa using hi) (by simpa using hj) hs)
    hfw hfw'

/-- C52: failure of the automatic transformation is reported, with the input schedules (C11). -/
theorem C52_failure (ao : AutoOpts) (L : Libs) (hE : EmptyOracle L.isEmpty) (hL : FeasibleOracle L.solve) (fuel : Nat) (d0 : DfsState)
    (best : Prog → List Loop → Option Loop) (o : TileOpts) (tile : Bool) (sizes sizes2 : Nat → Nat → Int) (p0 p : Prog) (hp : p0.InputOK)
    (h : scheduleProg ao L noDiamond fuel d0 best o tile false sizes sizes2 p0 = some (.failed p)) :
    p.hProps = p0.hProps ∧ p.stmts.map (fun st => (st.trans, st.hypTypes)) = p0.stmts.map (fun st => (st.trans, st.hypTypes)) ∧
    List.Forall₂ (StmtRestored p0.npar) p0.stmts p.stmts ∧ List.Forall₂ DepRestored p0.deps p.deps := by
  refine C11_failure_restores ao L hE hL fuel d0 p0 p hp ?_
  unfold scheduleProg at h
  rw [if_neg (by simp)] at h
  cases ha : autoTransform ao L noDiamond fuel d0 p0 with
  | none => simp [ha] at h
  | some r =>
    rw [ha] at h
    cases r with
    | timeout => simp at h
    | failed q => simpa using h
    | success q => simp at h

/-- C52: success is reported exactly when the automatic transformation succeeded (and tiling stayed within
its assertions), failure exactly when it failed. -/
theorem C52_reports (ao : AutoOpts) (L : Libs) (dia : Nat → Prog → Option (Prog × Bool)) (fuel : Nat) (d0 : DfsState)
    (best : Prog → List Loop → Option Loop) (o : TileOpts) (tile : Bool) (sizes sizes2 : Nat → Nat → Int) (p0 p : Prog) :
    (scheduleProg ao L dia fuel d0 best o tile false sizes sizes2 p0 = some (.failed p) ↔
      autoTransform ao L dia fuel d0 p0 = some (.failed p)) ∧
    (scheduleProg ao L dia fuel d0 best o tile false sizes sizes2 p0 = some (.success p) →
      ∃ q, autoTransform ao L dia fuel d0 p0 = some (.success q)) := by
  unfold scheduleProg
  rw [if_neg (by simp)]
  cases ha : autoTransform ao L dia fuel d0 p0 with
  | none => simp
  | some r =>
    cases r with
    | timeout => simp
    | failed q => simp
    | success q => simp

/-! ### Example -/

/-- The tiling example without schedules. -/
def exSched : Prog := { exTile with
  stmts := exTile.stmts.map (fun st => { st with trans := [], hypTypes := [] })
  deps := exTile.deps.map (fun d => { d with satisfied := false, satLevel := -1, satvec := [], dirvec := [] })
  hProps := [] }

def exSchedTab : List (Cst × Bool) :=
  let d0 : List Row := [⟨true, [-1, 0, 1, 0, 0, -1]⟩, ⟨true, [0, -1, 0, 1, 0, 1]⟩]
  let d1 : List Row := [⟨true, [-1, 0, 1, 0, 0, 0]⟩, ⟨true, [0, -1, 0, 1, 0, 0]⟩]
  [(⟨6, ⟨false, [-1, -1, 0, 1, 0, -1]⟩ :: d1⟩, false), (⟨6, ⟨false, [-1, -1, 1, 1, 0, -1]⟩ :: d0⟩, true),
   (⟨6, ⟨false, [-1, 0, 1, 0, 0, -1]⟩ :: d0⟩, false), (⟨6, ⟨false, [-1, 0, 1, 0, 0, -1]⟩ :: d1⟩, true),
   (⟨6, ⟨false, [0, 0, 0, 0, 0, -1]⟩ :: d0⟩, true), (⟨6, ⟨false, [0, 0, 0, 0, 0, -1]⟩ :: d1⟩, true),
   (⟨6, ⟨false, [0, 0, 0, 0, 0, -2]⟩ :: d1⟩, true), (⟨6, ⟨false, [0, 0, 0, 0, 0, 0]⟩ :: d0⟩, false),
   (⟨6, ⟨false, [0, 0, 0, 0, 0, 0]⟩ :: d1⟩, false), (⟨6, ⟨false, [1, 0, -1, 0, 0, -1]⟩ :: d0⟩, true),
   (⟨6, ⟨false, [1, 0, -1, 0, 0, -1]⟩ :: d1⟩, true), (⟨6, ⟨false, [1, 0, -1, 0, 0, 0]⟩ :: d0⟩, true),
   (⟨6, ⟨false, [1, 1, -1, -1, 0, -1]⟩ :: d0⟩, true), (⟨6, ⟨false, [1, 1, -1, -1, 0, 0]⟩ :: d0⟩, false),
   (⟨6, ⟨false, [1, 1, 0, -1, 0, -1]⟩ :: d1⟩, false)]

/-- A kernel oracle that answers two questions by lookup. -/
noncomputable def exKernel (n : Nat) (rows : List (List Int)) : List (List Int) :=
  if n = 2 ∧ rows = [] then [[1, 0], [0, 1]] else if n = 2 ∧ rows = [[1, 0]] then [[0, 1]] else exists_kernelOracle.choose n rows

theorem exKernel_ok : KernelOracle exKernel := by
  intro n rows hr
  unfold exKernel
  split_ifs with h1 h2
  · obtain ⟨rfl, rfl⟩ := h1
    refine ⟨by simp, fun w _ => ?_⟩
    have : w = w 0 • qvec 2 [1, 0] + w 1 • qvec 2 [0, 1] := by
      funext j; fin_cases j <;> simp [qvec]
    rw [this]
    exact Submodule.add_mem _ (Submodule.smul_mem _ _ (Submodule.subset_span ⟨[1, 0], by simp, rfl⟩))
      (Submodule.smul_mem _ _ (Submodule.subset_span ⟨[0, 1], by simp, rfl⟩))
  · obtain ⟨rfl, rfl⟩ := h2
    refine ⟨by simp [dot], fun w hw => ?_⟩
    have h0 := hw [1, 0] (by simp)
    simp [qvec, Fin.sum_univ_two] at h0
    have : w = w 1 • qvec 2 [0, 1] := by
      funext j; fin_cases j <;> simp [qvec, h0]
    rw [this]
    exact Submodule.smul_mem _ _ (Submodule.subset_span ⟨[0, 1], by simp, rfl⟩)
  · exact exists_kernelOracle.choose_spec n rows hr

noncomputable def exSchedLibs : Libs :=
  ⟨exKernel, tabOracle exSchedTab, listSolver [[0, 1, 0, 1, 0, 0, 1, 0], [0, 0, 1, 1, 0, 1, 0, 0]]⟩

theorem exSchedLibs_ok : EmptyOracle exSchedLibs.isEmpty ∧ FeasibleOracle exSchedLibs.solve ∧ KernelOracle exSchedLibs.kernel := by
  refine ⟨tabOracle_ok _ ?_, listSolver_ok _, exKernel_ok⟩
  intro e he
  simp only [exSchedTab, List.mem_cons, List.not_mem_nil, or_false] at he
  rcases he with rfl | rfl | rfl | rfl | rfl | rfl | rfl | rfl | rfl | rfl | rfl | rfl | rfl | rfl | rfl
  all_goals first
    | (simp only [Bool.false_eq_true, false_iff, not_not]
       first
         | exact ⟨[0, 0, 1, -1, 0], rfl, by decide⟩
         | exact ⟨[0, 0, 0, 0, 0], rfl, by decide⟩
         | exact ⟨[-1, 0, -1, 0, 0], rfl, by decide⟩
         | exact ⟨[1, 0, 1, 0, 0], rfl, by decide⟩)
    | (simp only [true_iff]
       rintro ⟨x, hx, hs⟩
       match x, hx with
       | [a, b, c, d, e], _ =>
         simp [Cst.Sat, Row.Sat, aff, dot] at hs
         try omega)

/-- Boolean version of `EagerRun`. -/
noncomputable def eagerCheck (o : AutoOpts) (L : Libs) (req : Nat) : Nat → LoopState → Bool
  | 0, _ => true
  | n + 1, s => match autoStep o L noDiamond req s with
    | some (.go s') => s'.eager && (!(!fullRanked s'.a.p || !depsSatCheck s'.a.p) || eagerCheck o L req n s')
    | _ => true

theorem eagerCheck_ok {o : AutoOpts} {L : Libs} {req : Nat} : ∀ {n : Nat} {s : LoopState}, eagerCheck o L req n s = true →
    EagerRun o L noDiamond req n s := by
  intro n
  induction n with
  | zero => intro s _; trivial
  | succ n ih =>
    intro s h s' hs'
    simp only [eagerCheck, hs', Bool.and_eq_true, Bool.or_eq_true, Bool.not_eq_true', Bool.or_eq_false_iff] at h
    refine ⟨h.1, fun hc => ?_⟩
    rcases h.2 with h2 | h2
    · rw [Bool.not_eq_false', Bool.not_eq_false'] at h2
      rcases hc with hc | hc
      · rw [h2.1] at hc; cases hc
      · rw [h2.2] at hc; cases hc
    · exact ih h2

noncomputable def eagerAutoCheck (o : AutoOpts) (L : Libs) (fuel : Nat) (d0 : DfsState) (p0 : Prog) : Bool :=
  let p := { p0 with deps := p0.deps.map (fun d => { d with satisfied := false }) }
  match (⟨p, ddgCreate p, d0, fun _ => -1, 0⟩ : Auto).computeScc with
  | none => true
  | some a => match autoInit o L a with
    | none => true
    | some s => eagerCheck o L ((s.a.p.stmts.map (·.dim)).foldl max 0) fuel s

theorem eagerAutoCheck_ok {o : AutoOpts} {L : Libs} {fuel : Nat} {d0 : DfsState} {p0 : Prog} (h : eagerAutoCheck o L fuel d0 p0 = true) :
    EagerAuto o L noDiamond fuel d0 p0 := by
  intro a s h1 h2
  unfold eagerAutoCheck at h
  simp only [h1, h2] at h
  exact eagerCheck_ok h

/-- A property of the result of a successful run. -/
def Outcome.holds (f : Prog → Bool) : Option Outcome → Bool
  | some (.success p) => f p
  | _ => false

/-- The condition on wavefronts, as a check. -/
def loopBandsCheck (p : Prog) (bands : List Band) : Bool :=
  bands.all fun b => (List.range b.width).all fun m => b.loop.stmts.any fun i =>
    match p.stmts[i]? with
    | none => true
    | some st => match st.trans[b.loop.depth + m]? with
      | none => true
      | some r => (r.take st.dim).any (fun v => decide (v ≠ 0))

theorem loopBandsCheck_ok {p : Prog} {bands : List Band} (h : loopBandsCheck p bands = true) : LoopBands p bands := by
  intro b hb m hm
  simp only [loopBandsCheck, List.all_eq_true, List.any_eq_true, List.mem_range] at h
  obtain ⟨i, hi, hx⟩ := h b hb m hm
  refine ⟨i, hi, ?_⟩
  rintro ⟨st, r, g1, g2, g3⟩
  rw [g1] at hx
  simp only [g2] at hx
  simp only [List.any_eq_true, decide_eq_true_eq] at hx
  obtain ⟨v, hv, hv'⟩ := hx
  exact hv' (g3 v hv)

def exAutoOpts : AutoOpts := ⟨⟨true, false, false, true, -1⟩, .no⟩
def exDfs : DfsState := ⟨fun _ => 0, fun _ => 0, fun _ => 0, 0⟩
def exTileOpts : TileOpts := ⟨true, true, true, true, false⟩
def exBest (_ : Prog) (ls : List Loop) : Option Loop := ls.getLast?

/-- The hypotheses of C52 are met, with all options set, tiled and untiled. -/
example : EmptyOracle exSchedLibs.isEmpty ∧ FeasibleOracle exSchedLibs.solve ∧ KernelOracle exSchedLibs.kernel ∧ exSched.InputOK ∧
    (∀ st ∈ exSched.stmts, st.dim = 2) ∧ EagerAuto exAutoOpts exSchedLibs noDiamond 10 exDfs exSched ∧
    (∀ p ls L, exBest p ls = some L → L ∈ ls) ∧
    ∃ p, autoTransform exAutoOpts exSchedLibs noDiamond 10 exDfs exSched = some (.success p) ∧
      (∀ p1 bands, recompute exSchedLibs.isEmpty p = some p1 → tileBands p1 = some bands → LoopBands p1 bands) ∧
      (∀ p1 bands, beforeWave exSchedLibs.isEmpty exBest exTileOpts false (fun _ _ => 32) (fun _ _ => 8) p = some p1 →
        outermostBands p1 = some bands → LoopBands p1 bands) := by
  obtain ⟨k1, k2, k3⟩ := exSchedLibs_ok
  refine ⟨k1, k2, k3, ⟨by decide, by decide⟩, by decide, eagerAutoCheck_ok (by decide +kernel), fun p ls L h => List.mem_of_getLast? h, ?_⟩
  have h : Outcome.holds (fun p => (match recompute exSchedLibs.isEmpty p with
        | some p1 => (match tileBands p1 with | some bands => loopBandsCheck p1 bands && bands.length == 2 | none => false)
        | none => false) &&
      (match beforeWave exSchedLibs.isEmpty exBest exTileOpts false (fun _ _ => 32) (fun _ _ => 8) p with
        | some p1 => (match outermostBands p1 with | some bands => loopBandsCheck p1 bands && bands.length == 2 | none => false)
        | none => false))
      (autoTransform exAutoOpts exSchedLibs noDiamond 10 exDfs exSched) = true := by decide +kernel
  generalize autoTransform exAutoOpts exSchedLibs noDiamond 10 exDfs exSched = r at h
  match r, h with
  | some (.success p), h =>
    simp only [Outcome.holds, Bool.and_eq_true] at h
    refine ⟨p, rfl, fun p1 bands h1 h2 => ?_, fun p1 bands h1 h2 => ?_⟩
    · have := h.1
      simp only [h1, h2, Bool.and_eq_true] at this
      exact loopBandsCheck_ok this.1
    · have := h.2
      simp only [h1, h2, Bool.and_eq_true] at this
      exact loopBandsCheck_ok this.1

end Pluto
