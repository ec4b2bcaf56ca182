import Verif.Lemmas.PrecutRead
import Verif.Props.PerCcExamples

/-! C72: custom fusion structure through `.fst` and `.precut` files. -/

namespace Pluto

/-- C72: without files the transformation is the one of C10. -/
theorem C72_no_files (o : AutoOpts) (L : Libs) (dia : Nat → Prog → Option (Prog × Bool)) (fuel : Nat) (d0 : DfsState) (p0 : Prog) :
    autoTransformFiles o L dia ⟨none, none⟩ fuel d0 p0 = autoTransform o L dia fuel d0 p0 := by
  unfold autoTransformFiles autoTransform
  have e : ∀ a : Auto, autoInitFiles o L ⟨none, none⟩ a = autoInit o L a := fun a => rfl
  simp only [e]
  rfl

/-- C72: a `.fst` file with more components than statements has no effect; a `.precut` file beside it is not looked at. -/
theorem C72_too_many (o : AutoOpts) (L : Libs) (dia : Nat → Prog → Option (Prog × Bool)) (fuel : Nat) (d0 : DfsState) (p0 : Prog)
    (hp : p0.InputOK) (n : Int) (f : List Int) (pre : Option (List Int)) (hn : p0.stmts.length < n) :
    autoTransformFiles o L dia ⟨some (n :: f), pre⟩ fuel d0 p0 = autoTransform o L dia fuel d0 p0 := by
  unfold autoTransformFiles autoTransform
  simp only [Option.bind_eq_bind]
  cases h1 : (⟨{ p0 with deps := p0.deps.map (fun d => { d with satisfied := false }) },
      ddgCreate { p0 with deps := p0.deps.map (fun d => { d with satisfied := false }) }, d0, fun _ => -1, 0⟩ : Auto).computeScc with
  | none => rfl
  | some a =>
    have e : autoInitFiles o L ⟨some (n :: f), pre⟩ a = autoInit o L a := by
      obtain ⟨p2, n1, n2, _⟩ := normalize_spec hp
      have hstr : ({ a.p with stmts := a.p.stmts.map (fun st => { st with trans := [], hypTypes := [] }) } : Prog) =
          stripped p0 := by rw [(scc_facts h1).1]; rfl
      unfold autoInitFiles autoInit
      rw [hstr]
      simp only [n1, Option.bind_eq_bind, Option.bind_some, precut, precutFst]
      rw [if_pos (by have := n2.len; simp only [this]; omega)]
      rfl
    simp only [Option.bind_some, e]
    rfl

/-- C72 for `.fst` files. If the components of the file partition the statements (not more components than statements) and no
dependence goes from a component to an earlier one, a run that reports success returns a legal transformation, of the right shape, and
its first row is the number of the component: the distribution asked for is respected. Partial: nothing is said about other files
(see `C72_violated_order`); whether to tile a component is never looked at. -/
theorem C72_fst_partial (o : AutoOpts) (L : Libs) (hE : EmptyOracle L.isEmpty) (hL : FeasibleOracle L.solve)
    (fuel : Nat) (d0 : DfsState) (p0 p : Prog) (hp : p0.InputOK) (hne : p0.stmts ≠ [])
    (comps : List (List Nat × Int)) (rest : List Int) (pre : Option (List Int))
    (hP : Partition p0.stmts.length comps) (hn : comps.length ≤ p0.stmts.length)
    (hord : ∀ d ∈ p0.deps, d.rar = false → (∃ s t q, p0.Inst d s t q) → ∀ c c', InComp comps d.src c → InComp comps d.dest c' → c ≤ c')
    (h : autoTransformFiles o L noDiamond ⟨some (fstText comps ++ rest), pre⟩ fuel d0 p0 = some (.success p)) :
    (∀ d ∈ p0.deps, d.rar = false → ∀ s t q, p0.Inst d s t q →
      LexBefore (p.timestamp d.src s q) (p.timestamp d.dest t q)) ∧
    (∀ st ∈ p.stmts, st.trans.length = p.hProps.length ∧ ∀ r ∈ st.trans, r.length = st.dim + p0.npar + 1) ∧
    List.Forall₂ (StmtRestored p0.npar) p0.stmts p.stmts ∧ List.Forall₂ DepRestored p0.deps p.deps ∧
    ∀ i c, InComp comps i c → ∀ x q : List Int, x.length = p0.dim i → q.length = p0.npar →
      (p.timestamp i x q)[0]? = some (c : Int) := by
  have hF : FileGives L.isEmpty ⟨some (fstText comps ++ rest), pre⟩ p0 1 (fstRows p0 (comps.map Prod.fst)) := by
    intro a r g1 g2 g3 g4
    simp only [precut] at g4
    have hr : ∃ a', r = some a' := by
      cases r with
      | some a' => exact ⟨a', rfl⟩
      | none =>
        exfalso
        unfold fstText at g4
        rw [List.cons_append] at g4
        unfold precutFst at g4
        dsimp only at g4
        rw [if_neg (by rw [g1.len]; omega)] at g4
        simp only [Option.bind_eq_bind, Option.bind_eq_some_iff] at g4
        obtain ⟨_, _, _, _, g5⟩ := g4
        simp at g5
    obtain ⟨a', rfl⟩ := hr
    obtain ⟨n, g, l, e1, e2, p4, g5, g6⟩ := fst_given g1 g2 g3 g4
    unfold fstText at e1
    rw [List.cons_append, List.cons.injEq] at e1
    rw [← e1.1, ← e1.2, Int.toNat_natCast] at e2
    have := readComps_text _ _ _ _ e2
    subst this
    exact ⟨p4, a', rfl, g5, g6⟩
  have hcomp : ∀ i < p0.stmts.length, ∀ c, InComp comps i c → ∀ x q : List Int, x.length = p0.dim i → q.length = p0.npar →
      rowTime p0 (fstRows p0 (comps.map Prod.fst)) i x q = [(c : Int)] := by
    intro i hi c hc x q hx hq
    rw [fstRows_time hp _ hi hx hq, compConst_partition hP hc]
  have hleg : ∀ d ∈ p0.deps, d.rar = false → ∀ s t q, p0.Inst d s t q →
      ¬ LexBefore (rowTime p0 (fstRows p0 (comps.map Prod.fst)) d.dest t q) (rowTime p0 (fstRows p0 (comps.map Prod.fst)) d.src s q) := by
    intro d hd hr s t q hi hb
    obtain ⟨b1, b2, _⟩ := hp.deps d hd
    obtain ⟨c, hc⟩ := hP.all d.src b1
    obtain ⟨c', hc'⟩ := hP.all d.dest b2
    rw [hcomp _ b1 c hc s q hi.hs hi.hp, hcomp _ b2 c' hc' t q hi.ht hi.hp] at hb
    have := hord d hd hr ⟨s, t, q, hi⟩ c c' hc hc'
    obtain ⟨l, x, y, e1, e2, e3, _⟩ := hb
    cases l with
    | zero =>
      simp only [List.getElem?_cons_zero, Option.some.injEq] at e1 e2
      omega
    | succ l => simp at e1
  obtain ⟨r1, r2, r3, r4, r5⟩ := files_legal noDiamond _ hE hL fuel d0 p hp noDiamond_ok hF (fstRows_fit p0 _) hleg h hne
  refine ⟨r1, r2, r3, r4, ?_⟩
  intro i c hc x q hx hq
  have hi := hP.ids i c hc
  obtain ⟨z, hz⟩ := r5 rfl i hi x q
  rw [← hz, hcomp i hi c hc x q hx hq]
  rfl

/-- C72 for `.precut` files. If the file fits the program (the same number of rows for every statement), has no coefficients for
parameters and its rows put no dependent pair in the wrong order, a run that reports success returns a legal transformation, of the
right shape, that begins with the rows of the file. Partial: the hypotheses are not checked by the code (`C72_violated_check`,
`C72_violated_params`, `C72_violated_rows`). -/
theorem C72_precut_partial (o : AutoOpts) (L : Libs) (hE : EmptyOracle L.isEmpty) (hL : FeasibleOracle L.solve)
    (fuel : Nat) (d0 : DfsState) (p0 p : Prog) (hp : p0.InputOK) (hne : p0.stmts ≠ [])
    (depth m : Nat) (l : List CutStmt) (rest : List Int) (hl : CutFits p0 depth m l)
    (hpar : ∀ s ∈ l, ∀ r ∈ s.rows, ∀ v ∈ r.params, v = 0)
    (hord : ∀ d ∈ p0.deps, d.rar = false → ∀ s t q, p0.Inst d s t q →
      ¬ LexBefore (fileTime l d.dest t q) (fileTime l d.src s q))
    (h : autoTransformFiles o L noDiamond ⟨none, some (precutText p0 depth l ++ rest)⟩ fuel d0 p0 = some (.success p)) :
    (∀ d ∈ p0.deps, d.rar = false → ∀ s t q, p0.Inst d s t q →
      LexBefore (p.timestamp d.src s q) (p.timestamp d.dest t q)) ∧
    (∀ st ∈ p.stmts, st.trans.length = p.hProps.length ∧ ∀ r ∈ st.trans, r.length = st.dim + p0.npar + 1) ∧
    List.Forall₂ (StmtRestored p0.npar) p0.stmts p.stmts ∧ List.Forall₂ DepRestored p0.deps p.deps ∧
    ∀ i < p0.stmts.length, ∀ x q : List Int, fileTime l i x q <+: p.timestamp i x q := by
  have hF : FileGives L.isEmpty ⟨none, some (precutText p0 depth l ++ rest)⟩ p0 m (cutRowsOf p0 l) := by
    intro a r g1 g2 g3 g4
    simp only [precut] at g4
    obtain ⟨a', g5, rfl⟩ := Option.map_eq_some_iff.mp g4
    obtain ⟨p4, g6, g7⟩ := precut_given hp hne hl g1 g2 g3 g5
    exact ⟨p4, a', rfl, g6, g7⟩
  have hleg : ∀ d ∈ p0.deps, d.rar = false → ∀ s t q, p0.Inst d s t q →
      ¬ LexBefore (rowTime p0 (cutRowsOf p0 l) d.dest t q) (rowTime p0 (cutRowsOf p0 l) d.src s q) := by
    intro d hd hr s t q hi
    obtain ⟨b1, b2, _⟩ := hp.deps d hd
    rw [cutRows_time hp hl hpar b1, cutRows_time hp hl hpar b2]
    exact hord d hd hr s t q hi
  obtain ⟨r1, r2, r3, r4, r5⟩ := files_legal noDiamond _ hE hL fuel d0 p hp noDiamond_ok hF (cutRows_fit hp hl) hleg h hne
  refine ⟨r1, r2, r3, r4, ?_⟩
  intro i hi x q
  rw [← cutRows_time hp hl hpar hi]
  exact r5 rfl i hi x q

/-- C72. Whatever a `.fst` file contains, and for every `.precut` file that fits the program: if failure is reported, schedules,
hyperplane types, domains and dependences are what they were before the call. -/
theorem C72_failure_restores (o : AutoOpts) (L : Libs) (hE : EmptyOracle L.isEmpty) (hL : FeasibleOracle L.solve)
    (fuel : Nat) (d0 : DfsState) (p0 p : Prog) (hp : p0.InputOK) (F : CutFiles)
    (hF : F.fst = none → ∀ f, F.precut = some f → ∃ depth m l rest, CutFits p0 depth m l ∧ f = precutText p0 depth l ++ rest)
    (h : autoTransformFiles o L noDiamond F fuel d0 p0 = some (.failed p)) :
    p.hProps = p0.hProps ∧ p.stmts.map (fun st => (st.trans, st.hypTypes)) = p0.stmts.map (fun st => (st.trans, st.hypTypes)) ∧
    List.Forall₂ (StmtRestored p0.npar) p0.stmts p.stmts ∧ List.Forall₂ DepRestored p0.deps p.deps := by
  refine files_restores noDiamond F hE hL fuel d0 p hp noDiamond_ok ?_ h
  intro a a' g1 g2 g3 g4
  match F, hF, g4 with
  | ⟨some f, pre⟩, _, g4 =>
    simp only [precut] at g4
    obtain ⟨n, g, l, e1, e2, p4, g5, g6⟩ := fst_given g1 g2 g3 g4
    exact ⟨p4, 1, _, fstRows_fit p0 l, g5, g6⟩
  | ⟨none, some f⟩, hF, g4 =>
    obtain ⟨depth, m, l, rest, hl, rfl⟩ := hF rfl f rfl
    simp only [precut] at g4
    obtain ⟨a'', g5, e⟩ := Option.map_eq_some_iff.mp g4
    rw [Option.some.injEq] at e
    subst e
    by_cases hne : p0.stmts = []
    · exfalso
      unfold autoTransformFiles at h
      simp only [Option.bind_eq_bind, Option.bind_eq_some_iff] at h
      obtain ⟨_, _, h⟩ := h
      rw [if_pos hne] at h
      simp at h
    · obtain ⟨p4, g6, g7⟩ := precut_given hp hne hl g1 g2 g3 g5
      exact ⟨p4, m, _, cutRows_fit hp hl, g6, g7⟩
  | ⟨none, none⟩, _, g4 => simp [precut] at g4

/-! ### Runs -/

def exCutRows : List Row := [⟨true, [-1, 1, 0, 0]⟩, ⟨false, [1, 0, 0, -1]⟩, ⟨false, [-1, 0, 1, 0]⟩]

/-- `S0: a[i] = ...`, `S1: b[i] = a[i]`, `1 <= i <= N`, in two loops. -/
def exCut : Prog := ⟨1, 1, [exLoopN, exLoopN], [⟨0, 1, false, ⟨4, exCutRows⟩, ⟨4, exCutRows⟩, false, -1, [], []⟩], []⟩

/-- `n` loops `1 <= i <= N` without dependences. -/
def exFreeLoops (n : Nat) : Prog := ⟨1, 1, List.replicate n exLoopN, [], []⟩

def cutTab : List (Cst × Bool) :=
  [(⟨4, ⟨false, [1, -1, 0, 0]⟩ :: exCutRows⟩, false), (⟨4, ⟨false, [0, 0, 0, 0]⟩ :: exCutRows⟩, false),
   (⟨4, ⟨false, [0, 0, 0, 1]⟩ :: exCutRows⟩, false), (⟨4, ⟨false, [0, 0, 0, -1]⟩ :: exCutRows⟩, true),
   (⟨4, ⟨false, [-1, 1, 0, -1]⟩ :: exCutRows⟩, true), (⟨4, ⟨false, [0, 0, 0, 0]⟩ :: ⟨false, [1, -1, 0, 0]⟩ :: exCutRows⟩, false),
   (⟨4, ⟨false, [0, 0, 0, -1]⟩ :: ⟨false, [1, -1, 0, 0]⟩ :: exCutRows⟩, true),
   (⟨4, ⟨false, [-1, 1, 0, 0]⟩ :: exSelfRows⟩, false), (⟨4, ⟨false, [1, -1, 0, -1]⟩ :: exSelfRows⟩, true)]

theorem cutTab_ok : EmptyOracle (tabOracle cutTab) := by
  refine tabOracle_ok _ ?_
  intro e he
  simp only [cutTab, List.mem_cons, List.not_mem_nil, or_false] at he
  rcases he with rfl | rfl | rfl | rfl | rfl | rfl | rfl | rfl | rfl
  · simp only [Bool.false_eq_true, false_iff, not_not]
    exact ⟨[1, 1, 2], rfl, by decide⟩
  · simp only [Bool.false_eq_true, false_iff, not_not]
    exact ⟨[1, 1, 2], rfl, by decide⟩
  · simp only [Bool.false_eq_true, false_iff, not_not]
    exact ⟨[1, 1, 2], rfl, by decide⟩
  · simp only [true_iff]
    rintro ⟨x, hx, hs⟩
    match x, hx with
    | [a, b, c], _ =>
      have := hs ⟨false, [0, 0, 0, -1]⟩ (by simp)
      simp [Row.Sat, aff, dot] at this
  · simp only [true_iff]
    rintro ⟨x, hx, hs⟩
    match x, hx with
    | [a, b, c], _ =>
      have h1 := hs ⟨false, [-1, 1, 0, -1]⟩ (by simp)
      have h2 := hs ⟨true, [-1, 1, 0, 0]⟩ (by simp [exCutRows])
      simp [Row.Sat, aff, dot] at h1 h2
      omega
  · simp only [Bool.false_eq_true, false_iff, not_not]
    exact ⟨[1, 1, 2], rfl, by decide⟩
  · simp only [true_iff]
    rintro ⟨x, hx, hs⟩
    match x, hx with
    | [a, b, c], _ =>
      have := hs ⟨false, [0, 0, 0, -1]⟩ (by simp)
      simp [Row.Sat, aff, dot] at this
  · simp only [Bool.false_eq_true, false_iff, not_not]
    exact ⟨[1, 2, 2], rfl, by decide⟩
  · simp only [true_iff]
    rintro ⟨x, hx, hs⟩
    match x, hx with
    | [a, b, c], _ =>
      have h1 := hs ⟨false, [1, -1, 0, -1]⟩ (by simp)
      have h2 := hs ⟨true, [-1, 1, 0, -1]⟩ (by simp [exSelfRows])
      simp [Row.Sat, aff, dot] at h1 h2
      omega

noncomputable def cutLibs : Libs :=
  ⟨fun _ rows => if rows = [] then [[1]] else [], tabOracle cutTab, listSolver [[0, 0, 1, 0, 1, 0]]⟩

noncomputable def runFiles (F : CutFiles) (p : Prog) : Option Outcome :=
  autoTransformFiles ⟨⟨true, false, false, false, -1⟩, .max⟩ cutLibs noDiamond F 10 ccDfs p

theorem view_success {r : Option Outcome} {v : List (List (List Int))} (h : Outcome.view r = some (true, v)) :
    ∃ p, r = some (.success p) ∧ p.stmts.map (·.trans) = v := by
  match r, h with
  | some (.success p), h =>
    simp only [Outcome.view, Option.some.injEq, Prod.mk.injEq, true_and] at h
    exact ⟨p, rfl, h⟩

def exComps : List (List Nat × Int) := [([0], 0), ([1], 256)]

theorem exComps_in {i c : Nat} (h : InComp exComps i c) : (i = 0 ∧ c = 0) ∨ (i = 1 ∧ c = 1) := by
  obtain ⟨x, h1, h2⟩ := h
  match c, h1 with
  | 0, h1 =>
    simp only [exComps, List.getElem?_cons_zero, Option.some.injEq] at h1
    subst h1
    simp at h2
    exact .inl ⟨h2, rfl⟩
  | 1, h1 =>
    simp only [exComps, List.getElem?_cons_succ, List.getElem?_cons_zero, Option.some.injEq] at h1
    subst h1
    simp at h2
    exact .inr ⟨h2, rfl⟩
  | c + 2, h1 => simp [exComps] at h1

theorem exComps_partition : Partition 2 exComps := by
  refine ⟨?_, ?_, ?_⟩
  · intro i c h
    rcases exComps_in h with ⟨rfl, _⟩ | ⟨rfl, _⟩ <;> omega
  · intro i hi
    have : i = 0 ∨ i = 1 := by omega
    rcases this with rfl | rfl
    · exact ⟨0, ([0], 0), rfl, by simp⟩
    · exact ⟨1, ([1], 256), rfl, by simp⟩
  · intro i c c' h h'
    rcases exComps_in h with ⟨h1, h2⟩ | ⟨h1, h2⟩ <;> rcases exComps_in h' with ⟨h3, h4⟩ | ⟨h3, h4⟩ <;> omega

/-- The hypotheses of `C72_fst_partial` are met: `S0` and `S1` in two components; the transformation distributes them. Without the file
they are fused. -/
example : EmptyOracle cutLibs.isEmpty ∧ FeasibleOracle cutLibs.solve ∧ exCut.InputOK ∧ Partition exCut.stmts.length exComps ∧
    (∀ d ∈ exCut.deps, ∀ c c', InComp exComps d.src c → InComp exComps d.dest c' → c ≤ c') ∧
    Outcome.view (runFiles ⟨some (fstText exComps), none⟩ exCut) = some (true, [[[0, 0, 0], [1, 0, 0]], [[0, 0, 1], [1, 0, 0]]]) ∧
    Outcome.view (runFiles ⟨none, none⟩ exCut) = some (true, [[[1, 0, 0], [0, 0, 0]], [[1, 0, 0], [0, 0, 1]]]) := by
  refine ⟨cutTab_ok, listSolver_ok _, ⟨by decide, by decide⟩, exComps_partition, ?_, by decide +kernel, by decide +kernel⟩
  intro d hd c c' h1 h2
  simp only [exCut, List.mem_cons, List.not_mem_nil, or_false] at hd
  subst hd
  rcases exComps_in h1 with ⟨a1, a2⟩ | ⟨a1, a2⟩ <;> rcases exComps_in h2 with ⟨a3, a4⟩ | ⟨a3, a4⟩ <;> simp_all

end Pluto
