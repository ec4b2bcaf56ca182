import Verif.Lemmas.PerCcAuto
import Verif.Lemmas.PerCcSum
import Verif.Props.Auto
import Mathlib.Tactic.IntervalCases

/-! C71: `--per-cc-obj`, one bounding function for every connected component of the dependence graph (`autoTransformCc` is
`pluto_auto_transform` with the option; `ccPart` is the bounding function of a component with the hyperplanes, in the layout
of `hypValue` and `boundValue`). -/

namespace Pluto

/-- C71. A vector satisfies the system built for the search exactly if, for every dependence not yet satisfied, the
constraints of the dependence hold with the bounding function of its component. -/
theorem C71_system (rarOpt nodepbound : Bool) (p : Prog) (g : Graph) (s0 : DfsState) (cc : Nat → Int) (ncc : Nat)
    (hcc : ddgComputeCc g s0 = some (cc, ncc)) (hn : g.n = p.stmts.length)
    (hd : ∀ d ∈ p.deps, d.src < p.stmts.length ∧ d.dest < p.stmts.length) (buf : Option (Nat × Nat)) (b : Nat × Nat) (cst : Cst)
    (h : permutabilityCc rarOpt nodepbound p cc ncc buf = some (b, cst)) (sol : List Int) (hl : CcLen p ncc sol) :
    cst.Sat sol ↔ ∀ d ∈ p.deps, (d.rar = true → rarOpt = true) → d.satisfied = false →
      ∃ c < ncc, cc d.src = c ∧ (depCst nodepbound p d).Sat (ccPart p ncc c sol) := by
  have hok := ccOK_of hcc hn
  rw [(permutabilityCc_spec rarOpt nodepbound p hok hd h).2 sol]
  refine forall_congr' fun d => forall_congr' fun hm => forall_congr' fun _ => forall_congr' fun _ => ?_
  obtain ⟨c, hc, hlt⟩ := hok d.src (hd d hm).1
  rw [depCstCc_sat nodepbound p cc ncc c d (hd d hm).1 (hd d hm).2 hc hlt sol hl]
  constructor
  · exact fun h => ⟨c, hlt, hc, h⟩
  · rintro ⟨c', _, hc', h⟩
    rw [hc, Nat.cast_inj] at hc'
    rwa [hc']

/-- C71. Every vector satisfying the system describes hyperplanes that no unsatisfied dependence is violated by, and whose
distance over a dependence is at most the value of the bounding function of the component of its source. -/
theorem C71_bounds (rarOpt : Bool) (p : Prog) (g : Graph) (s0 : DfsState) (cc : Nat → Int) (ncc : Nat)
    (hcc : ddgComputeCc g s0 = some (cc, ncc)) (hn : g.n = p.stmts.length) (hp : ∀ d ∈ p.deps, DepOK p d)
    (buf : Option (Nat × Nat)) (b : Nat × Nat) (cst : Cst) (h : permutabilityCc rarOpt false p cc ncc buf = some (b, cst))
    (sol : List Int) (hl : CcLen p ncc sol) (hz : ∀ c < ncc, PadZero p (ccPart p ncc c sol)) (hs : cst.Sat sol)
    (d : Dep) (hd : d ∈ p.deps) (hr : d.rar = true → rarOpt = true) (hu : d.satisfied = false) (c : Nat) (hc : cc d.src = c) :
    (d.rar = false → ∀ s t q, DepInst d.dpoly p.nvar p.nvar p.npar s t q →
      hypValue p.nvar p.npar (ccPart p ncc c sol) d.src s ≤ hypValue p.nvar p.npar (ccPart p ncc c sol) d.dest t) ∧
    (∀ s t q, DepInst d.bpoly p.nvar p.nvar p.npar s t q →
      hypValue p.nvar p.npar (ccPart p ncc c sol) d.dest t - hypValue p.nvar p.npar (ccPart p ncc c sol) d.src s ≤
        boundValue p.npar (ccPart p ncc c sol) q) := by
  obtain ⟨c', hlt, hc', hsat⟩ := (C71_system rarOpt false p g s0 cc ncc hcc hn (fun d h => ⟨(hp d h).src, (hp d h).dest⟩) buf b cst h sol hl).mp
    hs d hd hr hu
  have : c' = c := by rw [hc, Nat.cast_inj] at hc'; exact hc'.symm
  subst this
  refine ⟨fun hrar s t q hi => ?_, fun s t q hi => ?_⟩
  · have := C07_dep_legal false p d _ (hp d hd) hrar (ccPart_len hl hlt) (hz c' hlt) hsat s t q hi
    omega
  · exact C08_dep_bounded p d _ (hp d hd) (ccPart_len hl hlt) (hz c' hlt) hsat s t q hi

/-- C71. The hyperplanes described by a vector are the same whichever component is put in front. -/
theorem C71_same_hyperplanes (p : Prog) (ncc : Nat) (sol : List Int) (hl : CcLen p ncc sol) (c c' : Nat) (hc : c < ncc) (hc' : c' < ncc)
    (i : Nat) : hyperplaneRow p.nvar p.npar (ccPart p ncc c sol) i = hyperplaneRow p.nvar p.npar (ccPart p ncc c' sol) i := by
  rw [hyperplaneRow_part hl hc, hyperplaneRow_part hl hc']

/-- C71 (partial). If the automatic transformation with `--per-cc-obj` succeeds then every non-input dependence is respected
by the schedules, whatever points of its systems the solver returned; dimensions, domains and dependences are those of
the input.
Missing: runs that fail an assertion or write outside a row (`C71_violated_growth`, `C71_violated_diamond`), diamond tiling. -/
theorem C71_legal_partial (o : AutoOpts) (L : Libs) (hE : EmptyOracle L.isEmpty) (hL : FeasibleOracle L.solve)
    (fuel : Nat) (d0 : DfsState) (p0 p : Prog) (hp : p0.InputOK)
    (h : autoTransformCc o L noDiamond fuel d0 p0 = some (.success p)) :
    (∀ d ∈ p0.deps, d.rar = false → ∀ s t q, p0.Inst d s t q →
      LexBefore (p.timestamp d.src s q) (p.timestamp d.dest t q)) ∧
    (p0.stmts ≠ [] → ∀ st ∈ p.stmts, st.trans.length = p.hProps.length ∧
      ∀ r ∈ st.trans, r.length = st.dim + p0.npar + 1) ∧
    List.Forall₂ (StmtRestored p0.npar) p0.stmts p.stmts ∧ List.Forall₂ DepRestored p0.deps p.deps :=
  autoWith_legal noDiamond o L hE none fuel d0 p0 p hp (fun _ hk => searchCc_ok o.toSearchOpts L hL hk) noDiamond_ok h

/-- C71. If it reports failure, schedules, hyperplane types, domains and dependences are what they were before the call. -/
theorem C71_failure_restores (o : AutoOpts) (L : Libs) (hE : EmptyOracle L.isEmpty) (hL : FeasibleOracle L.solve)
    (fuel : Nat) (d0 : DfsState) (p0 p : Prog) (hp : p0.InputOK)
    (h : autoTransformCc o L noDiamond fuel d0 p0 = some (.failed p)) :
    p.hProps = p0.hProps ∧ p.stmts.map (fun st => (st.trans, st.hypTypes)) = p0.stmts.map (fun st => (st.trans, st.hypTypes)) ∧
    List.Forall₂ (StmtRestored p0.npar) p0.stmts p.stmts ∧ List.Forall₂ DepRestored p0.deps p.deps :=
  autoWith_restores noDiamond o L hE none fuel d0 p0 p hp (fun _ hk => searchCc_ok o.toSearchOpts L hL hk) noDiamond_ok h

/-! ### The sum of the bounding functions -/

/-- C71 (partial). Without parameters the rows of `get_per_cc_obj_sum_constraints` say that the first entry is at least the
sum of the bounds of all components. With parameters they do not: `C71_violated_sum`. -/
theorem C71_sum_partial (p : Prog) (ncc : Nat) (sol : List Int) (hl : CcLen p ncc sol) (h0 : p.npar = 0) :
    (objSumCst p ncc).Sat sol ↔ SumBounded p ncc sol := by
  rw [objSum_sat p ncc sol hl (by rw [hl, h0]; omega)]
  unfold SumBounded
  rw [h0]
  refine forall_congr' fun i => forall_congr' fun hi => ?_
  have : i = 0 := by omega
  subst this
  have : ∀ c, 0 + 1 + c = (0 + 1) * (c + 1) + 0 := by intro c; omega
  simp only [this]

/-- C71. What the rows say in general: entry `i` is at least the sum of the `num_ccs` entries after it. -/
theorem C71_sum_rows (p : Prog) (ncc : Nat) (sol : List Int) (hl : CcLen p ncc sol) :
    (objSumCst p ncc).Sat sol ↔ ∀ i ≤ p.npar, ∑ j ∈ Finset.range ncc, sol.getD (i + 1 + j) 0 ≤ sol.getD i 0 := by
  refine objSum_sat p ncc sol hl ?_
  rw [hl]
  have : (p.npar + 1) * (ncc + 1) = p.npar * ncc + ncc + (p.npar + 1) := by ring
  omega

/-- The program with two independent recurrences `S0: a[i] = a[i-1]`, `S1: b[i] = b[i-1]`, `1 <= i <= N`. -/
def exSelf (s : Nat) : Dep :=
  ⟨s, s, false, ⟨4, [⟨true, [-1, 1, 0, -1]⟩, ⟨false, [1, 0, 0, -1]⟩, ⟨false, [0, -1, 1, 0]⟩]⟩,
    ⟨4, [⟨true, [-1, 1, 0, -1]⟩, ⟨false, [1, 0, 0, -1]⟩, ⟨false, [0, -1, 1, 0]⟩]⟩, false, -1, [], []⟩

def exLoopN : Stmt := ⟨1, 1, ⟨3, [⟨false, [1, 0, -1]⟩, ⟨false, [-1, 1, 0]⟩]⟩, [true], [], []⟩

def exInd : Prog := ⟨1, 1, [exLoopN, exLoopN], [exSelf 0, exSelf 1], []⟩

/-- C71 violated: with a parameter, the rows of `get_per_cc_obj_sum_constraints` neither imply that the first entries are at
least the sums nor are implied by it. In the second vector all bounding functions are the constant 1; the coefficient of the
parameter in their sum is 0, but the rows ask for 1 at least. -/
theorem C71_violated_sum :
    ¬ ∀ (p : Prog) (ncc : Nat) (sol : List Int), CcLen p ncc sol → ((objSumCst p ncc).Sat sol ↔ SumBounded p ncc sol) := by
  intro h
  have := (h exInd 2 [0, 2, 0, 1, 0, 1, 1, 0, 1, 0] rfl).mpr (by unfold SumBounded; decide)
  exact absurd this (by decide)

theorem C71_violated_sum_lost :
    ∃ (p : Prog) (ncc : Nat) (sol : List Int), CcLen p ncc sol ∧ (objSumCst p ncc).Sat sol ∧ ¬ SumBounded p ncc sol :=
  ⟨exInd, 2, [1, 1, 0, 1, 0, 1, 1, 0, 1, 0], rfl, by decide, by unfold SumBounded; decide⟩

/-! ### Memory of the global system -/

/-- C71 (partial). The first call builds its system, and so does every later one as long as the number of components is
not larger than at some earlier call; the columns allocated then stay enough. -/
theorem C71_columns_partial (rarOpt nodepbound : Bool) (p : Prog) (g : Graph) (s0 : DfsState) (cc : Nat → Int) (ncc : Nat)
    (hcc : ddgComputeCc g s0 = some (cc, ncc)) (hn : g.n = p.stmts.length)
    (hd : ∀ d ∈ p.deps, d.src < p.stmts.length ∧ d.dest < p.stmts.length) (buf : Option (Nat × Nat))
    (hb : ∀ b, buf = some b → (p.npar + 1) * ncc + cstWidth p.nvar p.npar p.stmts.length ≤ b.2) :
    ∃ b cst, permutabilityCc rarOpt nodepbound p cc ncc buf = some (b, cst) ∧
      (p.npar + 1) * ncc + cstWidth p.nvar p.npar p.stmts.length ≤ b.2 :=
  permutabilityCc_some rarOpt nodepbound p (ccOK_of hcc hn) hd buf hb

end Pluto
