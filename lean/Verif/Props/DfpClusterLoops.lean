import Verif.Lemmas.DfpClusterFull
import Verif.Props.DfpCluster

/-! C75, continued: programs whose statements all have the same number of loops. Then the colours of a component are never
forgotten (compare `C75_violated`). `ClFcgOracle` (what is assumed about the fusion conflict graph):
Verif/Spec/DfpCluster.lean; `LoopRow`: Verif/Spec/Dfp.lean. -/

namespace Pluto

section
variable (o : AutoOpts) (co : ClOpts) (L : Libs) (lex : Lex) (hE : EmptyOracle L.isEmpty)
  (fcgOf : ClBuild) (hF : ClFcgOracle fcgOf) (sten : Auto → Nat → Bool) (fuel : Nat) (d0 : DfsState) (p0 p : Prog)
  (hL : LexScales p0 lex) (hp : p0.InputOK) (hne : p0.stmts ≠ [])
  (hd : ∀ st ∈ p0.stmts, st.dimOrig = p0.nvar) (hdep : ∀ d ∈ p0.deps, ∃ s t q, p0.Inst d s t q)
  (h : clTransform o co L lex fcgOf sten (quietSkew o.toSearchOpts L lex) fuel d0 p0 = some p)
include hE hF hL hp hne hd hdep h

/-- C75 (missing: runs that introduce a skew, statements with different numbers of loops). If all statements have the same
number of loops and no dependence is empty, the result is a permutation of the loops up to scaling and shifting: for
each loop of each statement there is a schedule row that is a positive multiple of that loop (plus a shift). -/
theorem C75_loops_partial (i : Nat) (st : Stmt) (hst : p.stmts[i]? = some st) (j : Nat) (hj : j < st.dim) :
    ∃ r ∈ st.trans, LoopRow st.dim r j := by
  obtain ⟨k, q, hi, hpad, hden, hord, hloop⟩ := cl_run_full hE hL hF (fun k hk => quietSkew_keeps hE k hk) hp hne hd hdep h
  refine (run_out (P := True) hp hi hpad hden hord (fun _ => ?_)).2.2.2 trivial i st hst j hj
  intro i st hst j hj
  have hi := (List.getElem?_eq_some_iff.mp hst).1
  refine hloop i hi j (lt_of_lt_of_le hj ?_)
  exact (hp.stmts st (List.mem_of_getElem? hst)).2.1

/-- C75. So no two instances of a statement get the same timestamp. -/
theorem C75_injective_partial (i : Nat) (hi : i < p0.stmts.length) (x y q : List Int)
    (hx : x.length = p0.dim i) (hy : y.length = p0.dim i) (he : p.timestamp i x q = p.timestamp i y q) : x = y := by
  have h4 := C75_loops_partial o co L lex hE fcgOf hF sten fuel d0 p0 p hL hp hne hd hdep h
  obtain ⟨h1, h2⟩ := cl_shape hE hL hp hne (C75_quiet o co L lex hE fcgOf sten fuel d0 p0 p hL hp hne h)
  have hil : i < p.stmts.length := by rw [h1.len]; exact hi
  have hst := List.getElem?_eq_getElem hil
  have hdim : (p.stmts[i]).dim = p0.dim i := by rw [← Prog.dim_of hst, h1.dim hi]
  have hc : ∀ j < p0.dim i, coef x j = coef y j := by
    intro j hj
    obtain ⟨r, hr, hl⟩ := h4 i _ hst j (by rw [hdim]; exact hj)
    rw [hdim] at hl
    refine loopRow_aff (v := q) hl hj ?_ hx hy ?_
    · have := (h2 _ (List.getElem_mem hil)).2 r hr
      omega
    · unfold Prog.timestamp at he
      rw [hst, Option.map_some, Option.getD_some] at he
      exact (List.map_inj_left.mp he) r hr
  apply List.ext_getElem (hx.trans hy.symm)
  intro j g1 g2
  have := hc j (by omega)
  simpa [coef, g1, g2] using this

/-- C75. A dependence of a statement on itself is always respected (between different instances). -/
theorem C75_self_partial (d : Dep) (hdm : d ∈ p0.deps) (hr : d.rar = false)
    (hself : d.src = d.dest) (s t q : List Int) (hi : p0.Inst d s t q) (hst : s ≠ t) :
    LexBefore (p.timestamp d.src s q) (p.timestamp d.dest t q) := by
  obtain ⟨j, hj, rfl⟩ := List.getElem_of_mem hdm
  rcases C75_order_partial o co L lex hE fcgOf sten fuel d0 p0 p hL hp hne h j _ (List.getElem?_eq_getElem hj) hr s t q hi with h1 | h1
  · exact h1
  · exfalso
    apply hst
    have h2 := h1.1
    rw [← hself] at h2
    refine C75_injective_partial o co L lex hE fcgOf hF sten fuel d0 p0 p hL hp hne hd hdep h _ (hp.deps _ hdm).1 s t q hi.hs ?_ h2
    rw [hself]
    exact hi.ht

/-- C75. If no two different statements depend on each other (directly or through others) and no instance depends on
itself, then the result is legal. -/
theorem C75_legal_partial
    (hac : ∀ d ∈ p0.deps, d.rar = false → d.src ≠ d.dest → ¬ DepChain p0 d.dest d.src)
    (hself : ∀ d ∈ p0.deps, d.rar = false → d.src = d.dest → ∀ s q, ¬ p0.Inst d s s q) :
    ∀ d ∈ p0.deps, d.rar = false → ∀ s t q, p0.Inst d s t q →
      LexBefore (p.timestamp d.src s q) (p.timestamp d.dest t q) := by
  intro d hdm hr s t q hi
  by_cases e : d.src = d.dest
  · refine C75_self_partial o co L lex hE fcgOf hF sten fuel d0 p0 p hL hp hne hd hdep h d hdm hr e s t q hi ?_
    rintro rfl
    exact hself d hdm hr e s q hi
  · obtain ⟨j, hj, rfl⟩ := List.getElem_of_mem hdm
    rcases C75_order_partial o co L lex hE fcgOf sten fuel d0 p0 p hL hp hne h j _ (List.getElem?_eq_getElem hj) hr s t q hi with h1 | h1
    · exact h1
    · exact absurd h1.2.1 (hac _ hdm hr e)

end

/-! ### Runs -/

/-- A fusion conflict graph in which no two loops can be fused. -/
def allConflicts (a : Auto) (_ : List Nat) (_ : Nat) (_ _ : Nat → Bool) : ClFcg :=
  ⟨⟨a.clSize, fun u v => if u = v then 0 else 1⟩, fun _ _ => 0, fun _ => false⟩

theorem allConflicts_ok : ClFcgOracle allConflicts := by
  intro a colour c _ _
  refine ⟨rfl, fun s _ j _ j' _ hne => ?_⟩
  show (if a.sccOffset s + j = a.sccOffset s + j' then 0 else 1) = 1
  rw [if_neg (by omega)]

def fwdEmpties : List Cst := cycEmpties ++ [⟨5, ⟨false, [0, 0, 0, 0, -1]⟩ :: cycDep0⟩, ⟨5, ⟨false, [0, 0, 0, 0, -2]⟩ :: cycDep0⟩]

noncomputable def fwdLibs : Libs := { cycLibs with isEmpty := certOracle [[0, 0, 0, 0], [0, 0, 0, 1], [0, 0, 1, 0]] fwdEmpties }

theorem fwdLibs_ok : EmptyOracle fwdLibs.isEmpty := by
  refine certOracle_ok _ _ ?_
  rintro c hc ⟨x, hx, hs⟩
  simp only [fwdEmpties, cycEmpties, List.cons_append, List.nil_append, List.mem_cons, List.not_mem_nil, or_false] at hc
  rcases hc with rfl | rfl | rfl | rfl | rfl | rfl | rfl | rfl <;>
  · match x, hx with
    | [i, j, i', j'], _ =>
      simp [Cst.Sat, Row.Sat, cycDep0, cycDep1, cycBoxS, cycBoxT, aff, dot] at hs
      try omega

/-- The search with `--clusterscc` for the two-dimensional examples. -/
noncomputable def cycRunOf (p0 : Prog) : Option Prog :=
  clTransform ⟨⟨true, true, false, true, -1⟩, .smart⟩ ⟨false, false, false, true⟩ fwdLibs (lexIlp ⟨true, true, false, true, -1⟩ fwdLibs)
    allConflicts (fun _ _ => false) (quietSkew ⟨true, true, false, true, -1⟩ fwdLibs (lexIlp ⟨true, true, false, true, -1⟩ fwdLibs)) 20
    ⟨fun _ => 0, fun _ => 0, fun _ => 0, 0⟩ p0

theorem fwdLibs_solve : FeasibleOracle fwdLibs.solve := listSolver_ok _

/-- The hypotheses of the theorems above (and of `C75_order_partial`) are met by the run for `exCyc`, in which all
statements form one component. -/
example : EmptyOracle fwdLibs.isEmpty ∧ FeasibleOracle fwdLibs.solve ∧ ClFcgOracle allConflicts ∧ exCyc.InputOK ∧
    LexScales exCyc (lexIlp ⟨true, true, false, true, -1⟩ fwdLibs) ∧
    (∀ st ∈ exCyc.stmts, st.dimOrig = exCyc.nvar) ∧ (∀ d ∈ exCyc.deps, ∃ s t q, exCyc.Inst d s t q) ∧
    (cycRunOf exCyc).map (fun p => p.stmts.map (·.trans)) = some [[[1, 0, 0], [0, 1, 0]], [[1, 0, 0], [0, 1, 0]]] := by
  refine ⟨fwdLibs_ok, fwdLibs_solve, allConflicts_ok, ⟨by decide, by decide⟩, lexIlp_scales fwdLibs_solve _, by decide, ?_, by decide +kernel⟩
  intro d hd
  simp only [exCyc, List.mem_cons, List.not_mem_nil, or_false] at hd
  rcases hd with rfl | rfl
  · exact ⟨[0, 0], [0, 0], [], rfl, rfl, rfl, by decide⟩
  · exact ⟨[0, 0], [0, 1], [], rfl, rfl, rfl, by decide⟩

/-- `exCyc` without the dependences of `S0` on `S1`. -/
def exFwd : Prog := { exCyc with deps := exCyc.deps.take 1 }

/-- The hypotheses of `C75_acyclic_partial`, `C75_marked_partial` and `C75_legal_partial` are met by the run for `exFwd`. -/
example : exFwd.InputOK ∧ LexScales exFwd (lexIlp ⟨true, true, false, true, -1⟩ fwdLibs) ∧
    (∀ st ∈ exFwd.stmts, st.dimOrig = exFwd.nvar) ∧ (∀ d ∈ exFwd.deps, ∃ s t q, exFwd.Inst d s t q) ∧
    (∀ d ∈ exFwd.deps, d.rar = false → ¬ DepChain exFwd d.dest d.src) ∧
    (cycRunOf exFwd).map (fun p => (p.stmts.map (·.trans), p.deps.map (·.satisfied))) =
      some ([[[0, 0, 0], [1, 0, 0], [0, 1, 0]], [[0, 0, 1], [1, 0, 0], [0, 1, 0]]], [true]) := by
  refine ⟨⟨by decide, by decide⟩, lexIlp_scales fwdLibs_solve _, by decide, ?_, ?_, by decide +kernel⟩
  · intro d hd
    simp only [exFwd, exCyc, List.take, List.mem_cons, List.not_mem_nil, or_false] at hd
    rw [hd]
    exact ⟨[0, 0], [0, 0], [], rfl, rfl, rfl, by decide⟩
  · intro d hd _ hch
    simp only [exFwd, exCyc, List.take, List.mem_cons, List.not_mem_nil, or_false] at hd
    rw [hd] at hch
    have hch : DepChain exFwd 1 0 := hch
    rcases Relation.ReflTransGen.cases_head hch with e | ⟨x, ⟨d', hd', _, h1, _⟩, _⟩
    · cases e
    · simp only [exFwd, exCyc, List.take, List.mem_cons, List.not_mem_nil, or_false] at hd'
      rw [hd'] at h1
      cases h1

/-- C75. Equal numbers of loops do not help statements that depend on each other: as in `C56_violated`, all instances
`S0(i,j)` and `S1(i,j)` of `exCyc` get the same timestamp although one depends on the other. -/
theorem C75_violated_cycle : exCyc.InputOK ∧ ∃ p, cycRunOf exCyc = some p ∧ exCyc.Inst (exCyc.deps[0]) [1, 1] [1, 1] [] ∧
    p.timestamp 0 [1, 1] [] = p.timestamp 1 [1, 1] [] := by
  refine ⟨⟨by decide, by decide⟩, ?_⟩
  have hrun : (cycRunOf exCyc).map (fun p => p.stmts.map (·.trans)) = some [[[1, 0, 0], [0, 1, 0]], [[1, 0, 0], [0, 1, 0]]] := by decide +kernel
  obtain ⟨p, h1, h2⟩ := Option.map_eq_some_iff.mp hrun
  refine ⟨p, h1, ⟨rfl, rfl, rfl, by decide⟩, ?_⟩
  unfold Prog.timestamp
  rw [← List.getElem?_map, ← List.getElem?_map, h2]
  rfl

end Pluto
