import Verif.Props.DfpClusterLoops
import Verif.Lemmas.DfpClusterFull
import Verif.Lemmas.FcgCluster4

/-! C75: what `rebuild_scc_cluster_fcg` carries over to the new components. -/

namespace Pluto

theorem reach_of_sub {g g' : Graph} (h : ∀ i j, g'.Edge i j → g.Edge i j) {i j : Nat} (hr : g'.Reach i j) : g.Reach i j := by
  induction hr with
  | refl => exact .refl
  | tail _ h2 ih => exact .tail ih (h _ _ h2)

/-- Statements that are in the same component after the update were in the same one before. -/
theorem rebuild_refines {a a' : Auto} (hs : ∀ i j, i < a.g.n → j < a.g.n → a.g.Reach i j → a.g.Reach j i → a.scc i = a.scc j)
    (he : ∀ i j, (ddgUpdate a.g a.p).Edge i j → a.g.Edge i j)
    (h : ({ a with g := ddgUpdate a.g a.p } : Auto).computeScc = some a') (i j : Nat) (hi : i < a.g.n) (hj : j < a.g.n)
    (hij : a'.scc i = a'.scc j) : a.scc i = a.scc j := by
  obtain ⟨e1, e2, s, hs', e3, e4⟩ := computeScc_eq h
  obtain ⟨s', hs'', h1, -, -⟩ := C14_scc (ddgUpdate a.g a.p) a.d
  rw [show ddgComputeScc (ddgUpdate a.g a.p) a.d = some s from hs'] at hs''
  cases hs''
  rw [← e3] at hij
  obtain ⟨r1, r2⟩ := (h1 i j hi hj).mp hij
  exact hs i j hi hj (reach_of_sub he r1) (reach_of_sub he r2)

theorem sccStmts_self {a : Auto} {i : Nat} (hi : i < a.p.stmts.length) (h0 : 0 ≤ a.scc i) : i ∈ a.sccStmts (a.scc i).toNat := by
  unfold Auto.sccStmts
  rw [List.mem_filter]
  exact ⟨List.mem_range.mpr hi, decide_eq_true (by omega)⟩

theorem firstStmt_mem {a : Auto} {k i : Nat} (h : i ∈ a.sccStmts k) : a.firstStmt k ∈ a.sccStmts k := by
  unfold Auto.firstStmt
  cases e : a.sccStmts k with
  | nil => rw [e] at h; simp at h
  | cons x l => simp

/-- The colour list of the components, read at a component and one of its loops. -/
theorem sccColours_at (a : Auto) (sc : Nat → Nat → Nat) (s j : Nat) (hs : s < a.num) (hj : j < a.width s) :
    colourOf (sccColours a sc) (a.sccOffset s + j) = sc (a.colourStmt s) j := by
  unfold colourOf sccColours Auto.sccOffset
  have key : ∀ n, s < n → ((List.range n).flatMap (fun s => (List.range (a.width s)).map (fun j => sc (a.colourStmt s) j))).getD
      (((List.range s).map a.width).sum + j) 0 = sc (a.colourStmt s) j := by
    intro n hn
    obtain ⟨m, rfl⟩ := Nat.exists_eq_add_of_lt hn
    have hlen : ((List.range s).flatMap (fun s => (List.range (a.width s)).map (fun j => sc (a.colourStmt s) j))).length =
        ((List.range s).map a.width).sum := by
      rw [List.length_flatMap]
      congr 1
      apply List.map_congr_left
      intro x _
      simp
    rw [show s + m + 1 = s + (1 + m) by omega, List.range_add, List.flatMap_append, List.getD_eq_getElem?_getD, List.getElem?_append_right (by omega),
      hlen, Nat.add_sub_cancel_left, show 1 + m = m + 1 by omega, List.range_succ_eq_map, List.map_cons, List.flatMap_cons,
      List.getElem?_append_left (by simpa using hj)]
    simp [hj]
  exact key a.num hs

/-- C75. Rebuilding the clustered fusion conflict graph in the middle of a level (`rebuild_scc_cluster_fcg`): dependences
are only lost, so that every new component lies within an old one, and each statement keeps what is known about its
component: whether it has a parallel hyperplane, whether it is a stencil. The colours of its loops stay the same, too,
provided the statement that stands for the new component has all loops of that component. (`C75_violated` is a case in
which it does not.) The program does not change. -/
theorem C75_rebuild_partial (fcgOf : ClBuild) (c : Nat) (d d' : Cl) (h : Cl.rebuildFcg fcgOf c d = some d')
    (hn : d.a.g.n = d.a.p.stmts.length)
    (hs : ∀ i j, i < d.a.g.n → j < d.a.g.n → d.a.g.Reach i j → d.a.g.Reach j i → d.a.scc i = d.a.scc j)
    (he : ∀ e ∈ d.a.p.deps, e.satisfied = false → e.rar = false → d.a.g.adj e.src e.dest ≠ 0)
    (i : Nat) (hi : i < d.a.p.stmts.length) :
    d'.a.p = d.a.p ∧ d'.hasPar (d'.a.scc i).toNat = d.hasPar (d.a.scc i).toNat ∧
    d'.stencil (d'.a.scc i).toNat = d.stencil (d.a.scc i).toNat ∧
    (∀ k, d'.a.scc i = d'.a.scc k → k < d.a.p.stmts.length → d.a.scc i = d.a.scc k) ∧
    ((∀ st, d.a.p.stmts[d'.a.colourStmt (d'.a.scc i).toNat]? = some st → d'.a.width (d'.a.scc i).toNat ≤ st.dimOrig) →
      ∀ j < d'.a.width (d'.a.scc i).toNat, colourOf d'.colour (d'.a.sccOffset (d'.a.scc i).toNat + j) =
        colourOf d.colour (d.a.sccOffset (d.a.scc i).toNat + j)) := by
  unfold Cl.rebuildFcg at h
  rw [Option.bind_eq_bind, Option.bind_eq_some_iff] at h
  obtain ⟨a1, h1, h2⟩ := h
  simp only [Option.pure_def, Option.some.injEq] at h2
  subst h2
  simp only
  have hg : ∀ i j, (ddgUpdate d.a.g d.a.p).Edge i j → d.a.g.Edge i j := by
    rintro i j ⟨g1, g2, g3⟩
    have g3 : countDeps d.a.p.deps (fun _ _ => 0) i j ≠ 0 := g3
    rw [countDeps_spec, Nat.zero_add] at g3
    obtain ⟨e, hd, hh⟩ := List.countP_pos_iff.mp (Nat.pos_of_ne_zero g3)
    simp only [Bool.and_eq_true, beq_iff_eq, Bool.not_eq_true'] at hh
    refine ⟨g1, g2, ?_⟩
    rw [← hh.1.1.1, ← hh.1.1.2]
    exact he e hd (by first | exact hh.2 | exact hh.1.2) (by first | exact hh.1.2 | exact hh.2)
  have href := rebuild_refines hs hg h1
  obtain ⟨e1, e2, hb, -⟩ := scc_facts h1
  have hb' := hb i (show i < d.a.g.n by omega)
  have e1' : a1.p = d.a.p := e1
  have hmem := sccStmts_self (a := a1) (i := i) (by rw [e1']; exact hi) hb'.1
  have hf := mem_sccStmts.mp (firstStmt_mem hmem)
  have hcs := mem_sccStmts.mp (colourStmt_mem (List.ne_nil_of_mem hmem))
  rw [e1', Int.toNat_of_nonneg hb'.1] at hf hcs
  have q1 := href i _ (by omega) (by omega) hf.2.symm
  have q2 := href i _ (by omega) (by omega) hcs.2.symm
  refine ⟨e1', by rw [q1], by rw [q1], fun k hk hkl => href i k (by omega) (by omega) hk, ?_⟩
  intro hw j hj
  rw [sccColours_at a1 _ _ _ (by omega) hj]
  unfold stmtColour
  obtain ⟨st, hst⟩ : ∃ st, d.a.p.stmts[a1.colourStmt (a1.scc i).toNat]? = some st := ⟨_, List.getElem?_eq_getElem hcs.1⟩
  rw [hst, Option.map_some, Option.getD_some, if_pos (lt_of_lt_of_le hj (hw st hst)), q2]

/-- Two statements with two loops each that depended on each other; the dependence from the second to the first is
satisfied by now. The component is parallel, its first loop has colour 1. -/
def exRebuild : Cl where
  a := ⟨⟨2, 0, List.replicate 2 ⟨2, 2, ⟨3, []⟩, [true, true], [], []⟩,
      [⟨0, 1, false, ⟨5, []⟩, ⟨5, []⟩, false, -1, [], []⟩, ⟨1, 0, false, ⟨5, []⟩, ⟨5, []⟩, true, 0, [], []⟩], []⟩,
    ⟨2, fun i j => if i = j then 0 else 1⟩, ⟨fun _ => 0, fun _ => 0, fun _ => 0, 0⟩, fun _ => 0, 1⟩
  f := ⟨⟨2, fun _ _ => 0⟩, fun _ _ => 0, fun _ => false⟩
  colour := [1, 0]
  coloured := 1
  rebuild := true
  done := fun _ => false
  hasPar := fun s => s == 0
  stencil := fun _ => false

/-- C75, a case for `C75_rebuild_partial`: two components now, both with a parallel hyperplane, and the first loops keep
their colour. -/
example : (Cl.rebuildFcg (fun _ _ _ _ _ => exRebuild.f) 2 exRebuild).map (fun d => (d.a.scc 0, d.a.scc 1, d.hasPar 0, d.hasPar 1, d.colour)) =
      some (0, 1, true, true, [1, 0, 1, 0]) ∧ exRebuild.a.g.n = exRebuild.a.p.stmts.length ∧
    (∀ i j, i < exRebuild.a.g.n → j < exRebuild.a.g.n → exRebuild.a.g.Reach i j → exRebuild.a.g.Reach j i → exRebuild.a.scc i = exRebuild.a.scc j) ∧
    (∀ e ∈ exRebuild.a.p.deps, e.satisfied = false → e.rar = false → exRebuild.a.g.adj e.src e.dest ≠ 0) :=
  ⟨by decide +kernel, rfl, fun _ _ _ _ _ _ => rfl, by decide⟩

end Pluto
