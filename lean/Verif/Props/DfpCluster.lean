import Verif.Lemmas.DfpClusterRun
import Verif.Props.Dfp

/-! C75: the automatic transformation with `--dfp --clusterscc` and typed fusion (`clTransform` is `pluto_auto_transform`
with these options). The fusion conflict graphs `fcgOf`, the stencil test `sten` and the number `fuel` of visits of
components that is allowed at a level are arbitrary. `LexScales` (what is assumed about the solver), `DepChain`:
Verif/Spec/Dfp.lean; `LexBefore`, `Prog.timestamp`: Verif/Spec/Auto.lean. `dfpSkew`, `quietSkew`
(Verif/Model/Skew.lean): the call of `introduce_skew`; the second stands for calls that introduce no skew. -/

namespace Pluto

section
variable (o : AutoOpts) (co : ClOpts) (L : Libs) (lex : Lex) (hE : EmptyOracle L.isEmpty)
  (fcgOf : ClBuild) (sten : Auto → Nat → Bool) (fuel : Nat) (d0 : DfsState) (p0 p : Prog)
  (hL : LexScales p0 lex) (hp : p0.InputOK) (hne : p0.stmts ≠ [])
  (h : clTransform o co L lex fcgOf sten (quietSkew o.toSearchOpts L lex) fuel d0 p0 = some p)
include hE hL hp hne h

/-- C75 (missing: runs that introduce a skew, and an order for the instances of statements that depend on each other, see
`C75_violated`). Whatever the fusion conflict graphs look like and whichever components are parallel: in the result,
the source of a dependent pair of instances comes before its target, or the two have the same timestamp. The latter
happens only to dependences that are part of a cycle of dependences and that are marked as not satisfied in the result. -/
theorem C75_order_partial (j : Nat) (d : Dep) (hd : p0.deps[j]? = some d) (hr : d.rar = false) (s t q : List Int)
    (hi : p0.Inst d s t q) :
    LexBefore (p.timestamp d.src s q) (p.timestamp d.dest t q) ∨
      (p.timestamp d.src s q = p.timestamp d.dest t q ∧ DepChain p0 d.dest d.src ∧
        p.deps[j]?.map (·.satisfied) = some false) := by
  obtain ⟨k, q', hi', hpad, hden, hord⟩ := cl_run hE hL (fun k hk => quietSkew_keeps hE k hk) hp hne h
  exact (run_out (P := False) hp hi' hpad hden hord (fun h => h.elim)).2.2.1 j d hd hr s t q hi

/-- C75. A run without skew is a run of `pluto_auto_transform`. -/
theorem C75_quiet : clTransform o co L lex fcgOf sten (dfpSkew o.toSearchOpts L lex) fuel d0 p0 = some p := by
  clear hE hL hp
  unfold clTransform at h ⊢
  simp only [Option.bind_eq_bind] at h ⊢
  obtain ⟨a, h1, h⟩ := Option.bind_eq_some_iff.mp h
  rw [h1, Option.bind_some]
  rw [if_neg hne] at h ⊢
  obtain ⟨d, h2, h⟩ := Option.bind_eq_some_iff.mp h
  obtain ⟨d', h3, h⟩ := Option.bind_eq_some_iff.mp h
  obtain ⟨a4, h4, h⟩ := Option.bind_eq_some_iff.mp h
  rw [h2, Option.bind_some, h3, Option.bind_some]
  unfold quietSkew at h4
  obtain ⟨⟨a1, b⟩, h5, h4⟩ := Option.bind_eq_some_iff.mp h4
  simp only at h4
  split_ifs at h4
  simp only [Option.some.injEq] at h4
  unfold dfpSkew
  rw [h5, Option.map_some, Option.bind_some, h4]
  exact h

omit h in
/-- C75. Schedules have one row per hyperplane; dimensions, domains and dependences are those of the input. This holds
whether or not a skew is introduced. -/
theorem C75_shape (h : clTransform o co L lex fcgOf sten (dfpSkew o.toSearchOpts L lex) fuel d0 p0 = some p) :
    (∀ st ∈ p.stmts, st.trans.length = p.hProps.length ∧ ∀ r ∈ st.trans, r.length = st.dim + p0.npar + 1) ∧
    List.Forall₂ (StmtRestored p0.npar) p0.stmts p.stmts ∧ List.Forall₂ DepRestored p0.deps p.deps := by
  obtain ⟨h1, h2⟩ := cl_shape hE hL hp hne h
  exact ⟨h2, restored_all hp h1⟩

/-- C75. If all dependences are marked as satisfied in the result, the result is legal. -/
theorem C75_marked_partial (hm : ∀ d ∈ p.deps, d.rar = false → d.satisfied = true) :
    ∀ d ∈ p0.deps, d.rar = false → ∀ s t q, p0.Inst d s t q →
      LexBefore (p.timestamp d.src s q) (p.timestamp d.dest t q) := by
  intro d hd hr s t q hi
  obtain ⟨j, hj, rfl⟩ := List.getElem_of_mem hd
  rcases C75_order_partial o co L lex hE fcgOf sten fuel d0 p0 p hL hp hne h j _ (List.getElem?_eq_getElem hj) hr s t q hi with h1 | ⟨_, _, h1⟩
  · exact h1
  · exfalso
    obtain ⟨d', hd', e⟩ := Option.map_eq_some_iff.mp h1
    have hrar : d'.rar = false := by
      have hf := (C75_shape o co L lex hE fcgOf sten fuel d0 p0 p hL hp hne
        (C75_quiet o co L lex hE fcgOf sten fuel d0 p0 p hL hp hne h)).2.2
      obtain ⟨hj', rfl⟩ := List.getElem?_eq_some_iff.mp hd'
      have := (List.forall₂_iff_get.mp hf).2 j hj hj'
      simp only [List.get_eq_getElem] at this
      rw [this.2.2.1]
      exact hr
    rw [hm d' (List.mem_of_getElem? hd') hrar] at e
    cases e

/-- C75. If no statement depends on itself, directly or through others, the result is legal. -/
theorem C75_acyclic_partial (hac : ∀ d ∈ p0.deps, d.rar = false → ¬ DepChain p0 d.dest d.src) :
    ∀ d ∈ p0.deps, d.rar = false → ∀ s t q, p0.Inst d s t q →
      LexBefore (p.timestamp d.src s q) (p.timestamp d.dest t q) := by
  intro d hd hr s t q hi
  obtain ⟨j, hj, rfl⟩ := List.getElem_of_mem hd
  rcases C75_order_partial o co L lex hE fcgOf sten fuel d0 p0 p hL hp hne h j _ (List.getElem?_eq_getElem hj) hr s t q hi with h1 | h1
  · exact h1
  · exact absurd h1.2.1 (hac _ hd hr)

end

/-! ### A run that colours a loop twice -/

def frgT : Stmt :=
  ⟨2, 2, ⟨4, [⟨false, [1, 0, 0, 0]⟩, ⟨false, [-1, 0, 1, -1]⟩, ⟨false, [0, 1, 0, 0]⟩, ⟨false, [0, -1, 1, -1]⟩]⟩, [true, true], [], []⟩

def frgS : Stmt := ⟨1, 1, ⟨3, [⟨false, [1, 0, 0]⟩, ⟨false, [-1, 1, -1]⟩]⟩, [true], [], []⟩

def frgDep0 : List Row :=
  [⟨true, [1, 0, 1, 0, -1, 1]⟩, ⟨true, [1, 1, 0, -1, 0, 0]⟩, ⟨false, [1, 0, 0, 0, 0, 0]⟩, ⟨false, [0, 1, 0, 0, 0, 0]⟩,
   ⟨false, [-1, 0, 0, 0, 1, -1]⟩, ⟨false, [0, 0, 0, -1, 1, -1]⟩]

/-- `T(t1,t2)`, `S0(i)` and `S1(i,j)` with all loops from 0 to N-1. `S1(N-1-t1, t1+t2)` depends on `T(t1,t2)`,
`S1(i+j,j)` on `S0(i)`, and `S0(i+1)` on `S1(i,0)`. -/
def exForget : Prog := ⟨2, 1, [frgT, frgS, frgT],
  [⟨0, 2, false, ⟨6, frgDep0⟩, ⟨6, []⟩, false, -1, [], []⟩,
   ⟨1, 2, false, ⟨5, [⟨true, [1, -1, 1, 0, 0]⟩, ⟨false, [1, 0, 0, 0, 0]⟩, ⟨false, [0, 0, 1, 0, 0]⟩, ⟨false, [0, -1, 0, 1, -1]⟩]⟩,
      ⟨5, []⟩, false, -1, [], []⟩,
   ⟨2, 1, false, ⟨5, [⟨true, [1, 0, -1, 0, 1]⟩, ⟨true, [0, 1, 0, 0, 0]⟩, ⟨false, [1, 0, 0, 0, 0]⟩, ⟨false, [0, 0, -1, 1, -1]⟩]⟩,
      ⟨5, []⟩, false, -1, [], []⟩], []⟩

/-- The conflicts of `exForget`: components are `T` and `S0`, `S1`. The two loops of a component get different colours, and
the loop `i` can be fused with neither loop of `T`: `i - t1 = N-1 - 2*t1` and `i - t2 = N-1 - t1 - t2` are not bounded
from below by a constant. The loop `j` can be fused with both: `j - t1 = t2` and `j - t2 = t1`. -/
def frgFcg (_ : Auto) (_ : List Nat) (_ : Nat) (_ _ : Nat → Bool) : ClFcg :=
  ⟨⟨4, fun u v => if (u, v) ∈ [(0, 1), (1, 0), (2, 3), (3, 2), (0, 2), (2, 0), (1, 2), (2, 1)] then 1 else 0⟩, fun _ _ => 0, fun _ => false⟩

def frgDep1 : List Row := [⟨true, [1, 0, -1, 1, 0, 0]⟩, ⟨false, [1, 0, 0, 0, 0, 0]⟩, ⟨false, [0, 0, 0, 1, 0, 0]⟩, ⟨false, [0, 0, -1, 0, 1, -1]⟩]

def frgDep2 : List Row := [⟨true, [1, 0, -1, 0, 0, 1]⟩, ⟨true, [0, 1, 0, 0, 0, 0]⟩, ⟨false, [1, 0, 0, 0, 0, 0]⟩, ⟨false, [0, 0, -1, 0, 1, -1]⟩]

def frgEmpties : List Cst :=
  [⟨6, ⟨false, [1, 0, 0, -1, 0, -1]⟩ :: frgDep0⟩, ⟨6, ⟨false, [0, 1, 0, -1, 0, -1]⟩ :: frgDep0⟩,
   ⟨6, ⟨false, [0, 0, 0, -1, 0, -1]⟩ :: frgDep1⟩, ⟨6, ⟨false, [0, -1, 0, 0, 0, -1]⟩ :: frgDep2⟩,
   ⟨6, ⟨false, [0, 1, 0, 0, 0, -1]⟩ :: frgDep2⟩, ⟨6, ⟨false, [0, 0, 0, 0, 0, -1]⟩ :: frgDep0⟩]

noncomputable def frgLibs : Libs :=
  ⟨fun _ _ => [], certOracle [[0, 0, 0, 0, 3], [0, 0, 1, 0, 3], [0, 0, 1, 1, 3], [0, 0, 2, 0, 3], [0, 1, 2, 1, 3], [1, 0, 1, 1, 3]] frgEmpties,
    listSolver [[2, 2, 1, 0, 0, 0, 0, 0, 1, 0], [2, 2, 0, 1, 0, 0, 0, 0, 1, 0]]⟩

theorem frgLibs_ok : EmptyOracle frgLibs.isEmpty := by
  refine certOracle_ok _ _ ?_
  rintro c hc ⟨x, hx, hs⟩
  simp only [frgEmpties, List.mem_cons, List.not_mem_nil, or_false] at hc
  rcases hc with rfl | rfl | rfl | rfl | rfl | rfl <;>
  · match x, hx with
    | [i, j, i', j', n], _ =>
      simp [Cst.Sat, Row.Sat, frgDep0, frgDep1, frgDep2, aff, dot] at hs
      try omega

/-- The search with `--clusterscc` and `--smartfuse` for `exForget`. -/
noncomputable def frgRun : Option Prog :=
  clTransform ⟨⟨true, true, false, true, -1⟩, .smart⟩ ⟨false, false, false, true⟩ frgLibs (lexIlp ⟨true, true, false, true, -1⟩ frgLibs) frgFcg
    (fun _ _ => false) (quietSkew ⟨true, true, false, true, -1⟩ frgLibs (lexIlp ⟨true, true, false, true, -1⟩ frgLibs)) 20
    ⟨fun _ => 0, fun _ => 0, fun _ => 0, 0⟩ exForget

/-- C75 fails in general. Level 1 takes `t1` for `T` and `j` for `S1`. At level 2 the loop `i` is in conflict with `t2`, and
`rebuild_scc_cluster_fcg` is called. `get_scc_colours_from_vertex_colours` (lib/framework-dfp.c:2371-2375) takes the
colours of the component `S0`, `S1` from the first statement with `dim == max_dim`, and since `dim` is the padded number
of loops, this is `S0`, which has no loop `j`. So `j` counts as not coloured, is found again at level 2, and no level is
found for `i`: all of `S0(0)`, `S1(0,0)`, `S0(1)`, ... get the same timestamp although each depends on the previous
one. The call returns normally. The schedules `(0, t1, t2, 0)`, `(1, i, 0, 0)` and `(1, i, 1, j)` are legal. -/
theorem C75_violated : EmptyOracle frgLibs.isEmpty ∧ FeasibleOracle frgLibs.solve ∧ exForget.InputOK ∧
    (∃ p, frgRun = some p ∧
      p.stmts.map (·.trans) = [[[1, 0, 0, 0], [0, 1, 0, 0], [0, 0, 0, 0]], [[0, 0, 0], [0, 0, 0], [0, 0, 1]],
        [[0, 1, 0, 0], [0, 1, 0, 0], [0, 0, 0, 1]]] ∧
      exForget.Inst (exForget.deps[1]) [0] [0, 0] [2] ∧ exForget.Inst (exForget.deps[2]) [0, 0] [1] [2] ∧
      p.timestamp 1 [0] [2] = p.timestamp 2 [0, 0] [2] ∧ p.timestamp 2 [0, 0] [2] = p.timestamp 1 [1] [2]) ∧
    (∀ s t q, exForget.Inst (exForget.deps[0]) s t q → LexBefore (0 :: s ++ [0]) [1, t.getD 0 0, 1, t.getD 1 0]) ∧
    (∀ s t q, exForget.Inst (exForget.deps[1]) s t q → LexBefore [1, s.getD 0 0, 0, 0] [1, t.getD 0 0, 1, t.getD 1 0]) ∧
    (∀ s t q, exForget.Inst (exForget.deps[2]) s t q → LexBefore [1, s.getD 0 0, 1, s.getD 1 0] [1, t.getD 0 0, 0, 0]) := by
  refine ⟨frgLibs_ok, listSolver_ok _, ⟨by decide, by decide⟩, ?_, ?_, ?_, ?_⟩
  · have hrun : frgRun.map (fun p => p.stmts.map (·.trans)) = some [[[1, 0, 0, 0], [0, 1, 0, 0], [0, 0, 0, 0]],
        [[0, 0, 0], [0, 0, 0], [0, 0, 1]], [[0, 1, 0, 0], [0, 1, 0, 0], [0, 0, 0, 1]]] := by decide +kernel
    obtain ⟨p, h1, h2⟩ := Option.map_eq_some_iff.mp hrun
    refine ⟨p, h1, h2, ⟨rfl, rfl, rfl, by decide⟩, ⟨rfl, rfl, rfl, by decide⟩, ?_, ?_⟩ <;>
    · unfold Prog.timestamp
      rw [← List.getElem?_map, ← List.getElem?_map, h2]
      rfl
  · intro s t q hi
    match s, hi.hs with
    | [t1, t2], _ => exact ⟨0, 0, 1, rfl, rfl, by omega, fun l hl => absurd hl (by omega)⟩
  · intro s t q hi
    match s, t, q, hi.hs, hi.ht, hi.hp, hi.sat with
    | [i], [i', j'], [n], _, _, _, hsat =>
      have h1 := hsat ⟨true, [1, -1, 1, 0, 0]⟩ (by simp [exForget])
      have h2 := hsat ⟨false, [0, 0, 1, 0, 0]⟩ (by simp [exForget])
      simp [Row.Sat, aff, dot] at h1 h2
      by_cases e : i' = i
      · subst e
        refine ⟨2, 0, 1, rfl, rfl, by omega, fun l hl => ?_⟩
        match l, hl with
        | 0, _ => rfl
        | 1, _ => rfl
      · refine ⟨1, i, i', rfl, rfl, by omega, fun l hl => ?_⟩
        match l, hl with
        | 0, _ => rfl
  · intro s t q hi
    match s, t, q, hi.hs, hi.ht, hi.hp, hi.sat with
    | [i, j], [i'], [n], _, _, _, hsat =>
      have h1 := hsat ⟨true, [1, 0, -1, 0, 1]⟩ (by simp [exForget])
      simp [Row.Sat, aff, dot] at h1
      refine ⟨1, i, i', rfl, rfl, by omega, fun l hl => ?_⟩
      match l, hl with
      | 0, _ => rfl

end Pluto
