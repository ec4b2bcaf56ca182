import Verif.Props.FcgBuild
import Verif.Props.Dfp
import Verif.Lemmas.Cert
import Verif.Model.Skew

/-! C58: loops without conflicts that cannot be made one level. -/

namespace Pluto

/-- `0 ≤ x_k ≤ N` in a dependence between instances `(t, i)`, `(t', i')`. -/
def ringBox (k : Nat) : List Row := [⟨false, (zrow 6).set k 1⟩, ⟨false, ((zrow 6).set k (-1)).set 4 1⟩]

/-- Dependence of `S_t(t,i)` on `S0(i)`. -/
def ringDep0 (t : Nat) : Dep :=
  let c : Cst := ⟨5, [⟨true, [-1, 0, 1, 0, 0]⟩, ⟨false, [1, 0, 0, 0, 0]⟩, ⟨false, [-1, 0, 0, 1, 0]⟩, ⟨false, [0, 1, 0, 0, 0]⟩,
    ⟨false, [0, -1, 0, 1, 0]⟩]⟩
  ⟨0, t, false, c, c, false, -1, [], []⟩

/-- Dependence with constant distance. -/
def ringDep (s t : Nat) (a b : Int) : Dep :=
  let c : Cst := ⟨6, [⟨true, [-1, 0, 1, 0, 0, -a]⟩, ⟨true, [0, -1, 0, 1, 0, -b]⟩] ++ ringBox 0 ++ ringBox 1 ++ ringBox 2 ++ ringBox 3⟩
  ⟨s, t, false, c, c, false, -1, [], []⟩

def ringStmt : Stmt :=
  ⟨2, 2, ⟨4, [⟨false, [1, 0, 0, 0]⟩, ⟨false, [-1, 0, 1, 0]⟩, ⟨false, [0, 1, 0, 0]⟩, ⟨false, [0, -1, 1, 0]⟩]⟩, [true, true], [], []⟩

/-- `for (i = 0..N) S0(i); for (t = 0..N) { for (i) S1(t,i); for (i) S2(t,i); for (i) S3(t,i); }` with dependences
`S0(i) → S1(t,i), S2(t,i), S3(t,i)`, `S1(t,i) → S2(t,i-1)`, `S2(t,i) → S3(t,i-1)` and `S3(t,i) → S1(t+1,i+1)`. -/
def exRing : Prog :=
  ⟨2, 1, [⟨1, 1, ⟨3, [⟨false, [1, 0, 0]⟩, ⟨false, [-1, 1, 0]⟩]⟩, [true], [], []⟩, ringStmt, ringStmt, ringStmt],
    [ringDep0 1, ringDep0 2, ringDep0 3, ringDep 1 2 0 (-1), ringDep 2 3 0 (-1), ringDep 3 1 1 1], []⟩

/-- Solutions and refutations for the systems of the conflict graph. -/
noncomputable def ringLp : Cst → Bool := certLp
  [[0, 0, 1, 0, 0, 0, 1, 0, 0, 0, 0, 0, 0, 0],
    [0, 0, 1, 0, 0, 0, 0, 0, 0, 1, 0, 0, 0, 0],
    [0, 0, 1, 0, 0, 0, 0, 0, 0, 0, 0, 0, 1, 0],
    [0, 0, 0, 0, 0, 1, 0, 0, 1, 0, 0, 0, 0, 0],
    [0, 0, 0, 0, 0, 0, 1, 0, 0, 1, 1, 0, 0, 0],
    [0, 0, 0, 0, 0, 1, 0, 0, 0, 0, 0, 1, 0, 0],
    [0, 0, 0, 0, 0, 0, 1, 0, 0, 0, 0, 0, 1, 0],
    [0, 0, 0, 0, 0, 0, 0, 0, 1, 0, 0, 1, 0, 0],
    [0, 0, 0, 0, 0, 0, 0, 0, 0, 1, 0, 0, 1, 1]]
  [[(⟨false, [0, 0, 1, 0, 0, 0, 0, 0, 0, 0, 0, 0, 0, 0, -1]⟩, 1), (⟨false, [0, 0, -1, 0, 0, 0, 1, 0, 0, 0, 0, 0, 0, 0, 0]⟩, 1), (⟨true, [0, 0, 0, 0, 0, 0, 1, 0, 0, 0, 0, 0, 0, 0, 0]⟩, -1)],
   [(⟨false, [0, 0, 1, 0, 0, 0, 0, 0, 0, 0, 0, 0, 0, 0, -1]⟩, 1), (⟨false, [0, 0, -1, 0, 0, 0, 0, 0, 0, 1, 0, 0, 0, 0, 0]⟩, 1), (⟨true, [0, 0, 0, 0, 0, 0, 0, 0, 0, 1, 0, 0, 0, 0, 0]⟩, -1)],
   [(⟨false, [0, 0, 1, 0, 0, 0, 0, 0, 0, 0, 0, 0, 0, 0, -1]⟩, 1), (⟨false, [0, 0, -1, 0, 0, 0, 0, 0, 0, 0, 0, 0, 1, 0, 0]⟩, 1), (⟨true, [0, 0, 0, 0, 0, 0, 0, 0, 0, 0, 0, 0, 1, 0, 0]⟩, -1)],
   [(⟨false, [0, 0, 0, 0, 0, 1, 0, 0, 0, 0, 0, 0, 0, 0, -1]⟩, 1), (⟨false, [0, 0, 0, 0, 0, -1, 0, 0, 1, 0, 0, 0, 0, 0, 0]⟩, 1), (⟨true, [0, 0, 0, 0, 0, 0, 0, 0, 1, 0, 0, 0, 0, 0, 0]⟩, -1)],
   [(⟨false, [0, 0, 0, 0, 0, 0, 1, 0, 0, 0, 0, 0, 0, 0, -1]⟩, 1), (⟨false, [0, 0, 0, 0, 0, 0, -1, 0, 0, 1, 0, 0, 0, 0, 0]⟩, 1), (⟨true, [0, 0, 0, 0, 0, 0, 0, 0, 0, 1, 0, 0, 0, 0, 0]⟩, -1)],
   [(⟨false, [0, 0, 0, 0, 0, 0, 0, 0, 0, 0, 0, 0, 1, 0, -1]⟩, 1), (⟨false, [0, 0, 0, 0, 0, 0, 1, 0, 0, 0, 0, 0, -1, 0, 0]⟩, 1), (⟨true, [0, 0, 0, 0, 0, 0, 1, 0, 0, 0, 0, 0, 0, 0, 0]⟩, -1)],
   [(⟨false, [0, 0, 0, 0, 0, 0, 0, 0, 0, 0, 0, 1, 0, 0, -1]⟩, 1), (⟨false, [0, 0, 0, 0, 0, 1, 0, 0, 0, 0, 0, -1, 0, 0, 0]⟩, 1), (⟨true, [0, 0, 0, 0, 0, 1, 0, 0, 0, 0, 0, 0, 0, 0, 0]⟩, -1)],
   [(⟨false, [0, 0, 0, 0, 0, 0, 0, 0, 1, 0, 0, 0, 0, 0, -1]⟩, 1), (⟨false, [0, 0, 0, 0, 0, 0, 0, 0, -1, 0, 0, 1, 0, 0, 0]⟩, 1), (⟨true, [0, 0, 0, 0, 0, 0, 0, 0, 0, 0, 0, 1, 0, 0, 0]⟩, -1)],
   [(⟨false, [0, 0, 0, 0, 0, 0, 0, 0, 0, 1, 0, 0, 0, 0, -1]⟩, 1), (⟨false, [0, 0, 0, 0, 0, 0, 0, 0, 0, -1, 0, 0, 1, 0, 0]⟩, 1), (⟨true, [0, 0, 0, 0, 0, 0, 0, 0, 0, 0, 0, 0, 1, 0, 0]⟩, -1)]]

/-- The solvers; the only ILP is infeasible. -/
noncomputable def ringLibs : Libs :=
  ⟨fun _ _ => [], certOracle [] [], certSolver
    [[(⟨false, [0, 0, 0, 0, 0, 0, 0, 0, 1, 0, 0, 0, 0, -1]⟩, 1), (⟨false, [0, 0, 0, 0, 0, 0, 0, -1, -1, -1, 1, 0, 1, 0]⟩, 1), (⟨true, [0, 0, 0, 0, 0, 0, 0, 0, 0, 0, 1, 0, 0, 0]⟩, -1), (⟨false, [0, 0, 0, 0, 1, 1, 1, 0, 0, 0, 0, 0, -1, 0]⟩, 1), (⟨false, [0, 0, 0, 0, -1, -1, -1, 1, 0, 1, 0, 0, 0, 0]⟩, 1)]]⟩

def ringOpts : SearchOpts := ⟨true, true, false, true, -1⟩

/-- The conflict graph: loop `i` of `S0` and loops `t`, `i` of `S1`, `S2`, `S3` are vertices 0 to 6. -/
def ringEdges : List (Nat × Nat) :=
  [(0, 1), (0, 3), (0, 5), (1, 4), (2, 3), (1, 6), (2, 5), (3, 6), (4, 5), (1, 2), (2, 1), (3, 4), (4, 3), (5, 6), (6, 5)]

def ringGraph : Graph := ⟨7, fun u v => if (u, v) ∈ ringEdges then 1 else 0⟩

def ringStart : Option Auto :=
  let p := { exRing with deps := exRing.deps.map (fun d => { d with satisfied := false }) }
  (⟨p, ddgCreate p, ⟨fun _ => 0, fun _ => 0, fun _ => 0, 0⟩, fun _ => -1, 0⟩ : Auto).computeScc

noncomputable def ringInit : Option Dfp := ringStart.bind (dfpInit ⟨ringOpts, .smart⟩ ringLibs (fun _ _ _ => ringGraph))

theorem distribute_nil {a : Auto} (h : (upperPairs a.p.stmts.length).all (fun x => (ddgCreate a.p).isAdjacent x.1 x.2) = true) :
    distributeEdges a = [] := by
  unfold distributeEdges
  simp only [List.flatMap_eq_nil_iff]
  rintro ⟨i, j⟩ hx
  obtain ⟨hij, hj⟩ := mem_upperPairs.mp hx
  rw [if_pos]
  have h1 := List.all_eq_true.mp h _ hx
  simp only [Graph.isAdjacent, decide_eq_true_eq] at h1 ⊢
  rcases h1 with h1 | h1
  · exact Or.inl ((C17_closure_partial (ddgCreate a.p) i j (show i < a.p.stmts.length by omega) hj).2 (Or.inl ⟨show i < a.p.stmts.length by omega, hj, h1⟩))
  · exact Or.inr ((C17_closure_partial (ddgCreate a.p) j i hj (show i < a.p.stmts.length by omega)).2 (Or.inl ⟨hj, show i < a.p.stmts.length by omega, h1⟩))

theorem ring_edges : (ringInit.map (fun d =>
    ((selfEdges ringLp ringOpts d.a.p d.colour 1).map (fun v => (v, v)) ++
      (upperPairs d.a.p.stmts.length).flatMap (fun x =>
        if d.a.g.isAdjacent x.1 x.2 then pairEdges ringLp ringOpts d.a.p d.colour 1 [] x.1 x.2 else []) ++
      (List.range d.a.p.stmts.length).flatMap (intraEdges d.a.p),
    selfEdges ringLp ringOpts d.a.p d.colour 1,
    (upperPairs d.a.p.stmts.length).all (fun x => (ddgCreate d.a.p).isAdjacent x.1 x.2), fcgSize d.a.p))) = some (ringEdges, [], true, 7) := by
  decide +kernel

theorem ring_graph {d : Dfp} (h : ringInit = some d) : buildFcg ringLp ringOpts d.a d.colour 1 = ringGraph := by
  have he := ring_edges
  rw [h, Option.map_some, Option.some.injEq, Prod.mk.injEq, Prod.mk.injEq, Prod.mk.injEq] at he
  obtain ⟨e1, e2, e3, e4⟩ := he
  unfold buildFcg fcgEdges
  simp only
  rw [e2, if_pos trivial, distribute_nil e3, List.append_nil, e4]
  rw [e2] at e1
  rw [e1]
  rfl

theorem ring_level : (ringInit.bind (fun d => (Dfp.level ringOpts false ringLibs (lexIlp ringOpts ringLibs) (buildFcg ringLp ringOpts) .smart 1 d))).isNone = true ∧
    (ringInit.bind (fun d => Dfp.colourFcg ringLibs.isEmpty (buildFcg ringLp ringOpts) .smart 1 (List.range d.a.num) d)).map (·.colour) =
      some [1, 0, 1, 0, 1, 0, 1] := by
  decide +kernel

theorem ring_none : dfpTransform ⟨ringOpts, .smart⟩ false ringLibs (lexIlp ringOpts ringLibs) (buildFcg ringLp ringOpts) (dfpSkew ringOpts ringLibs (lexIlp ringOpts ringLibs))
    ⟨fun _ => 0, fun _ => 0, fun _ => 0, 0⟩ exRing = none := by
  rcases hr : dfpTransform ⟨ringOpts, .smart⟩ false ringLibs (lexIlp ringOpts ringLibs) (buildFcg ringLp ringOpts) (dfpSkew ringOpts ringLibs (lexIlp ringOpts ringLibs))
    ⟨fun _ => 0, fun _ => 0, fun _ => 0, 0⟩ exRing with _ | p
  · rfl
  exfalso
  unfold dfpTransform at hr
  obtain ⟨a, h1, hr⟩ := Option.bind_eq_some_iff.mp hr
  rw [if_neg (show ¬ exRing.stmts = [] by decide)] at hr
  obtain ⟨d, h2, hr⟩ := Option.bind_eq_some_iff.mp hr
  obtain ⟨d', h3, hr⟩ := Option.bind_eq_some_iff.mp hr
  have h1' : ringStart = some a := h1
  unfold dfpInit at h2
  obtain ⟨s, h4, h2⟩ := Option.bind_eq_some_iff.mp h2
  obtain ⟨a', h5, h2⟩ := Option.bind_eq_some_iff.mp h2
  have hi : ringInit = some ⟨a', ringGraph, List.replicate (fcgSize a'.p) 0, 0, false⟩ := by
    unfold ringInit
    rw [h1', Option.bind_some]
    unfold dfpInit
    rw [Option.bind_eq_bind, h4, Option.bind_some, Option.bind_eq_bind, h5, Option.bind_some]
    rfl
  have hd : d = ⟨a', ringGraph, List.replicate (fcgSize a'.p) 0, 0, false⟩ := by
    have := ring_graph hi
    simp only at this
    have h2' : some (⟨a', buildFcg ringLp ringOpts a' (List.replicate (fcgSize a'.p) 0) 1, List.replicate (fcgSize a'.p) 0, 0, false⟩ : Dfp) =
      some d := h2
    rw [this] at h2'
    exact (Option.some.inj h2').symm
  rw [← hd] at hi
  have hn : d.a.p.nvar = 2 := by
    have : (ringInit.map (fun d => d.a.p.nvar)) = some 2 := by decide +kernel
    rw [hi] at this
    simpa using this
  rw [hn] at h3
  unfold Dfp.levels at h3
  obtain ⟨d1, h6, _⟩ := Option.bind_eq_some_iff.mp h3
  have := ring_level.1
  rw [hi, Option.bind_some, h6] at this
  cases this

/-- When the instances run in the original program. -/
def ringTime (i : Nat) (x : List Int) : List Int :=
  if i = 0 then 0 :: x else [1, x.getD 0 0, i, x.getD 1 0]

theorem ring_legal : ∀ d ∈ exRing.deps, ∀ s t q, exRing.Inst d s t q → LexBefore (ringTime d.src s) (ringTime d.dest t) := by
  intro d hd s t q hi
  have hs := hi.hs
  have ht := hi.ht
  have hq := hi.hp
  have hsat := hi.sat
  simp only [exRing, List.mem_cons, List.not_mem_nil, or_false] at hd
  rcases hd with rfl | rfl | rfl | rfl | rfl | rfl
  · exact ⟨0, 0, 1, rfl, rfl, by omega, fun l hl => by omega⟩
  · exact ⟨0, 0, 1, rfl, rfl, by omega, fun l hl => by omega⟩
  · exact ⟨0, 0, 1, rfl, rfl, by omega, fun l hl => by omega⟩
  · match s, t, q, hs, ht, hq with
    | [i, j], [i', j'], [n], _, _, _ =>
      have h1 := hsat ⟨true, [-1, 0, 1, 0, 0, 0]⟩ (by simp [ringDep])
      simp [Row.Sat, aff, dot] at h1
      obtain rfl : i' = i := by omega
      refine ⟨2, 1, 2, rfl, rfl, by omega, ?_⟩
      intro l hl
      match l, hl with
      | 0, _ => rfl
      | 1, _ => rfl
  · match s, t, q, hs, ht, hq with
    | [i, j], [i', j'], [n], _, _, _ =>
      have h1 := hsat ⟨true, [-1, 0, 1, 0, 0, 0]⟩ (by simp [ringDep])
      simp [Row.Sat, aff, dot] at h1
      obtain rfl : i' = i := by omega
      refine ⟨2, 2, 3, rfl, rfl, by omega, ?_⟩
      intro l hl
      match l, hl with
      | 0, _ => rfl
      | 1, _ => rfl
  · match s, t, q, hs, ht, hq with
    | [i, j], [i', j'], [n], _, _, _ =>
      have h1 := hsat ⟨true, [-1, 0, 1, 0, 0, -1]⟩ (by simp [ringDep])
      simp [Row.Sat, aff, dot] at h1
      refine ⟨1, i, i', rfl, rfl, by omega, ?_⟩
      intro l hl
      match l, hl with
      | 0, _ => rfl

/-- C58 fails beyond pairs: loops without conflicts need not give a level together. In this program, whose own order is legal,
the loops `i` of all four statements have no conflicts and are coloured first. The LP solver and the ILP solver answer
correctly. But `S1(t,i) → S2(t,i-1) → S3(t,i-2) → S1(t+1,i-1)` asks for shifts of `S2` against `S1` and of `S3` against
`S2` by 1 each, and allows `S3` to be shifted against `S1` by 1 only. No level is found and Pluto stops with a failed
assertion (lib/framework-dfp.c:2752-2856: "This appears to be a bug in Pluto FCG based auto-transformation"). -/
theorem C58_violated : LpOracle ringLp ∧ EmptyOracle ringLibs.isEmpty ∧ LexminOracle ringLibs.solve ∧ exRing.InputOK ∧
    (∀ d ∈ exRing.deps, ∀ s t q, exRing.Inst d s t q → LexBefore (ringTime d.src s) (ringTime d.dest t)) ∧
    (∃ d d' : Dfp, d.fcg = buildFcg ringLp ringOpts d.a d.colour 1 ∧ d.a.p.stmts.map (·.dimOrig) = [1, 2, 2, 2] ∧
      Dfp.colourFcg ringLibs.isEmpty (buildFcg ringLp ringOpts) .smart 1 (List.range d.a.num) d = some d' ∧
      d'.colour = [1, 0, 1, 0, 1, 0, 1]) ∧
    dfpTransform ⟨ringOpts, .smart⟩ false ringLibs (lexIlp ringOpts ringLibs) (buildFcg ringLp ringOpts) (dfpSkew ringOpts ringLibs (lexIlp ringOpts ringLibs))
      ⟨fun _ => 0, fun _ => 0, fun _ => 0, 0⟩ exRing = none := by
  refine ⟨certLp_ok _ _, certOracle_ok [] [] (by simp), certSolver_ok _, ⟨by decide, by decide⟩, ring_legal, ?_, ring_none⟩
  obtain ⟨d', h1, h2⟩ := Option.map_eq_some_iff.mp ring_level.2
  obtain ⟨d, h3, h4⟩ := Option.bind_eq_some_iff.mp h1
  refine ⟨d, d', ?_, ?_, h4, h2⟩
  · rw [ring_graph h3]
    unfold ringInit at h3
    obtain ⟨a, _, h3⟩ := Option.bind_eq_some_iff.mp h3
    unfold dfpInit at h3
    obtain ⟨s, _, h3⟩ := Option.bind_eq_some_iff.mp h3
    obtain ⟨a', _, h3⟩ := Option.bind_eq_some_iff.mp h3
    rw [← Option.some.inj h3]
  · have : ringInit.map (fun d => d.a.p.stmts.map (·.dimOrig)) = some [1, 2, 2, 2] := by decide +kernel
    rw [h3] at this
    simpa using this

end Pluto
