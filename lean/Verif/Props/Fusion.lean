import Verif.Lemmas.Fusion
import Verif.Props.Auto

/-! C86: what `--nofuse` and `--smartfuse` distribute (`autoTransform` is `pluto_auto_transform`). `Prog.Mutual`,
`Prog.NestDepth`, `Prog.SplitBy`: Verif/Spec/Fusion.lean. -/

namespace Pluto

/-- C86 for `--nofuse`. If some two statements do not depend on each other both ways, the outermost level of the computed schedules
distributes: every instance of a statement has the same constant there, two statements have the same constant exactly if they depend
on each other both ways, and a statement comes after those it depends on.
Missing for the full C86: diamond tiling (`--nodiamond-tile` assumed). -/
theorem C86_nofuse_partial (o : AutoOpts) (L : Libs) (hE : EmptyOracle L.isEmpty) (hL : FeasibleOracle L.solve)
    (fuel : Nat) (d0 : DfsState) (p0 p : Prog) (hp : p0.InputOK) (ho : o.fuse = .no)
    (h2 : ∃ i < p0.stmts.length, ∃ j < p0.stmts.length, ¬ p0.Mutual i j)
    (h : autoTransform o L noDiamond fuel d0 p0 = some (.success p)) :
    ∃ c : Nat → Int, p0.SplitBy p c ∧ ∀ i < p0.stmts.length, ∀ j < p0.stmts.length,
      (c i = c j ↔ p0.Mutual i j) ∧ (p0.DependsOn j i → c i ≤ c j) := by
  obtain ⟨i0, hi0, j0, hj0, hij⟩ := h2
  have hne : p0.stmts ≠ [] := by
    intro e
    rw [e] at hi0
    simp at hi0
  refine Exists.elim (first_rows hE hL fuel d0 p hp hne (fun a => a.scc) (fun _ => True) ?_ h) ?_
  rotate_left
  · rintro b ⟨hb, _, hsp⟩
    exact ⟨b.scc, hsp, fun i hi j hj => ⟨hb.same i hi j hj, hb.mono i hi j hj⟩⟩
  · intro a p3 a1 hs hg hc m2 m3 m4 hk hcut
    unfold initCut at hcut
    rw [if_neg (by rw [ho]; decide), Option.some.injEq] at hcut
    subst hcut
    unfold noFuseCut
    rw [if_pos ho]
    cases hb : ({ a with p := p3 } : Auto).computeScc with
    | none =>
      refine ⟨a, hs, trivial, ?_⟩
      intro a2 h
      simp at h
    | some b =>
      have hbs := scc_nums hp hb hg
      refine ⟨b, hbs, trivial, ?_⟩
      intro a2 h
      simp only [Option.bind_eq_bind, Option.bind_some] at h
      obtain ⟨⟨a3, n⟩, h3, h4⟩ := Option.map_eq_some_iff.mp h
      simp only at h4
      subst h4
      have hcb := computeScc_spec hc.toAInv hb
      have hbp : b.p = p3 := (scc_facts hb).1
      unfold Auto.cutAll at h3
      split_ifs at h3 with hnum
      · exfalso
        apply hij
        rw [← hbs.same i0 hi0 j0 hj0]
        have r1 := hbs.range i0 hi0
        have r2 := hbs.range j0 hj0
        omega
      · simp only [Option.bind_eq_bind, Option.bind_eq_some_iff, Option.pure_def, Option.some.injEq, Prod.mk.injEq] at h3
        obtain ⟨⟨p2, n2⟩, h5, h6, _⟩ := h3
        rw [← h6]
        obtain ⟨_, e2, _⟩ := scalar_update hE hk hcb (fun i => [b.scc i]) b.scc (fun _ _ => rfl) hcb.mono h5
        rw [hbp] at e2
        exact splitRows_added m2 m3 (fun _ _ => rfl) e2

/-- C86 for `--smartfuse`. If some dependence goes between statements whose sets of mutually dependent statements have nests of different depth, the
outermost level of the computed schedules distributes: every instance of a statement has the same constant there, statements of different nest
depth have different constants, statements that depend on each other both ways have the same one, and a statement comes after those
it depends on.
Missing for the full C86: without such a dependence statements of different depth need not be separated
(`C86_violated_smart_independent`); diamond tiling (`--nodiamond-tile` assumed). -/
theorem C86_smart_partial (o : AutoOpts) (L : Libs) (hE : EmptyOracle L.isEmpty) (hL : FeasibleOracle L.solve)
    (fuel : Nat) (d0 : DfsState) (p0 p : Prog) (hp : p0.InputOK) (ho : o.fuse = .smart)
    {d : Dep} (hd : d ∈ p0.deps) (hr : d.rar = false) {n n' : Nat} (h1 : p0.NestDepth d.src n) (h2 : p0.NestDepth d.dest n') (hn : n ≠ n')
    (h : autoTransform o L noDiamond fuel d0 p0 = some (.success p)) :
    ∃ c : Nat → Int, p0.SplitBy p c ∧ ∀ i < p0.stmts.length, ∀ j < p0.stmts.length,
      (∀ m m', p0.NestDepth i m → p0.NestDepth j m' → m ≠ m' → c i ≠ c j) ∧
      (p0.Mutual i j → c i = c j) ∧ (p0.DependsOn j i → c i ≤ c j) := by
  obtain ⟨b1, b2, _⟩ := hp.deps d hd
  have hne : p0.stmts ≠ [] := by
    intro e
    rw [e] at b1
    simp at b1
  have key : ∀ (a : Auto) (p3 : Prog), SccNums p0 a → PadRel p0 (fun _ => p0.nvar) p3 → ∀ i < p0.stmts.length, ∀ j < p0.stmts.length,
      ∀ m m', p0.NestDepth i m → p0.NestDepth j m' → m ≠ m' → a.scc i < a.scc j →
      ({ a with p := p3 } : Auto).dimCount (a.scc i).toNat < ({ a with p := p3 } : Auto).dimCount (a.scc j).toNat := by
    intro a p3 hs m2 i hi j hj m m' hm hm' hne hlt
    have r1 := hs.range i hi
    have r2 := hs.range j hj
    refine dimCount_lt _ (by omega) ?_
    rw [maxDepth_spec hp hs m2 hi hm, maxDepth_spec hp hs m2 hj hm']
    omega
  refine Exists.elim (first_rows hE hL fuel d0 p hp hne (fun a i => (a.dimCount (a.scc i).toNat : Int))
    (fun a => PadRel p0 (fun _ => p0.nvar) a.p) ?_ h) ?_
  rotate_left
  · rintro b ⟨hb, hpad, hsp⟩
    refine ⟨_, hsp, fun i hi j hj => ⟨?_, ?_, ?_⟩⟩
    · intro m m' hm hm' hne
      rcases lt_trichotomy (b.scc i) (b.scc j) with hc | hc | hc
      · have := key b b.p hb hpad i hi j hj m m' hm hm' hne hc
        show ((b.dimCount _ : Nat) : Int) ≠ _
        have : b.dimCount (b.scc i).toNat < b.dimCount (b.scc j).toNat := this
        omega
      · exfalso
        apply hne
        have e1 := maxDepth_spec hp hb hpad hi hm
        have e2 := maxDepth_spec hp hb hpad hj hm'
        rw [hc] at e1
        omega
      · have := key b b.p hb hpad j hj i hi m' m hm' hm hne.symm hc
        show ((b.dimCount _ : Nat) : Int) ≠ _
        have : b.dimCount (b.scc j).toNat < b.dimCount (b.scc i).toNat := this
        omega
    · intro hm
      rw [(hb.same i hi j hj).mpr hm]
    · intro hm
      have := hb.mono i hi j hj hm
      have := dimCount_mono b (i := (b.scc i).toNat) (j := (b.scc j).toNat) (by omega)
      omega
  · intro a p3 a1 hs hg hc m2 m3 m4 hk hcut
    refine ⟨{ a with p := p3 }, ⟨hs.range, hs.same, hs.mono⟩, m2, ?_⟩
    unfold initCut at hcut
    rw [if_pos ho] at hcut
    obtain ⟨⟨a2, n2⟩, h5, h6⟩ := Option.map_eq_some_iff.mp hcut
    simp only at h6
    subst h6
    intro a3 h7
    unfold noFuseCut at h7
    rw [if_neg (by rw [ho]; decide), Option.some.injEq] at h7
    subst h7
    have hlt : a.scc d.src < a.scc d.dest := by
      have hm := hs.mono d.src b1 d.dest b2 (.single ⟨d, hd, hr, rfl, rfl⟩)
      have hne' : a.scc d.src ≠ a.scc d.dest := by
        intro e
        have e1 := maxDepth_spec hp hs m2 b1 h1
        have e2 := maxDepth_spec hp hs m2 b2 h2
        rw [e] at e1
        omega
      omega
    unfold Auto.cutDimBased at h5
    split_ifs at h5 with hnum
    · exfalso
      have r1 := hs.range d.src b1
      have r2 := hs.range d.dest b2
      have hnum : a.num = 1 := hnum
      omega
    · unfold Auto.keepIfUseful at h5
      rw [Option.bind_eq_bind, Option.bind_eq_some_iff] at h5
      obtain ⟨⟨p2, n3⟩, hu, h5⟩ := h5
      set f := (fun i => ((List.range a.num).filter (fun k : Nat => decide (a.scc i = (k : Int)))).map
        (fun k => (({ a with p := p3 } : Auto).dimCount k : Int))) with hfdef
      have hf : ∀ i < ({ a with p := p3 } : Auto).p.stmts.length, f i = [(({ a with p := p3 } : Auto).dimCount (a.scc i).toNat : Int)] := by
        intro i hi
        obtain ⟨r0, r1⟩ := hc.range i hi
        rw [hfdef]
        simp only
        rw [filter_range_eq _ _ r0 r1]
        rfl
      have hm : ∀ d, Live ({ a with p := p3 } : Auto).p d →
          ((({ a with p := p3 } : Auto).dimCount (a.scc d.src).toNat : Nat) : Int) ≤ ({ a with p := p3 } : Auto).dimCount (a.scc d.dest).toNat := by
        intro d hd
        have := hc.mono trivial d hd
        have := dimCount_mono { a with p := p3 } (i := (a.scc d.src).toNat) (j := (a.scc d.dest).toNat) (by
          have : a.scc d.src ≤ a.scc d.dest := this
          omega)
        omega
      obtain ⟨j, hj, rfl⟩ := List.getElem_of_mem hd
      have hF := List.forall₂_iff_get.mp m2.deps
      have hj3 : j < p3.deps.length := by rw [← hF.1]; exact hj
      have hpd := hF.2 j hj hj3
      simp only [List.get_eq_getElem] at hpd
      have hcount := key a p3 hs m2 _ b1 _ b2 n n' h1 h2 hn hlt
      have h1n : 1 ≤ n3 := update_counts hE hk hc f (fun i => (({ a with p := p3 } : Auto).dimCount (a.scc i).toNat : Int)) hf hm hu
        (d := p3.deps[j]) (List.getElem_mem hj3) (hpd.rar.trans hr) (m3.deps _ (List.getElem_mem hj3)).1 (by
          rw [hpd.src, hpd.dest]
          omega)
      simp only at h5
      rw [if_pos (by omega)] at h5
      simp only [Option.pure_def, Option.some.injEq, Prod.mk.injEq] at h5
      rw [← h5.1]
      obtain ⟨_, e2, _⟩ := scalar_update hE hk hc f _ hf (fun _ => hm) hu
      exact splitRows_added m2 m3 hf e2

theorem exTab_ok : EmptyOracle exLibs.isEmpty := by
  refine tabOracle_ok _ ?_
  intro e he
  simp only [exTab, List.mem_cons, List.not_mem_nil, or_false] at he
  rcases he with rfl | rfl | rfl | rfl | rfl
  · simp only [Bool.false_eq_true, false_iff, not_not]
    exact ⟨[0, 0, 1, 0], rfl, by decide⟩
  · simp only [Bool.false_eq_true, false_iff, not_not]
    exact ⟨[0, 0, 0, 0], rfl, by decide⟩
  · simp only [Bool.false_eq_true, false_iff, not_not]
    exact ⟨[0, 0, 1, 0], rfl, by decide⟩
  · simp only [true_iff]
    rintro ⟨x, hx, hs⟩
    match x, hx with
    | [a, b, c, d], _ =>
      have := hs ⟨false, [0, 0, 0, 0, -1]⟩ (by simp)
      simp [Row.Sat, aff, dot] at this
  · simp only [true_iff]
    rintro ⟨x, hx, hs⟩
    match x, hx with
    | [a, b, c, d], _ =>
      have h1 := hs ⟨false, [1, 0, -1, 0, 0]⟩ (by simp)
      have h2 := hs ⟨true, [-1, 0, 1, 0, -1]⟩ (by simp)
      simp [Row.Sat, aff, dot] at h1 h2
      omega

theorem view_split {r : Option Outcome} {tr : List (List (List Int))} (h : Outcome.view r = some (true, tr)) :
    ∃ p, r = some (.success p) ∧ p.stmts.map (·.trans) = tr := by
  match r with
  | none => simp [Outcome.view] at h
  | some .timeout => simp [Outcome.view] at h
  | some (.failed p) => simp [Outcome.view] at h
  | some (.success p) =>
    simp only [Outcome.view, Option.some.injEq, Prod.mk.injEq, true_and] at h
    exact ⟨p, rfl, h⟩

/-- No dependence of a program leads from statement 1 to another one, if none starts there. -/
theorem dependsOn_one {p : Prog} (h : ∀ d ∈ p.deps, d.src ≠ 1) {j : Nat} (hd : p.DependsOn j 1) : j = 1 := by
  induction hd with
  | refl => rfl
  | tail _ he ih =>
    obtain ⟨d, hd, _, rfl, rfl⟩ := he
    exact absurd ih (h d hd)

theorem exAuto_depth0 {p : Prog} (hs : p.stmts = exAuto.stmts) : p.NestDepth 0 2 := by
  refine ⟨⟨0, _, by rw [hs]; rfl, ⟨.refl, .refl⟩, rfl⟩, ?_⟩
  intro j st hj _
  rw [hs] at hj
  have hall : ∀ st ∈ exAuto.stmts, st.dim ≤ 2 := by decide
  exact hall st (List.mem_of_getElem? hj)

theorem exAuto_depth1 {p : Prog} (hs : p.stmts = exAuto.stmts) (h : ∀ d ∈ p.deps, d.src ≠ 1) : p.NestDepth 1 1 := by
  refine ⟨⟨1, _, by rw [hs]; rfl, ⟨.refl, .refl⟩, rfl⟩, ?_⟩
  intro j st hj hm
  have := dependsOn_one h hm.2
  subst this
  rw [hs] at hj
  cases hj
  decide

/-- C86: the hypotheses for `--nofuse` are met: `S1` depends on `S0` but not the other way round, and a scalar level comes first. -/
example : EmptyOracle exLibs.isEmpty ∧ FeasibleOracle exLibs.solve ∧ exAuto.InputOK ∧ ¬ exAuto.Mutual 0 1 ∧
    Outcome.view (autoTransform ⟨⟨true, false, false, true, -1⟩, .no⟩ exLibs noDiamond 10
      ⟨fun _ => 0, fun _ => 0, fun _ => 0, 0⟩ exAuto) =
      some (true, [[[0, 0, 0], [0, 1, 0], [1, 0, 0]], [[0, 1], [1, 0], [0, 0]]]) := by
  refine ⟨exTab_ok, listSolver_ok _, ⟨by decide, by decide⟩, ?_, by decide +kernel⟩
  intro h
  have := dependsOn_one (by decide) h.1
  omega

/-- C86: the hypotheses for `--smartfuse` are met: the dependence of `S1` on `S0` is between nests of depth 2 and 1. -/
example : EmptyOracle exLibs.isEmpty ∧ FeasibleOracle exLibs.solve ∧ exAuto.InputOK ∧ exAuto.NestDepth exAuto.deps[1].src 2 ∧
    exAuto.NestDepth exAuto.deps[1].dest 1 ∧ exAuto.deps[1].rar = false ∧
    Outcome.view (autoTransform ⟨⟨true, false, false, true, -1⟩, .smart⟩ exLibs noDiamond 10
      ⟨fun _ => 0, fun _ => 0, fun _ => 0, 0⟩ exAuto) =
      some (true, [[[0, 0, 0], [0, 1, 0], [1, 0, 0]], [[0, 1], [1, 0], [0, 0]]]) :=
  ⟨exTab_ok, listSolver_ok _, ⟨by decide, by decide⟩, exAuto_depth0 rfl, exAuto_depth1 rfl (by decide), rfl, by decide +kernel⟩

/-- `S0(i,j)` in `0..9 × 0..9` depends on `S0(i-1,j)`; `S1(j)` in `0..9` has nothing to do with it. -/
def exApart : Prog := { exAuto with deps := [exAuto.deps[0]] }

/-- C86 is violated by `--smartfuse` for statements of different depth without a dependence between them: `cut_scc_dim_based` takes its row back
when it satisfies no dependence, so the loop of a nest of depth 1 is fused with an outer loop of a nest of depth 2. -/
theorem C86_violated_smart_independent : ∃ (L : Libs) (p0 p : Prog), EmptyOracle L.isEmpty ∧ FeasibleOracle L.solve ∧ p0.InputOK ∧
    p0.NestDepth 0 2 ∧ p0.NestDepth 1 1 ∧
    autoTransform ⟨⟨true, false, false, true, -1⟩, .smart⟩ L noDiamond 10 ⟨fun _ => 0, fun _ => 0, fun _ => 0, 0⟩ p0 = some (.success p) ∧
    (∀ x y : Int, (p.timestamp 0 [x, y] [])[0]? = some y) ∧ (∀ y : Int, (p.timestamp 1 [y] [])[0]? = some y) ∧
    ¬ ∃ c, p0.SplitBy p c := by
  have hv : Outcome.view (autoTransform ⟨⟨true, false, false, true, -1⟩, .smart⟩ exLibs noDiamond 10
      ⟨fun _ => 0, fun _ => 0, fun _ => 0, 0⟩ exApart) = some (true, [[[0, 1, 0], [1, 0, 0]], [[1, 0], [0, 0]]]) := by decide +kernel
  obtain ⟨p, hp, ht⟩ := view_split hv
  have ht' : ∀ i : Nat, p.stmts[i]?.map (·.trans) = ([[[0, 1, 0], [1, 0, 0]], [[1, 0], [0, 0]]] : List (List (List Int)))[i]? := by
    intro i
    rw [← ht, List.getElem?_map]
  have h0 : ∀ x y : Int, (p.timestamp 0 [x, y] [])[0]? = some y := by
    intro x y
    unfold Prog.timestamp
    rw [ht']
    simp [aff, dot]
  refine ⟨exLibs, exApart, p, exTab_ok, listSolver_ok _, ⟨by decide, by decide⟩, exAuto_depth0 rfl, exAuto_depth1 rfl (by decide), hp,
    h0, ?_, ?_⟩
  · intro y
    unfold Prog.timestamp
    rw [ht']
    simp [aff, dot]
  · rintro ⟨c, hc⟩
    have e1 := hc 0 (by decide) [0, 0] [] rfl rfl
    have e2 := hc 0 (by decide) [0, 1] [] rfl rfl
    rw [h0] at e1 e2
    simp only [Option.some.injEq] at e1 e2
    omega

end Pluto
