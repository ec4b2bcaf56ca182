import Verif.Props.DfpCluster
import Verif.Props.FcgCluster

/-! C75: the colouring with `--clusterscc` need not end. -/

namespace Pluto

/-- The first `n` visits of component 0 at level 1 all end with the components being visited again from the start. -/
def ClRestarts (isEmpty : Cst → Bool) (o : ClOpts) (fcgOf : ClBuild) (fuse : Fuse) : Nat → Cl → Prop
  | 0, _ => True
  | n + 1, d => ∃ d', Cl.colourOne isEmpty o fcgOf fuse 1 false none 0 d = some (.again d') ∧ ClRestarts isEmpty o fcgOf fuse n d'

/-- A program with one component, consisting of one statement, none of whose loops can be coloured. -/
structure Stuck (q : Prog) (d : Cl) : Prop where
  prog : d.a.p = q
  stmts : ∃ st, d.a.p.stmts = [st] ∧ 0 < st.dimOrig
  gn : d.a.g.n = 1
  scc : d.a.scc 0 = 0
  num : d.a.num = 1
  coloured : d.coloured = 0
  self : ∀ j < d.a.width 0, d.f.g.adj (d.a.sccOffset 0 + j) (d.a.sccOffset 0 + j) = 1
  zero : ∀ v, colourOf d.colour v = 0
  done : d.done 0 = false

theorem Stuck.maxDim {q : Prog} {d : Cl} (h : Stuck q d) : 0 < d.a.maxDim 0 := by
  obtain ⟨st, h1, h2⟩ := h.stmts
  unfold Auto.maxDim
  rw [h1]
  simp [h.scc]
  omega

theorem tryLoops_stuck (o : ClOpts) (hl : o.lpcolour = false) (c s : Nat) (n : Nat) : ∀ (disc : List Nat) (d : Cl),
    (∀ j < d.a.width s, d.f.g.adj (d.a.sccOffset s + j) (d.a.sccOffset s + j) = 1) → Cl.tryLoops o c s n disc d = (d, false) := by
  induction n with
  | zero => intro disc d _; rfl
  | succ n ih =>
    intro disc d h
    rw [Cl.tryLoops]
    split
    · rfl
    · rename_i i hi
      have hiw : i < d.a.width s := by
        unfold Cl.nextLoop at hi
        rw [hl] at hi
        simp only [Bool.false_eq_true, if_false] at hi
        exact List.mem_range.mp (List.mem_of_find?_eq_some hi)
      dsimp only
      split_ifs with h1 h2
      · exact ih _ d h
      · exact ih _ d h
      · exact absurd (by simp [h i hiw]) h2
      · exact absurd (by simp [h i hiw]) h2
      · exact absurd (by simp [h i hiw]) h2

/-- The graphs of a program have self edges on all loops, as long as these have no colour. -/
def SelfEdges (fcgOf : ClBuild) (q : Prog) : Prop :=
  ∀ a colour c hp sc, a.p = q → a.scc 0 = 0 → a.num = 1 → (∀ v, colourOf colour v = 0) →
    ∀ j < a.width 0, (fcgOf a colour c hp sc).g.adj (a.sccOffset 0 + j) (a.sccOffset 0 + j) = 1

theorem scc_single {g : Graph} (hg : g.n = 1) {s0 : DfsState} {s : SccState} (h : ddgComputeScc g s0 = some s) : s.scc 0 = 0 ∧ s.num = 1 := by
  obtain ⟨s', e, _, _, h3⟩ := C14_scc g s0
  rw [h] at e
  cases e
  have h0 := (h3 (s.scc 0)).mpr ⟨0, by omega, rfl⟩
  have e : s.scc 0 = 0 := by
    obtain ⟨i, hi, e⟩ := (h3 0).mp ⟨le_refl _, by omega⟩
    obtain rfl : i = 0 := by omega
    exact e
  refine ⟨e, ?_⟩
  by_contra hne
  obtain ⟨i, hi, e1⟩ := (h3 1).mp ⟨by omega, by omega⟩
  obtain rfl : i = 0 := by omega
  omega

theorem stuck_again {isEmpty : Cst → Bool} {o : ClOpts} (ho : o.typed = false) (hl : o.lpcolour = false) {fcgOf : ClBuild}
    {q : Prog} (hF : SelfEdges fcgOf q) {fuse : Fuse} (hf : fuse ≠ .no) {d : Cl} (h : Stuck q d) :
    ∃ d', Cl.colourOne isEmpty o fcgOf fuse 1 false none 0 d = some (.again d') ∧ Stuck q d' := by
  have hm := h.maxDim
  obtain ⟨ss, e, _⟩ := C14_scc (ddgUpdate d.a.g d.a.p) d.a.d
  have hn : (ddgUpdate d.a.g d.a.p).n = 1 := h.gn
  obtain ⟨e1, e2⟩ := scc_single hn e
  have hscc : ∃ a', ({ d.a with g := ddgUpdate d.a.g d.a.p } : Auto).computeScc = some a' := by
    unfold ddgComputeScc at e
    obtain ⟨x, hx, hy⟩ := Option.bind_eq_some_iff.mp e
    refine ⟨{ d.a with g := ddgUpdate d.a.g d.a.p, d := x, scc := ss.scc, num := ss.num }, ?_⟩
    unfold Auto.computeScc
    rw [Option.bind_eq_bind, Option.bind_eq_some_iff]
    refine ⟨x, hx, ?_⟩
    rw [Option.bind_eq_bind, Option.bind_eq_some_iff]
    exact ⟨ss, hy, rfl⟩
  obtain ⟨a', ha'⟩ := hscc
  obtain ⟨q1, q2, s', q3, q4, q5⟩ := computeScc_eq ha'
  have q3' : ddgComputeScc (ddgUpdate d.a.g d.a.p) d.a.d = some s' := q3
  rw [e] at q3'
  cases q3'
  have hz : ∀ i j, stmtColour d.a d.colour i j = 0 := by
    intro i j
    unfold stmtColour
    split_ifs
    · exact h.zero _
    · rfl
  refine ⟨{
    a := a', f := fcgOf a' (sccColours a' (stmtColour d.a d.colour)) 1 (fun s => d.hasPar (d.a.scc (a'.firstStmt s)).toNat)
      (fun s => d.stencil (d.a.scc (a'.firstStmt s)).toNat), colour := sccColours a' (stmtColour d.a d.colour)
    coloured := 0, rebuild := false
    done := fun s => (List.range (a'.width s)).any (fun j => stmtColour d.a d.colour (a'.colourStmt s) j == 1)
    hasPar := fun s => d.hasPar (d.a.scc (a'.firstStmt s)).toNat
    stencil := fun s => d.stencil (d.a.scc (a'.firstStmt s)).toNat }, ?_, ?_⟩
  · unfold Cl.colourOne Cl.distribute Cl.typedCut Cl.colourScc Cl.cutIfNoFuse Cl.rebuildFcg
    rw [if_neg (by simp)]
    simp only [Option.bind_eq_bind, Option.bind_some, h.coloured, ho]
    rw [if_neg (show ¬ (((0 : Nat) : Int) > d.a.maxDim 0) by push_cast; omega),
      if_neg (show ¬ (((0 : Nat) : Int) = d.a.maxDim 0) by push_cast; omega)]
    simp only [Bool.false_and, Bool.false_eq_true, if_false, Option.bind_some, tryLoops_stuck o hl 1 0 _ [] d h.self, or_true, if_true, if_neg hf, ha',
      Option.pure_def]
    rw [h.coloured]
  · have hcol : ∀ v, colourOf (sccColours a' (stmtColour d.a d.colour)) v = 0 := by
      intro v
      unfold colourOf sccColours
      simp only [hz, List.getD_eq_getElem?_getD]
      cases e : (List.flatMap (fun s => (List.range (a'.width s)).map (fun _ => 0)) (List.range a'.num))[v]? with
      | none => rfl
      | some x =>
        have := List.mem_of_getElem? e
        obtain ⟨s, _, hs⟩ := List.mem_flatMap.mp this
        obtain ⟨_, _, e⟩ := List.mem_map.mp hs
        rw [← e]; rfl
    have hprog : a'.p = q := by rw [q1]; exact h.prog
    refine ⟨hprog, ?_, ?_, ?_, ?_, rfl, ?_, ?_, ?_⟩
    · show ∃ st, a'.p.stmts = [st] ∧ 0 < st.dimOrig
      rw [q1]; exact h.stmts
    · show a'.g.n = 1
      rw [q2]; exact h.gn
    · show a'.scc 0 = 0
      rw [← q4]; exact e1
    · show a'.num = 1
      rw [← q5]; exact e2
    · exact hF a' _ _ _ _ hprog (by rw [← q4]; exact e1) (by rw [← q5]; exact e2) hcol
    · exact hcol
    · show (List.range (a'.width 0)).any (fun j => stmtColour d.a d.colour (a'.colourStmt 0) j == 1) = false
      simp [hz]

theorem stuck_restarts {isEmpty : Cst → Bool} {o : ClOpts} (ho : o.typed = false) (hl : o.lpcolour = false) {fcgOf : ClBuild}
    {q : Prog} (hF : SelfEdges fcgOf q) {fuse : Fuse} (hf : fuse ≠ .no) (n : Nat) :
    ∀ d : Cl, Stuck q d → ClRestarts isEmpty o fcgOf fuse n d := by
  induction n with
  | zero => intro d _; trivial
  | succ n ih =>
    intro d h
    obtain ⟨d', h1, h2⟩ := stuck_again (isEmpty := isEmpty) ho hl hF hf h
    exact ⟨d', h1, ih d' h2⟩

theorem stuck_none {isEmpty : Cst → Bool} {o : ClOpts} (ho : o.typed = false) (hl : o.lpcolour = false) {fcgOf : ClBuild}
    {q : Prog} (hF : SelfEdges fcgOf q) {fuse : Fuse} (hf : fuse ≠ .no) (n : Nat) :
    ∀ d : Cl, Stuck q d → Cl.colourFcg isEmpty o fcgOf fuse 1 n false none 0 d = none := by
  induction n with
  | zero => intro d _; rfl
  | succ n ih =>
    intro d h
    obtain ⟨d', h1, h2⟩ := stuck_again (isEmpty := isEmpty) ho hl hF hf h
    have hm := h.maxDim
    rw [Cl.colourFcg, if_neg (by rw [h.num]; omega), if_neg (by
      rw [h.done]
      simp
      omega)]
    rw [h1]
    simp only [ho, Option.bind_eq_bind, Option.bind_some, Bool.false_eq_true, if_false]
    exact ih d' h2

/-- A loop that runs downwards: `S(i-1)` depends on `S(i)`, for 0 ≤ i ≤ 9. -/
def exDown : Prog :=
  ⟨1, 0, [⟨1, 1, ⟨2, [⟨false, [1, 0]⟩, ⟨false, [-1, 9]⟩]⟩, [true], [], []⟩],
    [⟨0, 0, false, ⟨3, [⟨true, [1, -1, -1]⟩, ⟨false, [0, 1, 0]⟩, ⟨false, [-1, 0, 9]⟩]⟩, ⟨3, []⟩, false, -1, [], []⟩], []⟩

/-- The program and graph before the first level of the search for `exDown`. -/
def downAuto (L : Libs) : Option Auto := do
  let a ← (⟨exDown, ddgCreate exDown, ⟨fun _ => 0, fun _ => 0, fun _ => 0, 0⟩, fun _ => -1, 0⟩ : Auto).computeScc
  let s ← autoInit { (⟨⟨true, true, false, true, -1⟩, .smart⟩ : AutoOpts) with fuse := .max } L a
  noFuseCut ⟨⟨true, true, false, true, -1⟩, .smart⟩ L s.a

/-- The state of the search for `exDown` before the first level. -/
def downInit (L : Libs) (fcgOf : ClBuild) : Option Cl := do
  let a ← (⟨exDown, ddgCreate exDown, ⟨fun _ => 0, fun _ => 0, fun _ => 0, 0⟩, fun _ => -1, 0⟩ : Auto).computeScc
  clInit ⟨⟨true, true, false, true, -1⟩, .smart⟩ ⟨false, false, false, true⟩ L fcgOf (fun _ _ => false) a

theorem down_self (lp : Cst → List Int → Option (List ℚ)) (hlp : LpSolver lp) :
    SelfEdges (clBuildFcg lp ⟨true, true, false, true, -1⟩ ⟨false, false, false, true⟩) exDown := by
  intro a colour c hp sc h1 h2 h3 h4 j hj
  obtain ⟨p, g, d, scc, num⟩ := a
  simp only at h1 h2 h3
  subst h1
  have hin : InScc ⟨exDown, g, d, scc, num⟩ 0 0 := ⟨by show 0 < 1; omega, h2⟩
  have hj0 : j = 0 := by
    obtain ⟨i, hi, h⟩ := maxDim_attained _ _ hj
    have hi0 : i < 1 := hi.1
    obtain rfl : i = 0 := by omega
    have : depthOf exDown 0 = 1 := rfl
    have h' : j < depthOf exDown 0 := h
    omega
  subst hj0
  refine (C76_self lp hlp ⟨true, true, false, true, -1⟩ ⟨false, false, false, true⟩ ⟨exDown, g, d, scc, num⟩ ?_ ?_ ?_ colour c hp sc 0 (by show 0 < num; omega)
    0 hj (Or.inl (h4 _)) ⟨_, List.mem_cons_self, rfl, nofun, hin, hin⟩).mpr ?_
  · intro st hst
    simp only [exDown, List.mem_cons, List.not_mem_nil, or_false] at hst
    subst hst
    exact ⟨le_refl 1, rfl, rfl, by simp, rfl⟩
  · intro d hd
    simp only [exDown, List.mem_cons, List.not_mem_nil, or_false] at hd
    subst hd
    exact ⟨by show 0 < 1; omega, by show 0 < 1; omega, by decide, rfl, by decide, rfl⟩
  · intro d hd
    simp only [exDown, List.mem_cons, List.not_mem_nil, or_false] at hd
    subst hd
    exact ⟨⟨[1], [0], [], rfl, rfl, rfl, by simp [Cst.Sat, Row.Sat, aff, dot]⟩, ⟨[1], [0], [], rfl, rfl, rfl, by simp [Cst.Sat]⟩⟩
  · rintro ⟨v, hv, hl, _⟩
    obtain ⟨⟨e1, e2, _⟩, e3⟩ := hv 0 hin
    have h := hl _ List.mem_cons_self ⟨rfl, nofun, hin, hin⟩ rfl [1] [0] [] ⟨rfl, rfl, rfl, by simp [Cst.Sat, Row.Sat, aff, dot]⟩
    have e4 := (e2 (by show 0 < 1; omega)).1
    simp [LoopLevel.time, e1, e3] at h
    linarith

/-- C75. For a loop that runs downwards the call does not return: at level 1 colouring component 0 fails, and as `i == 0`
the graph is rebuilt and all components are visited again (lib/framework-dfp.c:2614-2638), with the same outcome, again
and again. So no number of visits suffices. (Without `--clusterscc` an assertion fails in this case.) The graphs are those
that `build_fusion_conflict_graph` builds (C76). -/
theorem C75_violated_termination (L : Libs) (lex : Lex) (skew : Auto → Option Auto) (lp : Cst → List Int → Option (List ℚ))
    (hlp : LpSolver lp) :
    exDown.InputOK ∧
    (∃ d, downInit L (clBuildFcg lp ⟨true, true, false, true, -1⟩ ⟨false, false, false, true⟩) = some d ∧
      ∀ n, ClRestarts L.isEmpty ⟨false, false, false, true⟩ (clBuildFcg lp ⟨true, true, false, true, -1⟩ ⟨false, false, false, true⟩) .smart n
        { d with done := fun _ => false }) ∧
    ∀ fuel, clTransform ⟨⟨true, true, false, true, -1⟩, .smart⟩ ⟨false, false, false, true⟩ L lex
      (clBuildFcg lp ⟨true, true, false, true, -1⟩ ⟨false, false, false, true⟩) (fun _ _ => false) skew fuel
      ⟨fun _ => 0, fun _ => 0, fun _ => 0, 0⟩ exDown = none := by
  have hself := down_self lp hlp
  generalize clBuildFcg lp ⟨true, true, false, true, -1⟩ ⟨false, false, false, true⟩ = fcgOf at hself
  have key : ∃ d, downInit L fcgOf = some d ∧ Stuck exDown { d with done := fun _ => false } ∧ d.a.p.nvar = 1 := by
    have hr : (downAuto L).map (fun a => (a.p, [a.g.n, a.num, a.clSize], a.scc 0)) = some (exDown, [1, 1, 1], 0) := by
      rw [show downAuto L = downAuto ⟨fun _ _ => [], fun _ => true, fun _ => none⟩ from rfl]
      decide +kernel
    obtain ⟨a, h1, h2⟩ := Option.map_eq_some_iff.mp hr
    simp only [Prod.mk.injEq, List.cons.injEq, and_true] at h2
    obtain ⟨g1, ⟨g2, g3, g4⟩, g5⟩ := h2
    have hd : downInit L fcgOf = some ⟨a, fcgOf a (List.replicate a.clSize 0) 1 (fun _ => false) (fun _ => false), List.replicate a.clSize 0, 0, false,
        fun _ => false, fun _ => false, fun _ => false⟩ := by
      unfold downAuto at h1
      unfold downInit clInit
      simp only [Option.bind_eq_bind] at h1 ⊢
      obtain ⟨a1, h3, h1⟩ := Option.bind_eq_some_iff.mp h1
      obtain ⟨s1, h4, h1⟩ := Option.bind_eq_some_iff.mp h1
      rw [h3, Option.bind_some, h4, Option.bind_some, h1]
      rfl
    have hcol : ∀ v, colourOf (List.replicate a.clSize 0) v = 0 := by
      intro v
      unfold colourOf
      rw [List.getD_eq_getElem?_getD, List.getElem?_replicate]
      split_ifs <;> rfl
    refine ⟨_, hd, ⟨g1, ?_, g2, g5, g3, rfl, hself a _ _ _ _ g1 g5 g3 hcol, hcol, rfl⟩, by show a.p.nvar = 1; rw [g1]; rfl⟩
    show ∃ st, a.p.stmts = [st] ∧ 0 < st.dimOrig
    rw [g1]
    exact ⟨_, rfl, by decide⟩
  obtain ⟨d, h1, h2, h3⟩ := key
  refine ⟨⟨by decide, by decide⟩, ⟨d, h1, fun n => stuck_restarts rfl rfl hself (by decide) n _ h2⟩, fun fuel => ?_⟩
  unfold downInit at h1
  rw [Option.bind_eq_bind, Option.bind_eq_some_iff] at h1
  obtain ⟨a, ha, h1⟩ := h1
  unfold clTransform
  dsimp only
  have ha' : (⟨{ exDown with deps := exDown.deps.map (fun d => { d with satisfied := false }) },
      ddgCreate { exDown with deps := exDown.deps.map (fun d => { d with satisfied := false }) },
      ⟨fun _ => 0, fun _ => 0, fun _ => 0, 0⟩, fun _ => -1, 0⟩ : Auto).computeScc = some a := ha
  rw [Option.bind_eq_bind, ha']
  rw [Option.bind_some, if_neg (by decide), Option.bind_eq_bind, h1, Option.bind_some, h3]
  simp only [Cl.levels, Cl.level, stuck_none (isEmpty := L.isEmpty) (o := ⟨false, false, false, true⟩) rfl rfl (fcgOf := fcgOf) hself
    (fuse := .smart) (by decide) fuel _ h2, Option.bind_eq_bind, Option.bind_none]

end Pluto
