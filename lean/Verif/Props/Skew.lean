import Verif.Props.Dfp

/-! C57: `introduce_skew` (`introduceSkew`: the new state, and whether a skew was introduced). `Prog.Padded`: state of the
program during the search (Verif/Spec/Search.lean); `LeadSat`, `AllTied`, `LexScales` (what is assumed
about the solver): Verif/Spec/Dfp.lean. -/

namespace Pluto

theorem skel_scales (a : Auto) {lex : Lex} (h : LexScales a.p lex) : LexScales (skel a.p) lex := by
  refine h.mono ?_
  intro d hd
  obtain ⟨d0, hd0, rfl⟩ := List.mem_map.mp hd
  exact ⟨d0, hd0, rfl, rfl⟩

section
variable (o : SearchOpts) (L : Libs) (lex : Lex) (hE : EmptyOracle L.isEmpty) (a a' : Auto) (b : Bool) (hL : LexScales a.p lex)
  (hp : a.p.Padded) (hz : ∀ st ∈ a.p.stmts, ∀ r ∈ st.trans, ∀ j, st.dimOrig ≤ j → j < a.p.nvar → coef r j = 0)
  (hd : ∀ d ∈ a.p.deps, DepOK a.p d) (hg : a.g.n = a.p.stmts.length) (h : introduceSkew o L lex a = some (a', b))
include hp hz hd

theorem skew_inv : SkelOK (skel a.p) ∧ Inv False (skel a.p) a.p := by
  constructor
  · constructor
    · intro st hst
      obtain ⟨st0, h0, rfl⟩ := List.mem_map.mp hst
      obtain ⟨g1, g2, g3, _⟩ := hp st0 h0
      exact ⟨g2, g1, g3⟩
    · intro d hd'
      obtain ⟨d0, h0, rfl⟩ := List.mem_map.mp hd'
      obtain ⟨g1, g2, g3, g4, g5, g6⟩ := hd d0 h0
      exact ⟨by simpa [skel, skelDep] using g1, by simpa [skel, skelDep] using g2, g3, g4, g5, g6⟩
  · refine ⟨rfl, ?_, nofun⟩
    intro st hst
    obtain ⟨_, _, _, g4, g5⟩ := hp st hst
    exact ⟨g5, fun r hr => ⟨g4 r hr, hz st hst r hr⟩⟩

include hE hL hg h

/-- C57. If no skew is reported, schedules are unchanged. -/
theorem C57_unchanged (hb : b = false) : a'.p.stmts = a.p.stmts := by
  obtain ⟨hk, hi⟩ := skew_inv a hp hz hd
  exact ((introduceSkew_spec hE (skel_scales a hL) hk hi hg h).2.1 hb).2

/-- C57. In any case the number of levels and their types stay the same, the rows of levels that are not loops stay the
same, domains and dependences stay the same, and the new rows have the right length and no coefficients for padding. -/
theorem C57_levels : a'.p.hProps = a.p.hProps ∧ a'.p.Padded ∧
    (∀ st ∈ a'.p.stmts, ∀ r ∈ st.trans, ∀ j, st.dimOrig ≤ j → j < a'.p.nvar → coef r j = 0) ∧
    (∀ i l, a.p.hProps[l]? ≠ some .loop → a'.p.row i l = a.p.row i l) ∧
    a'.p.nvar = a.p.nvar ∧ a'.p.npar = a.p.npar ∧
    List.Forall₂ (fun st st' : Stmt => st'.dim = st.dim ∧ st'.dimOrig = st.dimOrig ∧ st'.domain = st.domain) a.p.stmts a'.p.stmts ∧
    List.Forall₂ (fun d d' : Dep => d'.src = d.src ∧ d'.dest = d.dest ∧ d'.rar = d.rar ∧ d'.dpoly = d.dpoly) a.p.deps a'.p.deps := by
  obtain ⟨hk, hi⟩ := skew_inv a hp hz hd
  obtain ⟨_, _, g1, g2, g3, _⟩ := introduceSkew_spec hE (skel_scales a hL) hk hi hg h
  have hn := (sk_nvar g1.sk).symm.trans (sk_nvar hi.sk)
  have hm := (sk_npar g1.sk).symm.trans (sk_npar hi.sk)
  refine ⟨g2, ?_, fun st hst r hr => ((g1.rows st hst).2 r hr).2, g3, hn, hm, ?_, ?_⟩
  · intro st hst
    obtain ⟨e1, e2, e3⟩ := hk.stmt g1.sk hst
    exact ⟨e2, e1, e3, fun r hr => ((g1.rows st hst).2 r hr).1, (g1.rows st hst).1⟩
  · have e : a'.p.stmts.map skelStmt = a.p.stmts.map skelStmt := congrArg Prog.stmts g1.sk
    have hlen : a'.p.stmts.length = a.p.stmts.length := by simpa using congrArg List.length e
    rw [List.forall₂_iff_get]
    refine ⟨hlen.symm, fun i h1 h2 => ?_⟩
    have := congrArg (fun l => l[i]?) e
    simp only [List.getElem?_map, List.getElem?_eq_getElem h1, List.getElem?_eq_getElem h2, Option.map_some, Option.some.injEq, skelStmt, Stmt.mk.injEq] at this
    simp only [List.get_eq_getElem]
    exact ⟨this.1, this.2.1, this.2.2.1⟩
  · have e : a'.p.deps.map skelDep = a.p.deps.map skelDep := congrArg Prog.deps g1.sk
    have hlen : a'.p.deps.length = a.p.deps.length := by simpa using congrArg List.length e
    rw [List.forall₂_iff_get]
    refine ⟨hlen.symm, fun i h1 h2 => ?_⟩
    have := congrArg (fun l => l[i]?) e
    simp only [List.getElem?_map, List.getElem?_eq_getElem h1, List.getElem?_eq_getElem h2, Option.map_some, Option.some.injEq, skelDep, Dep.mk.injEq] at this
    simp only [List.get_eq_getElem]
    exact ⟨this.1, this.2.1, this.2.2.1, this.2.2.2.1⟩

/-- C57. What the scalar levels before the first loop order stays ordered: a pair of instances that one of them puts in
order (with no earlier level against it) is in the same order afterwards. -/
theorem C57_leading (n : Nat) (hn : ∀ l < n, a.p.hProps[l]? ≠ some .loop) (d : Dep) (s t q : List Int) (l : Nat) (hl : l < n)
    (h1 : 1 ≤ a.p.comp d l s t q) (h2 : ∀ l' < l, 0 ≤ a.p.comp d l' s t q) :
    1 ≤ a'.p.comp d l s t q ∧ ∀ l' < l, 0 ≤ a'.p.comp d l' s t q := by
  obtain ⟨_, _, _, hr, _⟩ := C57_levels o L lex hE a a' b hL hp hz hd hg h
  have e : ∀ l < n, a'.p.comp d l s t q = a.p.comp d l s t q := fun l hl => comp_rows (hr _ _ (hn l hl)) (hr _ _ (hn l hl)) s t q
  refine ⟨by rw [e l hl]; exact h1, fun l' hl' => by rw [e l' (by omega)]; exact h2 l' hl'⟩

/-- C57 (missing: programs with more than one connected component, see `C57_violated`; an order for dependences with negative
components). Let `n` be the first loop level, and let all statements be connected by dependences that the levels before it do
not satisfy. Then for each such dependence, each loop level of the new schedule has the distances of some loop level of the
old one, or all its distances are non-negative. -/
theorem C57_component_partial (n : Nat) (hn : ∀ l < n, a.p.hProps[l]? ≠ some .loop) (hn' : a.p.hProps[n]? = some .loop)
    (hT : AllTied a.p n) (d : Dep) (hdm : d ∈ a.p.deps) (hr : d.rar = false) (hs : ¬ LeadSat a.p n d) (l : Nat)
    (hl : a.p.hProps[l]? = some .loop) :
    (∃ l0, a.p.hProps[l0]? = some .loop ∧ ∀ s t q, a'.p.comp d l s t q = a.p.comp d l0 s t q) ∨
    (∀ s t q, a.p.Inst d s t q → 0 ≤ a'.p.comp d l s t q) := by
  obtain ⟨hk, hi⟩ := skew_inv a hp hz hd
  exact (introduceSkew_spec hE (skel_scales a hL) hk hi hg h).2.2.2.2.2 n hn hn' hT d hdm hr hs l hl

/-- C57. In particular a dependence without negative components still has none. -/
theorem C57_nonneg_partial (n : Nat) (hn : ∀ l < n, a.p.hProps[l]? ≠ some .loop) (hn' : a.p.hProps[n]? = some .loop)
    (hT : AllTied a.p n) (d : Dep) (hdm : d ∈ a.p.deps) (hr : d.rar = false) (hs : ¬ LeadSat a.p n d)
    (hnn : ∀ s t q, a.p.Inst d s t q → a.p.AllNonneg d s t q) (s t q : List Int) (hi : a.p.Inst d s t q) : a'.p.AllNonneg d s t q := by
  obtain ⟨e1, _, _, e2, _⟩ := C57_levels o L lex hE a a' b hL hp hz hd hg h
  intro l hl
  rw [e1] at hl
  by_cases hloop : a.p.hProps[l]? = some .loop
  · rcases C57_component_partial o L lex hE a a' b hL hp hz hd hg h n hn hn' hT d hdm hr hs l hloop with ⟨l0, h0, e⟩ | e
    · rw [e]
      exact hnn s t q hi l0 (List.getElem?_eq_some_iff.mp h0).1
    · exact e s t q hi
  · rw [comp_rows (e2 _ _ hloop) (e2 _ _ hloop)]
    exact hnn s t q hi l hl

end

/-! ### A skew that reverses a dependence of another component -/

def skewStmt (t : List (List Int)) : Stmt :=
  ⟨2, 2, ⟨3, [⟨false, [1, 0, 0]⟩, ⟨false, [-1, 0, 1]⟩, ⟨false, [0, 1, 0]⟩, ⟨false, [0, -1, 1]⟩]⟩, [true, true], t, [.loop, .loop, .scalar]⟩

def skewDep0 : List Row :=
  [⟨true, [-1, 0, 1, 0, -1]⟩, ⟨true, [0, -1, 0, 1, 1]⟩, ⟨false, [1, 0, 0, 0, 0]⟩, ⟨false, [0, 0, -1, 0, 1]⟩, ⟨false, [0, 0, 0, 1, 0]⟩, ⟨false, [0, -1, 0, 0, 1]⟩]

def skewDep1 : List Row :=
  [⟨true, [-1, 0, 1, 0, 0]⟩, ⟨true, [0, -1, 0, 1, 1]⟩, ⟨false, [1, 0, 0, 0, 0]⟩, ⟨false, [-1, 0, 0, 0, 1]⟩, ⟨false, [0, 0, 0, 1, 0]⟩, ⟨false, [0, -1, 0, 0, 1]⟩]

/-- Three statements in `0..1 × 0..1`: `S0(i+1,j-1)` depends on `S0(i,j)`, and `S2(i,j-1)` on `S1(i,j)`. The loop `j` of `S2`
is shifted by one. -/
def exSkew : Prog :=
  ⟨2, 0, [skewStmt [[1, 0, 0], [0, 1, 0], [0, 0, 0]], skewStmt [[1, 0, 0], [0, 1, 0], [0, 0, 0]], skewStmt [[1, 0, 0], [0, 1, 1], [0, 0, 1]]],
    [⟨0, 0, false, ⟨5, skewDep0⟩, ⟨5, []⟩, false, -1, [], []⟩,
     ⟨1, 2, false, ⟨5, skewDep1⟩, ⟨5, []⟩, false, -1, [], []⟩], [.loop, .loop, .scalar]⟩

def skewEmpties : List Cst :=
  [⟨5, ⟨false, [-1, -1, 1, 1, -1]⟩ :: skewDep0⟩, ⟨5, ⟨false, [0, -1, 0, 1, -1]⟩ :: skewDep0⟩, ⟨5, ⟨false, [0, 0, 0, 0, -1]⟩ :: skewDep0⟩,
   ⟨5, ⟨false, [1, 0, -1, 0, -1]⟩ :: skewDep0⟩, ⟨5, ⟨false, [1, 0, -1, 0, 0]⟩ :: skewDep0⟩, ⟨5, ⟨false, [1, 1, -1, -1, -1]⟩ :: skewDep0⟩,
   ⟨5, ⟨false, [-1, 0, 1, 0, -1]⟩ :: skewDep1⟩, ⟨5, ⟨false, [0, -1, 0, 1, -1]⟩ :: skewDep1⟩, ⟨5, ⟨false, [0, -1, 0, 1, 0]⟩ :: skewDep1⟩,
   ⟨5, ⟨false, [0, 0, 0, 0, -2]⟩ :: skewDep1⟩, ⟨5, ⟨false, [0, 1, 0, -1, -2]⟩ :: skewDep1⟩, ⟨5, ⟨false, [1, 0, -1, 0, -1]⟩ :: skewDep1⟩]

noncomputable def skewLibs : Libs :=
  ⟨fun _ _ => [], certOracle [[0, 1, 1, 0], [0, 1, 0, 0]] skewEmpties, listSolver [[0, 1, 1, 0, 0, 1, 0, 0, 1, 0]]⟩

theorem skewLibs_ok : EmptyOracle skewLibs.isEmpty := by
  refine certOracle_ok _ _ ?_
  rintro c hc ⟨x, hx, hs⟩
  simp only [skewEmpties, List.mem_cons, List.not_mem_nil, or_false] at hc
  rcases hc with rfl | rfl | rfl | rfl | rfl | rfl | rfl | rfl | rfl | rfl | rfl | rfl <;>
  · match x, hx with
    | [i, j, i', j'], _ =>
      simp [Cst.Sat, Row.Sat, skewDep0, skewDep1, aff, dot] at hs
      try omega

def skewAuto (p : Prog) : Auto := ⟨p, ddgCreate p, ⟨fun _ => 0, fun _ => 0, fun _ => 0, 0⟩, fun i => i, p.stmts.length⟩

/-- C57 fails in general: a schedule that respects all dependences is turned into one that runs `S2(0,0)` before `S1(0,1)`,
on which it depends. The system for a skew of `S0` has the permutability constraints of the connected component of `S0`
only, but the row is set for all statements (lib/framework-dfp.c:3262-3447): the coefficients of other components are kept,
their shifts are not. -/
theorem C57_violated : EmptyOracle skewLibs.isEmpty ∧ FeasibleOracle skewLibs.solve ∧ exSkew.Padded ∧
    (∀ d ∈ exSkew.deps, DepOK exSkew d) ∧
    (∀ d ∈ exSkew.deps, ∀ s t, exSkew.Inst d s t [] → LexBefore (exSkew.timestamp d.src s []) (exSkew.timestamp d.dest t [])) ∧
    exSkew.Inst (exSkew.deps[1]) [0, 1] [0, 0] [] ∧
    ∃ a', introduceSkew ⟨true, true, false, true, -1⟩ skewLibs (lexIlp ⟨true, true, false, true, -1⟩ skewLibs) (skewAuto exSkew) = some (a', true) ∧
      LexBefore (a'.p.timestamp 2 [0, 0] []) (a'.p.timestamp 1 [0, 1] []) := by
  refine ⟨skewLibs_ok, listSolver_ok _, by unfold Prog.Padded; decide, ?_, ?_, ⟨rfl, rfl, rfl, by decide⟩, ?_⟩
  · intro d hd
    simp only [exSkew, List.mem_cons, List.not_mem_nil, or_false] at hd
    rcases hd with rfl | rfl <;> exact ⟨by decide, by decide, by decide, by decide, by decide, by decide⟩
  · intro d hd s t hi
    have hs := hi.hs
    have ht := hi.ht
    have hsat := hi.sat
    simp only [exSkew, List.mem_cons, List.not_mem_nil, or_false] at hd
    rcases hd with rfl | rfl
    · match s, t, hs, ht with
      | [i, j], [i', j'], _, _ =>
        have h1 := hsat ⟨true, [-1, 0, 1, 0, -1]⟩ (by simp [skewDep0])
        simp [Row.Sat, aff, dot] at h1
        refine ⟨0, i, i', ?_, ?_, by omega, fun l hl => absurd hl (by omega)⟩ <;>
          simp [Prog.timestamp, exSkew, skewStmt, aff, dot]
    · match s, t, hs, ht with
      | [i, j], [i', j'], _, _ =>
        have h1 := hsat ⟨true, [-1, 0, 1, 0, 0]⟩ (by simp [skewDep1])
        have h2 := hsat ⟨true, [0, -1, 0, 1, 1]⟩ (by simp [skewDep1])
        simp [Row.Sat, aff, dot] at h1 h2
        refine ⟨2, 0, 1, ?_, ?_, by omega, ?_⟩
        · simp [Prog.timestamp, exSkew, skewStmt, aff, dot]
        · simp [Prog.timestamp, exSkew, skewStmt, aff, dot]
        · intro l hl
          match l, hl with
          | 0, _ => simp [Prog.timestamp, exSkew, skewStmt, aff, dot]; omega
          | 1, _ => simp [Prog.timestamp, exSkew, skewStmt, aff, dot]; omega
  · have hrun : (introduceSkew ⟨true, true, false, true, -1⟩ skewLibs (lexIlp ⟨true, true, false, true, -1⟩ skewLibs) (skewAuto exSkew)).map
        (fun r => (r.1.p.stmts.map (·.trans), r.2)) =
        some ([[[1, 1, 0], [1, 0, 0], [0, 0, 0]], [[1, 0, 0], [0, 1, 0], [0, 0, 0]], [[1, 0, 0], [0, 1, 0], [0, 0, 1]]], true) := by
      decide +kernel
    obtain ⟨⟨a', b⟩, h1, h2⟩ := Option.map_eq_some_iff.mp hrun
    simp only [Prod.mk.injEq] at h2
    obtain ⟨h2, rfl⟩ := h2
    refine ⟨a', h1, 1, 0, 1, ?_, ?_, by omega, ?_⟩
    · unfold Prog.timestamp
      rw [← List.getElem?_map, h2]; rfl
    · unfold Prog.timestamp
      rw [← List.getElem?_map, h2]; rfl
    · intro l hl
      obtain rfl : l = 0 := by omega
      unfold Prog.timestamp
      rw [← List.getElem?_map, ← List.getElem?_map, h2]
      rfl

/-- The first statement alone. -/
def exSkew1 : Prog :=
  ⟨2, 0, [skewStmt [[1, 0, 0], [0, 1, 0], [0, 0, 0]]], [⟨0, 0, false, ⟨5, skewDep0⟩, ⟨5, []⟩, false, -1, [], []⟩], [.loop, .loop, .scalar]⟩

noncomputable def skewLibs1 : Libs :=
  ⟨fun _ _ => [], certOracle [[0, 1, 1, 0], [0, 1, 0, 0]] skewEmpties, listSolver [[0, 1, 1, 0]]⟩

/-- The hypotheses of `C57_component_partial` are met, and a skew `i + j` is introduced and becomes the outer level. -/
example : EmptyOracle skewLibs1.isEmpty ∧ FeasibleOracle skewLibs1.solve ∧ exSkew1.Padded ∧ (∀ d ∈ exSkew1.deps, DepOK exSkew1 d) ∧
    AllTied exSkew1 0 ∧ (∀ d, ¬ LeadSat exSkew1 0 d) ∧
    (introduceSkew ⟨true, true, false, true, -1⟩ skewLibs1 (lexIlp ⟨true, true, false, true, -1⟩ skewLibs1) (skewAuto exSkew1)).map (fun r => (r.1.p.stmts.map (·.trans), r.2)) =
      some ([[[1, 1, 0], [1, 0, 0], [0, 0, 0]]], true) := by
  refine ⟨skewLibs_ok, listSolver_ok _, by unfold Prog.Padded; decide, ?_, ?_, ?_, by decide +kernel⟩
  · intro d hd
    simp only [exSkew1, List.mem_cons, List.not_mem_nil, or_false] at hd
    subst hd
    exact ⟨by decide, by decide, by decide, by decide, by decide, by decide⟩
  · intro i hi j hj
    have : i = j := by simp [exSkew1] at hi hj; omega
    rw [this]
  · rintro d ⟨l, hl, _⟩
    omega

end Pluto
