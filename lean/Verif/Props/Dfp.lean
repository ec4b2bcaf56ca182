import Verif.Lemmas.SkewRun
import Verif.Props.Auto

/-! C56: the automatic transformation with `--dfp` (`dfpTransform` is `pluto_auto_transform` with this option).
`FcgOracle`, `LexScales` (what is assumed about the solver), `DepChain`, `LoopRow`: Verif/Spec/Dfp.lean; `LexBefore`, `Prog.timestamp`: Verif/Spec/Auto.lean.
`dfpSkew`, `quietSkew` (Verif/Model/Skew.lean): the call of `introduce_skew`; the second stands for calls that introduce no
skew. See C57 for skewing. -/

namespace Pluto

section
variable (o : AutoOpts) (delayedCut : Bool) (L : Libs) (lex : Lex) (hE : EmptyOracle L.isEmpty)
  (fcgOf : Auto → List Nat → Nat → Graph) (hF : FcgOracle fcgOf) (d0 : DfsState) (p0 p : Prog) (hL : LexScales p0 lex) (hp : p0.InputOK)
  (hne : p0.stmts ≠ []) (h : dfpTransform o delayedCut L lex fcgOf (quietSkew o.toSearchOpts L lex) d0 p0 = some p)
include hE hL hF hp hne h

/-- C56 (missing: runs that introduce a skew, and an order for the instances of statements that depend on each other, see
`C56_violated`). Whatever edges the fusion conflict graphs have: in the result, the source of a dependent pair of
instances comes before its target, or the two have the same timestamp. The latter happens only to dependences that
are part of a cycle of dependences and that are marked as not satisfied in the result. -/
theorem C56_order_partial (j : Nat) (d : Dep) (hd : p0.deps[j]? = some d) (hr : d.rar = false) (s t q : List Int)
    (hi : p0.Inst d s t q) :
    LexBefore (p.timestamp d.src s q) (p.timestamp d.dest t q) ∨
      (p.timestamp d.src s q = p.timestamp d.dest t q ∧ DepChain p0 d.dest d.src ∧
        p.deps[j]?.map (·.satisfied) = some false) :=
  (dfp_out hE hL hF (fun k hk => quietSkew_keeps hE k hk) hp hne h).2.2.1 j d hd hr s t q hi

/-- C56. A run without skew is a run of `pluto_auto_transform`. -/
theorem C56_quiet : dfpTransform o delayedCut L lex fcgOf (dfpSkew o.toSearchOpts L lex) d0 p0 = some p := by
  clear hE hL hF hp
  unfold dfpTransform at h ⊢
  simp only [Option.bind_eq_bind] at h ⊢
  obtain ⟨a, h1, h⟩ := Option.bind_eq_some_iff.mp h
  rw [h1, Option.bind_some]
  rw [if_neg hne] at h ⊢
  obtain ⟨d, h2, h⟩ := Option.bind_eq_some_iff.mp h
  obtain ⟨d', h3, h⟩ := Option.bind_eq_some_iff.mp h
  obtain ⟨a4, h4, h⟩ := Option.bind_eq_some_iff.mp h
  rw [h2, Option.bind_some, h3, Option.bind_some]
  unfold quietSkew at h4
  obtain ⟨⟨a1, b⟩, h5, h4⟩ := Option.bind_eq_some_iff.mp h4
  simp only at h4
  split_ifs at h4
  simp only [Option.some.injEq] at h4
  unfold dfpSkew
  rw [h5, Option.map_some, Option.bind_some, h4]
  exact h

omit h in
/-- C56. Schedules have one row per hyperplane; dimensions, domains and dependences are those of the input. This holds
whether or not a skew is introduced. -/
theorem C56_shape (h : dfpTransform o delayedCut L lex fcgOf (dfpSkew o.toSearchOpts L lex) d0 p0 = some p) :
    (∀ st ∈ p.stmts, st.trans.length = p.hProps.length ∧ ∀ r ∈ st.trans, r.length = st.dim + p0.npar + 1) ∧
    List.Forall₂ (StmtRestored p0.npar) p0.stmts p.stmts ∧ List.Forall₂ DepRestored p0.deps p.deps := by
  obtain ⟨h1, h2⟩ := dfp_shape hE hL hF hp hne h
  exact ⟨h2, restored_all hp h1⟩

/-- C56 (missing: runs that introduce a skew). If every statement has a loop, the result is a permutation of the loops up to scaling
and shifting: for each loop of each statement there is a schedule row that is a positive multiple of that loop (plus
a shift). -/
theorem C56_loops_partial (hpos : ∀ st ∈ p0.stmts, 0 < st.dim) (i : Nat) (st : Stmt) (hst : p.stmts[i]? = some st)
    (j : Nat) (hj : j < st.dim) : ∃ r ∈ st.trans, LoopRow st.dim r j :=
  (dfp_out hE hL hF (fun k hk => quietSkew_keeps hE k hk) hp hne h).2.2.2 hpos i st hst j hj

/-- C56. So no two instances of a statement get the same timestamp. -/
theorem C56_injective_partial (hpos : ∀ st ∈ p0.stmts, 0 < st.dim) (i : Nat) (hi : i < p0.stmts.length) (x y q : List Int)
    (hx : x.length = p0.dim i) (hy : y.length = p0.dim i) (he : p.timestamp i x q = p.timestamp i y q) : x = y := by
  obtain ⟨h1, h2, _, h4⟩ := dfp_out hE hL hF (fun k hk => quietSkew_keeps hE k hk) hp hne h
  have hil : i < p.stmts.length := by rw [h1.len]; exact hi
  have hst := List.getElem?_eq_getElem hil
  have hdim : (p.stmts[i]).dim = p0.dim i := by rw [← Prog.dim_of hst, h1.dim hi]
  have hc : ∀ j < p0.dim i, coef x j = coef y j := by
    intro j hj
    obtain ⟨r, hr, hl⟩ := h4 hpos i _ hst j (by rw [hdim]; exact hj)
    rw [hdim] at hl
    refine loopRow_aff (v := q) hl hj ?_ hx hy ?_
    · have := (h2 _ (List.getElem_mem hil)).2 r hr
      omega
    · unfold Prog.timestamp at he
      rw [hst, Option.map_some, Option.getD_some] at he
      exact (List.map_inj_left.mp he) r hr
  apply List.ext_getElem (hx.trans hy.symm)
  intro j g1 g2
  have := hc j (by omega)
  simpa [coef, g1, g2] using this

/-- C56. A dependence of a statement on itself is always respected (between different instances). -/
theorem C56_self_partial (hpos : ∀ st ∈ p0.stmts, 0 < st.dim) (d : Dep) (hd : d ∈ p0.deps) (hr : d.rar = false)
    (hself : d.src = d.dest) (s t q : List Int) (hi : p0.Inst d s t q) (hst : s ≠ t) :
    LexBefore (p.timestamp d.src s q) (p.timestamp d.dest t q) := by
  obtain ⟨j, hj, rfl⟩ := List.getElem_of_mem hd
  rcases C56_order_partial o delayedCut L lex hE fcgOf hF d0 p0 p hL hp hne h j _ (List.getElem?_eq_getElem hj) hr s t q hi with h1 | h1
  · exact h1
  · exfalso
    apply hst
    have h2 := h1.1
    rw [← hself] at h2
    refine C56_injective_partial o delayedCut L lex hE fcgOf hF d0 p0 p hL hp hne h hpos _ (hp.deps _ hd).1 s t q hi.hs ?_ h2
    rw [hself]
    exact hi.ht

/-- C56. If no two different statements depend on each other (directly or through others), no instance depends on
itself, and every statement has a loop, then the result is legal. -/
theorem C56_legal_partial (hpos : ∀ st ∈ p0.stmts, 0 < st.dim)
    (hac : ∀ d ∈ p0.deps, d.rar = false → d.src ≠ d.dest → ¬ DepChain p0 d.dest d.src)
    (hself : ∀ d ∈ p0.deps, d.rar = false → d.src = d.dest → ∀ s q, ¬ p0.Inst d s s q) :
    ∀ d ∈ p0.deps, d.rar = false → ∀ s t q, p0.Inst d s t q →
      LexBefore (p.timestamp d.src s q) (p.timestamp d.dest t q) := by
  intro d hd hr s t q hi
  by_cases e : d.src = d.dest
  · refine C56_self_partial o delayedCut L lex hE fcgOf hF d0 p0 p hL hp hne h hpos d hd hr e s t q hi ?_
    rintro rfl
    exact hself d hd hr e s q hi
  · obtain ⟨j, hj, rfl⟩ := List.getElem_of_mem hd
    rcases C56_order_partial o delayedCut L lex hE fcgOf hF d0 p0 p hL hp hne h j _ (List.getElem?_eq_getElem hj) hr s t q hi with h1 | h1
    · exact h1
    · exact absurd h1.2.1 (hac _ hd hr e)

/-- C56. If all dependences are marked as satisfied in the result, the result is legal. -/
theorem C56_marked_partial (hm : ∀ d ∈ p.deps, d.rar = false → d.satisfied = true) :
    ∀ d ∈ p0.deps, d.rar = false → ∀ s t q, p0.Inst d s t q →
      LexBefore (p.timestamp d.src s q) (p.timestamp d.dest t q) := by
  intro d hd hr s t q hi
  obtain ⟨j, hj, rfl⟩ := List.getElem_of_mem hd
  rcases C56_order_partial o delayedCut L lex hE fcgOf hF d0 p0 p hL hp hne h j _ (List.getElem?_eq_getElem hj) hr s t q hi with h1 | ⟨_, _, h1⟩
  · exact h1
  · exfalso
    obtain ⟨d', hd', e⟩ := Option.map_eq_some_iff.mp h1
    have hrar : d'.rar = false := by
      have hf := (C56_shape o delayedCut L lex hE fcgOf hF d0 p0 p hL hp hne (C56_quiet o delayedCut L lex hE fcgOf hF d0 p0 p hL hp hne h)).2.2
      obtain ⟨hj', rfl⟩ := List.getElem?_eq_some_iff.mp hd'
      have := (List.forall₂_iff_get.mp hf).2 j hj hj'
      simp only [List.get_eq_getElem] at this
      rw [this.2.2.1]
      exact hr
    rw [hm d' (List.mem_of_getElem? hd') hrar] at e
    cases e

end

/-- An emptiness oracle for evaluating runs: a system is answered to be non-empty if one of the given points is in it,
empty if it is in the given list, and otherwise by definition. -/
noncomputable def certOracle (pts : List (List Int)) (empties : List Cst) (c : Cst) : Bool :=
  if pts.any (fun x => x.length + 1 == c.ncols && c.rows.all (fun r => if r.eq then aff r.val x == 0 else 0 ≤ aff r.val x)) then false
  else if empties.contains c then true
  else @decide (¬ ∃ x : List Int, x.length + 1 = c.ncols ∧ c.Sat x) (Classical.propDecidable _)

theorem certOracle_ok (pts : List (List Int)) (empties : List Cst)
    (h : ∀ c ∈ empties, ¬ ∃ x : List Int, x.length + 1 = c.ncols ∧ c.Sat x) : EmptyOracle (certOracle pts empties) := by
  intro c _
  unfold certOracle
  split_ifs with h1 h2
  · simp only [Bool.false_eq_true, false_iff, not_not]
    obtain ⟨x, _, hx⟩ := List.any_eq_true.mp h1
    simp only [Bool.and_eq_true, beq_iff_eq, List.all_eq_true] at hx
    refine ⟨x, hx.1, fun r hr => ?_⟩
    have := hx.2 r hr
    unfold Row.Sat
    split_ifs at this ⊢ <;> simpa using this
  · simp only [true_iff]
    exact h c (by simpa using h2)
  · simp

/-! ### A run that leaves dependent instances unordered -/

/-- The square `0..1 × 0..1`, for an instance of the source, and for source and target. -/
def cycBoxS : List Row := [⟨false, [1, 0, 0, 0, 0]⟩, ⟨false, [-1, 0, 0, 0, 1]⟩, ⟨false, [0, 1, 0, 0, 0]⟩, ⟨false, [0, -1, 0, 0, 1]⟩]

def cycBoxT : List Row := [⟨false, [0, 0, 1, 0, 0]⟩, ⟨false, [0, 0, -1, 0, 1]⟩, ⟨false, [0, 0, 0, 1, 0]⟩, ⟨false, [0, 0, 0, -1, 1]⟩]

def cycDep0 : List Row := [⟨true, [-1, 0, 1, 0, 0]⟩, ⟨true, [0, -1, 0, 1, 0]⟩] ++ cycBoxS

def cycDep1 : List Row :=
  [⟨false, [-1, 0, 1, 0, 0]⟩, ⟨false, [0, -1, 0, 1, 0]⟩, ⟨false, [-1, -1, 1, 1, -1]⟩] ++ cycBoxS ++ cycBoxT

def cycStmt : Stmt :=
  ⟨2, 2, ⟨3, [⟨false, [1, 0, 0]⟩, ⟨false, [-1, 0, 1]⟩, ⟨false, [0, 1, 0]⟩, ⟨false, [0, -1, 1]⟩]⟩, [true, true], [], []⟩

/-- Two statements in `0..1 × 0..1`: `S1(i,j)` depends on `S0(i,j)`, and `S0(i',j')` on every `S1(i,j)` with
`i ≤ i'`, `j ≤ j'` and `(i,j) ≠ (i',j')`. -/
def exCyc : Prog :=
  ⟨2, 0, [cycStmt, cycStmt],
    [⟨0, 1, false, ⟨5, cycDep0⟩, ⟨5, []⟩, false, -1, [], []⟩,
     ⟨1, 0, false, ⟨5, cycDep1⟩, ⟨5, []⟩, false, -1, [], []⟩], []⟩

def cycEmpties : List Cst :=
  [⟨5, ⟨false, [-1, 0, 1, 0, -1]⟩ :: cycDep0⟩, ⟨5, ⟨false, [0, -1, 0, 1, -1]⟩ :: cycDep0⟩, ⟨5, ⟨false, [0, 1, 0, -1, -1]⟩ :: cycDep0⟩,
   ⟨5, ⟨false, [1, 0, -1, 0, -1]⟩ :: cycDep0⟩, ⟨5, ⟨false, [0, 1, 0, -1, -1]⟩ :: cycDep1⟩, ⟨5, ⟨false, [1, 0, -1, 0, -1]⟩ :: cycDep1⟩]

noncomputable def cycLibs : Libs :=
  ⟨fun _ _ => [], certOracle [[0, 0, 0, 0], [0, 0, 0, 1], [0, 0, 1, 0]] cycEmpties, listSolver [[0, 0, 1, 0, 0, 1, 0], [0, 1, 0, 0, 1, 0, 0]]⟩

/-- A fusion conflict graph without edges. -/
def noConflicts (a : Auto) (_ : List Nat) (_ : Nat) : Graph := ⟨(a.p.stmts.map (·.dimOrig)).sum, fun _ _ => 0⟩

theorem noConflicts_ok : FcgOracle noConflicts := fun _ _ _ => ⟨rfl, fun _ _ => .inl rfl⟩

theorem cycLibs_ok : EmptyOracle cycLibs.isEmpty := by
  refine certOracle_ok _ _ ?_
  rintro c hc ⟨x, hx, hs⟩
  simp only [cycEmpties, List.mem_cons, List.not_mem_nil, or_false] at hc
  rcases hc with rfl | rfl | rfl | rfl | rfl | rfl <;>
  · match x, hx with
    | [i, j, i', j'], _ =>
      simp [Cst.Sat, Row.Sat, cycDep0, cycDep1, cycBoxS, cycBoxT, aff, dot] at hs
      omega

/-- C56 fails in general: this program has legal schedules (for example `(i, j, 0)` and `(i, j, 1)`), the levels `i` and
`j` that are found can be legally fused for both statements, the call returns normally, and all instances `S0(i,j)`
and `S1(i,j)` get the same timestamp although one depends on the other. `cut_all_sccs`, which is called because
dependences are not satisfied (lib/pluto.c:1670-1684), finds only one component: each dependence of `S0` on `S1` is
respected by one of the levels, but neither level alone satisfies all of them. -/
theorem C56_violated : EmptyOracle cycLibs.isEmpty ∧ FeasibleOracle cycLibs.solve ∧ FcgOracle noConflicts ∧ exCyc.InputOK ∧
    (∃ p, dfpTransform ⟨⟨true, true, false, true, -1⟩, .smart⟩ false cycLibs (lexIlp ⟨true, true, false, true, -1⟩ cycLibs) noConflicts (dfpSkew ⟨true, true, false, true, -1⟩ cycLibs (lexIlp ⟨true, true, false, true, -1⟩ cycLibs))
        ⟨fun _ => 0, fun _ => 0, fun _ => 0, 0⟩ exCyc = some p ∧
      p.stmts.map (·.trans) = [[[1, 0, 0], [0, 1, 0]], [[1, 0, 0], [0, 1, 0]]] ∧
      exCyc.Inst (exCyc.deps[0]) [1, 1] [1, 1] [] ∧
      ¬ LexBefore (p.timestamp 0 [1, 1] []) (p.timestamp 1 [1, 1] [])) ∧
    (∀ d ∈ exCyc.deps, ∀ s t, exCyc.Inst d s t [] →
      LexBefore (s ++ [(d.src : Int)]) (t ++ [(d.dest : Int)])) := by
  refine ⟨cycLibs_ok, listSolver_ok _, noConflicts_ok, ⟨by decide, by decide⟩, ?_, ?_⟩
  · have hrun : (dfpTransform ⟨⟨true, true, false, true, -1⟩, .smart⟩ false cycLibs (lexIlp ⟨true, true, false, true, -1⟩ cycLibs) noConflicts (dfpSkew ⟨true, true, false, true, -1⟩ cycLibs (lexIlp ⟨true, true, false, true, -1⟩ cycLibs))
        ⟨fun _ => 0, fun _ => 0, fun _ => 0, 0⟩ exCyc).map (fun p => p.stmts.map (·.trans)) =
        some [[[1, 0, 0], [0, 1, 0]], [[1, 0, 0], [0, 1, 0]]] := by decide +kernel
    obtain ⟨p, h1, h2⟩ := Option.map_eq_some_iff.mp hrun
    refine ⟨p, h1, h2, ⟨rfl, rfl, rfl, by decide⟩, ?_⟩
    have e : p.timestamp 0 [1, 1] [] = p.timestamp 1 [1, 1] [] := by
      unfold Prog.timestamp
      rw [← List.getElem?_map, ← List.getElem?_map, h2]
      rfl
    rw [e]
    rintro ⟨l, x, y, g1, g2, g3, _⟩
    rw [g1, Option.some.injEq] at g2
    omega
  · intro d hd s t hi
    have hs := hi.hs
    have ht := hi.ht
    have hsat := hi.sat
    simp only [exCyc, List.mem_cons, List.not_mem_nil, or_false] at hd
    rcases hd with rfl | rfl
    · match s, t, hs, ht with
      | [i, j], [i', j'], _, _ =>
        have h1 := hsat ⟨true, [-1, 0, 1, 0, 0]⟩ (by simp [cycDep0])
        have h2 := hsat ⟨true, [0, -1, 0, 1, 0]⟩ (by simp [cycDep0])
        simp [Row.Sat, aff, dot] at h1 h2
        obtain rfl : i' = i := by omega
        obtain rfl : j' = j := by omega
        refine ⟨2, 0, 1, rfl, rfl, by omega, ?_⟩
        intro l hl
        match l, hl with
        | 0, _ => rfl
        | 1, _ => rfl
    · match s, t, hs, ht with
      | [i, j], [i', j'], _, _ =>
        have h1 := hsat ⟨false, [-1, 0, 1, 0, 0]⟩ (by simp [cycDep1])
        have h2 := hsat ⟨false, [0, -1, 0, 1, 0]⟩ (by simp [cycDep1])
        have h3 := hsat ⟨false, [-1, -1, 1, 1, -1]⟩ (by simp [cycDep1])
        simp [Row.Sat, aff, dot] at h1 h2 h3
        by_cases e : i' = i
        · subst e
          refine ⟨1, j, j', rfl, rfl, by omega, ?_⟩
          intro l hl
          match l, hl with
          | 0, _ => rfl
        · exact ⟨0, i, i', rfl, rfl, by omega, fun l hl => absurd hl (by omega)⟩

/-! ### Example: a run in which a conflict makes the statements be distributed -/

/-- The first loop of `S0` and the loop of `S1` in `exAuto` cannot be fused. -/
def exConflict (a : Auto) (_ : List Nat) (c : Nat) : Graph :=
  ⟨(a.p.stmts.map (·.dimOrig)).sum, fun i j => if c = 1 ∧ ((i = 0 ∧ j = 2) ∨ (i = 2 ∧ j = 0)) then 1 else 0⟩

def exDep0 : List Row := [⟨true, [-1, 0, 1, 0, -1]⟩, ⟨true, [0, -1, 0, 1, 0]⟩, ⟨false, [1, 0, 0, 0, 0]⟩, ⟨false, [0, 0, -1, 0, 9]⟩]

def exDep1 : List Row := [⟨true, [0, 1, -1, 0, 0]⟩, ⟨false, [1, 0, 0, 0, 0]⟩, ⟨false, [-1, 0, 0, 0, 9]⟩, ⟨false, [0, 1, 0, 0, 0]⟩, ⟨false, [0, -1, 0, 0, 9]⟩]

def exEmpties : List Cst :=
  [⟨5, ⟨false, [0, -1, 0, 0, -1]⟩ :: exDep1⟩, ⟨5, ⟨false, [0, -1, 0, 1, -1]⟩ :: exDep0⟩, ⟨5, ⟨false, [0, 0, 0, 0, -1]⟩ :: exDep0⟩,
   ⟨5, ⟨false, [0, 0, 0, 0, -1]⟩ :: exDep1⟩, ⟨5, ⟨false, [0, 0, 0, 0, -2]⟩ :: exDep1⟩, ⟨5, ⟨false, [0, 1, 0, -1, -1]⟩ :: exDep0⟩,
   ⟨5, ⟨false, [1, 0, -1, 0, -1]⟩ :: exDep0⟩, ⟨5, ⟨false, [1, 0, -1, 0, 0]⟩ :: exDep0⟩]

theorem exEmpties_ok : ∀ c ∈ exEmpties, ¬ ∃ x : List Int, x.length + 1 = c.ncols ∧ c.Sat x := by
  rintro c hc ⟨x, hx, hs⟩
  simp only [exEmpties, List.mem_cons, List.not_mem_nil, or_false] at hc
  rcases hc with rfl | rfl | rfl | rfl | rfl | rfl | rfl | rfl <;>
  · match x, hx with
    | [i, j, i', j'], _ =>
      simp [Cst.Sat, Row.Sat, exDep0, exDep1, aff, dot] at hs
      try omega

noncomputable def exLibsDfp : Libs :=
  ⟨fun _ _ => [], certOracle [[0, 0, 1, 0], [0, 0, 0, 0], [1, 0, 0, 0], [0, 1, 1, 0]] exEmpties, listSolver [[0, 1, 0, 0, 1, 0], [0, 0, 1, 0, 0, 0]]⟩

example : FcgOracle exConflict ∧ EmptyOracle exLibsDfp.isEmpty ∧ FeasibleOracle exLibsDfp.solve ∧ exAuto.InputOK ∧ (∀ st ∈ exAuto.stmts, 0 < st.dim) ∧
    (∀ d ∈ exAuto.deps, d.rar = false → d.src ≠ d.dest → ¬ DepChain exAuto d.dest d.src) ∧
    (dfpTransform ⟨⟨true, true, false, true, -1⟩, .smart⟩ false exLibsDfp (lexIlp ⟨true, true, false, true, -1⟩ exLibsDfp) exConflict (quietSkew ⟨true, true, false, true, -1⟩ exLibsDfp (lexIlp ⟨true, true, false, true, -1⟩ exLibsDfp))
      ⟨fun _ => 0, fun _ => 0, fun _ => 0, 0⟩ exAuto).map (fun p => (p.stmts.map (·.trans), p.deps.map (·.satisfied))) =
      some ([[[0, 0, 0], [1, 0, 0], [0, 1, 0]], [[0, 1], [1, 0], [0, 0]]], [true, true]) := by
  refine ⟨?_, certOracle_ok _ _ exEmpties_ok, listSolver_ok _, ⟨by decide, by decide⟩, by decide, ?_, by decide +kernel⟩
  · intro a colour c
    refine ⟨rfl, fun i j => ?_⟩
    simp only [exConflict]
    split_ifs <;> simp
  · intro d hd _ hne hch
    simp only [exAuto, List.mem_cons, List.not_mem_nil, or_false] at hd
    rcases hd with rfl | rfl
    · exact hne rfl
    · have key : ∀ j, DepChain exAuto 1 j → j = 1 := by
        intro j hj
        induction hj with
        | refl => rfl
        | tail _ h ih =>
          subst ih
          obtain ⟨d, hd, _, h2, _⟩ := h
          simp only [exAuto, List.mem_cons, List.not_mem_nil, or_false] at hd
          rcases hd with rfl | rfl <;> simp at h2
      have := key _ hch
      simp at this

end Pluto
