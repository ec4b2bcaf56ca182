import Verif.Spec.Cmdline
import Mathlib.Data.List.Induction

/-! C84: the command line. -/

namespace Pluto

/-- What the loop over the arguments leaves behind. -/
structure FlagsRead (b : Build) (fs : List Flag) (o : CmdOpts) : Prop where
  glpk : o.glpk = decide (.glpk ∈ fs)
  gurobi : o.gurobi = decide (.gurobi ∈ fs)
  lp : o.lp = decide (.lp ∈ fs)
  dfp : o.dfp = decide (.dfp ∈ fs)
  ilp : o.ilp = decide (.ilp ∈ fs)
  delayed : o.delayedCut = decide (.delayedcut ∈ fs)
  hybrid : o.hybridcut = decide (.hybridfuse ∈ fs)
  pip : o.pipsolve = decide (.pipsolve ∈ fs)
  isl : o.islsolve = true
  fuse : o.fuse = lastFuse fs
  obj : o.perCcObj = decide (.perCcObj ∈ fs)
  cluster : o.sccCluster = decide (.clusterscc ∈ fs)
  bglpk : .glpk ∈ fs → b.glpk = true
  bgurobi : .gurobi ∈ fs → b.gurobi = true
  blp : .lp ∈ fs ∨ .dfp ∈ fs ∨ .ilp ∈ fs ∨ .clusterscc ∈ fs → (b.glpk || b.gurobi) = true

theorem lastFuse_snoc (fs : List Flag) (f : Flag) : lastFuse (fs ++ [f]) =
    match f with
    | .nofuse => .noFuse
    | .maxfuse => .maximal
    | .smartfuse => .smart
    | .typedfuse => .typed
    | _ => lastFuse fs := by
  unfold lastFuse
  rw [List.filterMap_append]
  cases f <;> simp

theorem readFlags_read (b : Build) (fs : List Flag) (o : CmdOpts) (h : readFlags b fs = some o) : FlagsRead b fs o := by
  unfold readFlags at h
  induction fs using List.reverseRecOn generalizing o with
  | nil =>
    simp at h
    subst h
    constructor <;> simp [defaultOpts, lastFuse]
  | append_singleton fs f ih =>
    rw [List.foldlM_append] at h
    obtain ⟨o1, h1, h2⟩ := Option.bind_eq_some_iff.mp h
    have r := ih o1 h1
    have h3 : readFlag b o1 f = some o := by simpa using h2
    have e := lastFuse_snoc fs f
    obtain ⟨r1, r2, r3, r4, r5, r6, r7, r8, r9, r10, r11, r12, r13, r14, r15⟩ := r
    cases f <;> simp only [readFlag, Option.some.injEq, Option.ite_none_right_eq_some] at h3 <;>
      (first | (obtain ⟨hb, rfl⟩ := h3) | subst h3) <;>
      constructor <;> simp_all

theorem fixSwitches_fields (o : CmdOpts) : (fixSwitches o).fuse = (if o.hybridcut then .typed else o.fuse) ∧
    (fixSwitches o).isldep = o.isldep ∧ (fixSwitches o).candldep = o.candldep ∧
    (fixSwitches o).secondLevelTile = o.secondLevelTile ∧ (fixSwitches o).findTileSizes = o.findTileSizes ∧
    ((fixSwitches o).diamondtile = true → (fixSwitches o).tile = true) ∧ ((fixSwitches o).fulldiamondtile = true → (fixSwitches o).tile = true) ∧
    ((fixSwitches o).multipar = true → (fixSwitches o).parallel = true) ∧ (fixSwitches o).hybridcut = o.hybridcut ∧
    (fixSwitches o).delayedCut = o.delayedCut ∧ (fixSwitches o).glpk = o.glpk ∧ (fixSwitches o).gurobi = o.gurobi ∧
    (fixSwitches o).lp = o.lp ∧ (fixSwitches o).dfp = o.dfp ∧ (fixSwitches o).ilp = o.ilp ∧ (fixSwitches o).perCcObj = o.perCcObj ∧
    (fixSwitches o).islsolve = o.islsolve ∧ (fixSwitches o).pipsolve = o.pipsolve ∧ (fixSwitches o).sccCluster = o.sccCluster := by
  obtain ⟨t, p, d, fd, pc, fu, hy, dc, mp, sl, ft, lw, nlw, isd, cd, ps, is, gl, gu, lp, df, il, lc, sc⟩ := o
  cases hy <;> cases fu <;> cases lw <;> cases nlw <;> cases d <;> cases t <;> cases fd <;> cases mp <;> cases p <;>
    simp [fixSwitches]

def setGlpk (c : Bool) (o : CmdOpts) : CmdOpts := if c then { o with glpk := true } else o

def setDfp (c : Bool) (o : CmdOpts) : CmdOpts := if c then { o with dfp := true } else o

def setLp (c : Bool) (o : CmdOpts) : CmdOpts := if c then { o with lp := true } else o

def dropIsl (c : Bool) (o : CmdOpts) : CmdOpts := if c then { o with islsolve := false, pipsolve := false } else o

theorem setGlpk_eq (c : Bool) (o : CmdOpts) : setGlpk c o = { o with glpk := o.glpk || c } := by cases c <;> simp [setGlpk]

theorem setDfp_eq (c : Bool) (o : CmdOpts) : setDfp c o = { o with dfp := o.dfp || c } := by cases c <;> simp [setDfp]

theorem setLp_eq (c : Bool) (o : CmdOpts) : setLp c o = { o with lp := o.lp || c } := by cases c <;> simp [setLp]

theorem dropIsl_eq (c : Bool) (o : CmdOpts) : dropIsl c o = { o with islsolve := o.islsolve && !c, pipsolve := o.pipsolve && !c } := by
  cases c <;> simp [dropIsl]

theorem fixSolvers_steps (o : CmdOpts) : fixSolvers o =
    let o := setGlpk (o.lp && !(o.glpk || o.gurobi)) o
    let o := setDfp ((decide (o.fuse = FuseOpt.typed) || o.delayedCut) && !o.dfp) o
    let o := setLp (o.dfp && !o.ilp) o
    let o := setGlpk (o.dfp && !(o.glpk || o.gurobi)) o
    dropIsl (o.glpk || o.gurobi) o := rfl

theorem fixSolvers_fields (o : CmdOpts) : (fixSolvers o).fuse = o.fuse ∧
    (fixSolvers o).isldep = o.isldep ∧ (fixSolvers o).candldep = o.candldep ∧
    (fixSolvers o).secondLevelTile = o.secondLevelTile ∧ (fixSolvers o).findTileSizes = o.findTileSizes ∧
    (fixSolvers o).diamondtile = o.diamondtile ∧ (fixSolvers o).fulldiamondtile = o.fulldiamondtile ∧ (fixSolvers o).tile = o.tile ∧
    (fixSolvers o).multipar = o.multipar ∧ (fixSolvers o).parallel = o.parallel ∧ (fixSolvers o).hybridcut = o.hybridcut ∧
    (fixSolvers o).delayedCut = o.delayedCut ∧
    (fixSolvers o).dfp = (o.dfp || decide (o.fuse = .typed) || o.delayedCut) ∧
    (fixSolvers o).glpk = (o.glpk || (!o.gurobi && (o.lp || o.dfp || decide (o.fuse = .typed) || o.delayedCut))) ∧
    (fixSolvers o).gurobi = o.gurobi ∧
    (fixSolvers o).lp = (o.lp || ((o.dfp || decide (o.fuse = .typed) || o.delayedCut) && !o.ilp)) ∧
    (fixSolvers o).ilp = o.ilp ∧ (fixSolvers o).perCcObj = o.perCcObj ∧
    (fixSolvers o).islsolve = (o.islsolve && !(o.glpk || o.gurobi || (o.lp || o.dfp || decide (o.fuse = .typed) || o.delayedCut))) ∧
    (fixSolvers o).pipsolve = (o.pipsolve && !(o.glpk || o.gurobi || (o.lp || o.dfp || decide (o.fuse = .typed) || o.delayedCut))) ∧
    (fixSolvers o).sccCluster = o.sccCluster := by
  rw [fixSolvers_steps]
  simp only [setGlpk_eq, setDfp_eq, setLp_eq, dropIsl_eq]
  generalize decide (o.fuse = FuseOpt.typed) = ty
  generalize o.delayedCut = dc
  generalize o.glpk = gl
  generalize o.gurobi = gu
  generalize o.lp = lp
  generalize o.dfp = df
  generalize o.ilp = il
  generalize o.islsolve = is
  generalize o.pipsolve = ps
  refine ⟨trivial, trivial, trivial, trivial, trivial, trivial, trivial, trivial, trivial, trivial, trivial, trivial, ?_, ?_, trivial, ?_, trivial, trivial, ?_, ?_,
    trivial⟩
  · revert ty dc df; decide
  · revert ty dc gl gu lp df; decide
  · revert ty dc gl gu lp df il; decide
  · revert ty dc gl gu lp df il is; decide
  · revert ty dc gl gu lp df il ps; decide

theorem checkDfp_fields (o o' : CmdOpts) (h : checkDfp o = some o') : o'.fuse = o.fuse ∧
    o'.isldep = o.isldep ∧ o'.candldep = o.candldep ∧
    o'.secondLevelTile = o.secondLevelTile ∧ o'.findTileSizes = o.findTileSizes ∧
    o'.diamondtile = o.diamondtile ∧ o'.fulldiamondtile = o.fulldiamondtile ∧ o'.tile = o.tile ∧
    o'.multipar = o.multipar ∧ o'.parallel = o.parallel ∧ o'.hybridcut = o.hybridcut ∧ o'.delayedCut = o.delayedCut ∧
    o'.dfp = o.dfp ∧ o'.glpk = o.glpk ∧ o'.gurobi = o.gurobi ∧ o'.lp = o.lp ∧ o'.ilp = o.ilp ∧ o'.perCcObj = o.perCcObj ∧
    o'.islsolve = (o.islsolve && !o.pipsolve) ∧ o'.pipsolve = o.pipsolve ∧
    o'.sccCluster = (o.sccCluster || (decide (o.fuse = .typed) && o.dfp)) ∧
    (o.dfp = true → o.glpk = true ∨ o.gurobi = true) ∧ (o.fuse = .typed → o.dfp = true) ∧ (o.delayedCut = true → o.dfp = true) ∧
    (o.dfp = true → o.perCcObj = false) ∧ o'.lastwriter = (o.lastwriter || o.dfp) := by
  obtain ⟨t, p, d, fd, pc, fu, hy, dc, mp, sl, ft, lw, nlw, isd, cd, ps, is, gl, gu, lp, df, il, lc, sc⟩ := o
  unfold checkDfp at h
  simp only at h
  by_cases ty : fu = FuseOpt.typed
  · subst ty
    cases ps <;> cases dc <;> cases gl <;> cases gu <;> cases df <;> cases pc <;> cases lw <;> cases sc <;> simp at h <;> subst h <;> simp
  · cases ps <;> cases dc <;> cases gl <;> cases gu <;> cases df <;> cases pc <;> cases lw <;> simp [ty] at h <;> subst h <;> simp [ty]

theorem checkDeps_fields (o o' : CmdOpts) (h : checkDeps o = some o') :
    o' = { o with isldep := !o.candldep } ∧ (o.secondLevelTile && o.findTileSizes) = false := by
  obtain ⟨t, p, d, fd, pc, fu, hy, dc, mp, sl, ft, lw, nlw, isd, cd, ps, is, gl, gu, lp, df, il, lc, sc⟩ := o
  unfold checkDeps at h
  simp only at h
  cases isd <;> cases cd <;> cases lw <;> cases sl <;> cases ft <;> simp at h <;> subst h <;> simp

/-- Options that are accepted fit together, for every build and every list of flags. -/
theorem C84_options_partial (b : Build) (fs : List Flag) (o : CmdOpts) (h : cmdline b fs = some o) : OptsConsistent o := by
  unfold cmdline at h
  obtain ⟨o1, h1, h⟩ := Option.bind_eq_some_iff.mp h
  obtain ⟨o2, h2, h⟩ := Option.bind_eq_some_iff.mp h
  have r := readFlags_read b fs o1 h1
  obtain ⟨d1, d2⟩ := checkDeps_fields o1 o2 h2
  subst d1
  generalize hq : ({ o1 with isldep := !o1.candldep } : CmdOpts) = q at h
  have a := fixSwitches_fields q
  have q1 : q.isldep = !q.candldep := by rw [← hq]
  have q2 : (q.secondLevelTile && q.findTileSizes) = false := by rw [← hq]; exact d2
  have q3 : q.lp = true → (b.glpk || b.gurobi) = true := by
    rw [← hq]
    intro hh
    exact r.blp (.inl (by simpa using r.lp.symm.trans hh))
  have q4 : q.glpk = true → (b.glpk || b.gurobi) = true := by
    rw [← hq]
    intro hh
    rw [r.bglpk (by simpa using r.glpk.symm.trans hh), Bool.true_or]
  have q5 : q.gurobi = true → (b.glpk || b.gurobi) = true := by
    rw [← hq]
    intro hh
    rw [r.bgurobi (by simpa using r.gurobi.symm.trans hh), Bool.or_true]
  have q6 : q.dfp = true → (b.glpk || b.gurobi) = true := by
    rw [← hq]
    intro hh
    exact r.blp (.inr (.inl (by simpa using r.dfp.symm.trans hh)))
  generalize fixSwitches q = p at a h
  obtain ⟨a1, a2, a3, a4, a5, a6, a7, a8, a9, a10, a11, a12, a13, a14, a15, a16, a17, a18, a19⟩ := a
  have hyb : p.hybridcut = true → p.fuse = .typed := by
    intro hh
    rw [a1, if_pos (a9 ▸ hh)]
  by_cases hb : (b.glpk || b.gurobi) = true
  · rw [if_pos hb] at h
    have c := checkDfp_fields _ _ h
    obtain ⟨s1, s2, s3, s4, s5, s6, s7, s8, s9, s10, s11, s12, s13, s14, s15, s16, s17, s18, s19, s20, s21⟩ := fixSolvers_fields p
    generalize fixSolvers p = w at *
    obtain ⟨c1, c2, c3, c4, c5, c6, c7, c8, c9, c10, c11, c12, c13, c14, c15, c16, c17, c18, c19, c20, c21, c22, c23, c24, c25, c26⟩ := c
    constructor
    · rw [c2, c3, s2, s3, a2, a3, q1]
    · rw [c4, c5, s4, s5, a4, a5, q2]
    · rw [c6, c8, s6, s8]; exact a6
    · rw [c7, c8, s7, s8]; exact a7
    · rw [c9, c10, s9, s10]; exact a8
    · rw [c11, c1, s11, s1]; exact hyb
    · intro ht
      rw [c1] at ht
      refine ⟨by rw [c13]; exact c23 ht, ?_⟩
      rw [c21, c23 ht, ht]; simp
    · rw [c12, c13]; exact c24
    · rw [c16, c13, c14, c15]
      rintro (hh | hh)
      · rw [s14, s15]
        rw [s16] at hh
        revert hh
        generalize p.glpk = gl
        generalize p.gurobi = gu
        generalize p.lp = lp
        generalize p.dfp = df
        generalize p.ilp = il
        generalize p.delayedCut = dc
        generalize decide (p.fuse = FuseOpt.typed) = ty
        revert gl gu lp df il dc ty
        decide
      · exact c22 hh
    · rw [c13, c16, c17, s13, s16, s17]
      generalize p.lp = lp
      generalize p.dfp = df
      generalize p.ilp = il
      generalize p.delayedCut = dc
      generalize decide (p.fuse = FuseOpt.typed) = ty
      revert lp df il dc ty
      decide
    · rw [c13, c18]; exact c25
    · rw [c14, c15, c19, c20, s14, s15, s19, s20]
      generalize p.glpk = gl
      generalize p.gurobi = gu
      generalize p.islsolve = is
      generalize p.pipsolve = ps
      generalize (p.lp || p.dfp || decide (p.fuse = FuseOpt.typed) || p.delayedCut) = z
      revert gl gu is ps z
      decide
  · rw [if_neg hb] at h
    have c := checkDfp_fields _ _ h
    obtain ⟨c1, c2, c3, c4, c5, c6, c7, c8, c9, c10, c11, c12, c13, c14, c15, c16, c17, c18, c19, c20, c21, c22, c23, c24, c25, c26⟩ := c
    have nl : p.lp ≠ true := fun hh => hb (q3 (a13 ▸ hh))
    have nd : p.dfp ≠ true := fun hh => hb (q6 (a14 ▸ hh))
    have ng : p.glpk ≠ true := fun hh => hb (q4 (a11 ▸ hh))
    have nu : p.gurobi ≠ true := fun hh => hb (q5 (a12 ▸ hh))
    constructor
    · rw [c2, c3, a2, a3, q1]
    · rw [c4, c5, a4, a5, q2]
    · rw [c6, c8]; exact a6
    · rw [c7, c8]; exact a7
    · rw [c9, c10]; exact a8
    · rw [c11, c1]; exact hyb
    · intro ht
      rw [c1] at ht
      exact absurd (c23 ht) nd
    · rw [c12, c13]; exact c24
    · rw [c16, c13]
      rintro (hh | hh)
      · exact absurd hh nl
      · exact absurd hh nd
    · rw [c13]; exact fun hh => absurd hh nd
    · rw [c13]; exact fun hh => absurd hh nd
    · rw [c14, c15, c19, c20]
      refine ⟨fun hh => ?_, ?_⟩
      · rcases hh with hh | hh
        · exact absurd hh ng
        · exact absurd hh nu
      · cases p.islsolve <;> cases p.pipsolve <;> rfl

example : (cmdline ⟨true, false⟩ [.tile, .hybridfuse, .noparallel, .multipar, .pipsolve]).isSome = true ∧
    cmdline ⟨true, false⟩ [.tile, .hybridfuse, .perCcObj] = none := by decide

/-- Where GLPK is built in, or Gurobi is asked for, or nothing needs an LP solver, the solver called is the one asked for. -/
theorem C84_solver_partial (b : Build) (fs : List Flag) (o : CmdOpts) (h : cmdline b fs = some o)
    (hs : b.glpk = true ∨ .gurobi ∈ fs ∨ ¬(.lp ∈ fs ∨ WantsDfp fs)) : solverUsed b o = some (wantedSolver fs) := by
  unfold cmdline at h
  obtain ⟨o1, h1, h⟩ := Option.bind_eq_some_iff.mp h
  obtain ⟨o2, h2, h⟩ := Option.bind_eq_some_iff.mp h
  have r := readFlags_read b fs o1 h1
  obtain ⟨d1, d2⟩ := checkDeps_fields o1 o2 h2
  subst d1
  generalize hq : ({ o1 with isldep := !o1.candldep } : CmdOpts) = q at h
  have a := fixSwitches_fields q
  have r' : FlagsRead b fs q := by rw [← hq]; exact ⟨r.1, r.2, r.3, r.4, r.5, r.6, r.7, r.8, r.9, r.10, r.11, r.12, r.13, r.14, r.15⟩
  generalize fixSwitches q = p at a h
  obtain ⟨a1, a2, a3, a4, a5, a6, a7, a8, a9, a10, a11, a12, a13, a14, a15, a16, a17, a18, a19⟩ := a
  have want : (p.dfp || decide (p.fuse = .typed) || p.delayedCut) = decide (WantsDfp fs) := by
    rw [a14, a1, a10, r'.dfp, r'.hybrid, r'.delayed, r'.fuse]
    unfold WantsDfp
    by_cases x1 : Flag.dfp ∈ fs <;> by_cases x2 : Flag.delayedcut ∈ fs <;> by_cases x3 : Flag.hybridfuse ∈ fs <;>
      by_cases x4 : lastFuse fs = .typed <;> simp [x1, x2, x3, x4]
  by_cases hb : (b.glpk || b.gurobi) = true
  · rw [if_pos hb] at h
    have c := checkDfp_fields _ _ h
    obtain ⟨s1, s2, s3, s4, s5, s6, s7, s8, s9, s10, s11, s12, s13, s14, s15, s16, s17, s18, s19, s20, s21⟩ := fixSolvers_fields p
    generalize fixSolvers p = w at *
    obtain ⟨c1, c2, c3, c4, c5, c6, c7, c8, c9, c10, c11, c12, c13, c14, c15, c16, c17, c18, c19, c20, c21, c22, c23, c24, c25, c26⟩ := c
    have z : (p.lp || p.dfp || decide (p.fuse = FuseOpt.typed) || p.delayedCut) = (decide (Flag.lp ∈ fs) || decide (WantsDfp fs)) := by
      rw [← want, a13, r'.lp]
      simp [Bool.or_assoc]
    unfold solverUsed wantedSolver
    rw [c19, c14, c15, c16, c13, s19, s20, s14, s15, s16, s13, want, z, a11, a12, a13, a17, a18, r'.glpk, r'.gurobi, r'.isl, r'.pip, r'.lp]
    have g1 := r'.bglpk
    have g2 := r'.bgurobi
    by_cases x1 : Flag.glpk ∈ fs
    · simp [x1, g1 x1]
    · by_cases x2 : Flag.gurobi ∈ fs
      · simp [x1, x2, g2 x2]
      · by_cases x3 : Flag.lp ∈ fs ∨ WantsDfp fs
        · have hg : b.glpk = true := by
            rcases hs with hs | hs | hs
            · exact hs
            · exact absurd hs x2
            · exact absurd x3 hs
          have x4 : (decide (Flag.lp ∈ fs) || decide (WantsDfp fs)) = true := by simpa using x3
          simp [x1, x2, x3, x4, hg]
        · have x5 : Flag.lp ∉ fs := fun hh => x3 (.inl hh)
          have x6 : ¬WantsDfp fs := fun hh => x3 (.inr hh)
          by_cases x7 : Flag.pipsolve ∈ fs <;> simp [x1, x2, x5, x6, x7]
  · rw [if_neg hb] at h
    have c := checkDfp_fields _ _ h
    obtain ⟨c1, c2, c3, c4, c5, c6, c7, c8, c9, c10, c11, c12, c13, c14, c15, c16, c17, c18, c19, c20, c21, c22, c23, c24, c25, c26⟩ := c
    have x1 : Flag.glpk ∉ fs := fun hh => hb (by rw [r'.bglpk hh, Bool.true_or])
    have x2 : Flag.gurobi ∉ fs := fun hh => hb (by rw [r'.bgurobi hh, Bool.or_true])
    have x5 : Flag.lp ∉ fs := fun hh => hb (r'.blp (.inl hh))
    have x8 : Flag.dfp ∉ fs := fun hh => hb (r'.blp (.inr (.inl hh)))
    have nd : p.dfp ≠ true := by rw [a14, r'.dfp]; simpa using x8
    have x6 : ¬WantsDfp fs := by
      intro hh
      rw [decide_eq_true hh] at want
      simp only [Bool.or_eq_true, decide_eq_true_eq] at want
      rcases want with (want | want) | want
      · exact nd want
      · exact nd (c23 want)
      · exact nd (c24 want)
    unfold solverUsed wantedSolver
    rw [c19, c14, c15, c16, c13, a11, a12, a13, a14, a17, a18, r'.glpk, r'.gurobi, r'.isl, r'.pip, r'.lp, r'.dfp]
    by_cases x7 : Flag.pipsolve ∈ fs <;> simp [x1, x2, x5, x6, x7, x8]

example : wantedSolver [.lp, .pipsolve] = .glpk ∧ wantedSolver [.gurobi, .dfp] = .gurobi ∧ wantedSolver [.pipsolve] = .pip ∧
    wantedSolver [] = .isl ∧ (cmdline ⟨true, true⟩ [.gurobi, .dfp]).isSome = true := by decide

/-- A Pluto built with Gurobi only, run with `--dfp`, `--lp`, `--typedfuse`, `--hybridfuse` or `--delayedcut` and without `--gurobi`:
the options are accepted, GLPK is chosen, and no solver is called at all, so that every system counts as infeasible. -/
theorem C84_violated_solver (f : Flag) (hf : f ∈ [Flag.dfp, .lp, .typedfuse, .hybridfuse, .delayedcut]) :
    ∃ o, cmdline ⟨false, true⟩ [f] = some o ∧ o.glpk = true ∧ solverUsed ⟨false, true⟩ o = none := by
  have : ∀ f ∈ [Flag.dfp, .lp, .typedfuse, .hybridfuse, .delayedcut],
      ((cmdline ⟨false, true⟩ [f]).any fun o => o.glpk && decide (solverUsed ⟨false, true⟩ o = none)) = true := by decide
  have h := this f hf
  obtain ⟨o, ho⟩ : ∃ o, cmdline ⟨false, true⟩ [f] = some o := by
    cases hc : cmdline ⟨false, true⟩ [f] with
    | none => rw [hc] at h; exact absurd h (by simp)
    | some o => exact ⟨o, rfl⟩
  rw [ho] at h
  have hp : (o.glpk && decide (solverUsed ⟨false, true⟩ o = none)) = true := h
  simp only [Bool.and_eq_true, decide_eq_true_eq] at hp
  exact ⟨o, ho, hp.1, hp.2⟩

/-- `--clusterscc` alone: the message says that the DFP framework is used, but it is not. -/
theorem C84_violated_cluster : ∃ o, cmdline ⟨true, false⟩ [.clusterscc] = some o ∧ o.sccCluster = true ∧ o.dfp = false :=
  ⟨{ defaultOpts with isldep := true, sccCluster := true }, by decide, rfl, rfl⟩

/-- `--nolastwriter` is overruled by `--dfp`, and `--dfp` switches last writers on where `--candldep` was asked for, a combination
that is refused when it is asked for. -/
theorem C84_violated_lastwriter :
    (∃ o, cmdline ⟨true, false⟩ [.nolastwriter, .dfp] = some o ∧ o.nolastwriter = true ∧ o.lastwriter = true) ∧
    (∃ o, cmdline ⟨true, false⟩ [.candldep, .dfp] = some o ∧ o.candldep = true ∧ o.lastwriter = true) ∧
    cmdline ⟨true, false⟩ [.candldep, .dfp, .lastwriter] = none :=
  ⟨⟨{ defaultOpts with isldep := true, nolastwriter := true, dfp := true, lp := true, glpk := true, islsolve := false, lastwriter := true },
      by decide, rfl, rfl⟩,
    ⟨{ defaultOpts with candldep := true, dfp := true, lp := true, glpk := true, islsolve := false, lastwriter := true }, by decide, rfl, rfl⟩,
    by decide⟩

/-- `--lastwriter` and `--nolastwriter` together, with `--candldep`: refused, although last writers would have been switched off. -/
theorem C84_violated_refused : cmdline ⟨true, false⟩ [.candldep, .lastwriter, .nolastwriter] = none ∧
    (cmdline ⟨true, false⟩ [.lastwriter, .nolastwriter]).any (fun o => !o.lastwriter) = true := by decide

/-- `--dfp --ilp` is accepted with GLPK and gives the mode `lp = 0` with `dfp = 1` in which no solution can be handed back
(`C66_violated_dfp_ilp`). -/
theorem C84_violated_ilp : ∃ o, cmdline ⟨true, false⟩ [.dfp, .ilp] = some o ∧ o.lp = false ∧ o.dfp = true ∧
    solverUsed ⟨true, false⟩ o = some .glpk :=
  ⟨{ defaultOpts with isldep := true, dfp := true, ilp := true, glpk := true, islsolve := false, lastwriter := true }, by decide, rfl, rfl, by decide⟩

theorem stem_length (s : List Char) : s.length ≤ (stem s).length + 2 := by
  unfold stem
  split
  · rw [List.length_take]; omega
  · omega

theorem baseName_noSlash (s : List Char) : '/' ∉ baseName s := by
  unfold baseName
  intro h
  rw [List.mem_reverse] at h
  generalize s.reverse = l at h
  induction l with
  | nil => simp at h
  | cons x l ih =>
    by_cases hx : x = '/'
    · simp [hx] at h
    · rw [List.takeWhile_cons_of_pos (by simpa using hx)] at h
      rcases List.mem_cons.mp h with e | h
      · exact hx e.symm
      · exact ih h

theorem baseName_id (s : List Char) (h : '/' ∉ s) : baseName s = s := by
  unfold baseName
  have hn : ∀ c ∈ s.reverse, decide (c ≠ '/') = true := by
    intro c hc
    simp only [decide_eq_true_eq]
    intro e
    exact h (e ▸ List.mem_reverse.mp hc)
  have e := List.takeWhile_append_of_pos (l₂ := []) hn
  rw [List.append_nil, List.takeWhile_nil, List.append_nil] at e
  rw [e, List.reverse_reverse]

theorem stem_sub (s : List Char) : ∀ c ∈ stem s, c ∈ s := by
  unfold stem
  split
  · exact fun c hc => List.mem_of_mem_take hc
  · exact fun c hc => hc

/-- The CLooG file is never the output file, and is written to the current directory. -/
theorem C84_cloog_file (src : List Char) (out : Option (List Char)) : cloogFile src out ≠ outFile src out ∧ '/' ∉ cloogFile src out := by
  have ns : '/' ∉ cloogFile src out := by
    unfold cloogFile
    intro h
    rw [List.mem_append] at h
    rcases h with h | h
    · exact baseName_noSlash _ (stem_sub _ _ h)
    · revert h; decide
  refine ⟨?_, ns⟩
  intro h
  cases out with
  | none =>
    simp only [cloogFile, outFile, Option.getD_none] at h
    have := congrArg List.length h
    rw [List.length_append, List.length_append] at this
    have e1 : ".pluto.cloog".toList.length = 12 := by decide
    have e2 : ".pluto.c".toList.length = 8 := by decide
    omega
  | some o =>
    have ho : '/' ∉ o := by
      have e : outFile src (some o) = o := rfl
      rw [e] at h
      exact h ▸ ns
    simp only [cloogFile, outFile, Option.getD_some, baseName_id o ho] at h
    have := congrArg List.length h
    rw [List.length_append] at this
    have e1 : ".pluto.cloog".toList.length = 12 := by decide
    have := stem_length o
    omega

/-- Without `-o` the output file is never the source file. -/
theorem C84_out_file (src : List Char) : outFile src none ≠ src ∧ '/' ∉ outFile src none := by
  have ns : '/' ∉ outFile src none := by
    unfold outFile
    intro h
    rw [List.mem_append] at h
    rcases h with h | h
    · exact baseName_noSlash _ (stem_sub _ _ h)
    · revert h; decide
  refine ⟨?_, ns⟩
  intro h
  have hs : '/' ∉ src := h ▸ ns
  simp only [outFile, baseName_id src hs] at h
  have := congrArg List.length h
  rw [List.length_append] at this
  have e2 : ".pluto.c".toList.length = 8 := by decide
  have := stem_length src
  omega

/-- `C84_out_file` on names: directory and ending are dropped, `.pluto.c` is added. -/
theorem C84_out_name (dir base : List Char) (hb : '/' ∉ base) (hd : dir = [] ∨ dir.getLast? = some '/') :
    outFile (dir ++ base ++ ['.', 'c']) none = base ++ ".pluto.c".toList ∧
    cloogFile (dir ++ base ++ ['.', 'c']) none = base ++ ".pluto.cloog".toList := by
  have e : baseName (dir ++ base ++ ['.', 'c']) = base ++ ['.', 'c'] := by
    unfold baseName
    have hn : ∀ c ∈ (base ++ ['.', 'c']).reverse, decide (c ≠ '/') = true := by
      intro c hc
      rw [List.mem_reverse, List.mem_append] at hc
      simp only [decide_eq_true_eq]
      rintro rfl
      rcases hc with hc | hc
      · exact hb hc
      · revert hc; decide
    rw [List.append_assoc, List.reverse_append, List.takeWhile_append_of_pos hn]
    have : dir.reverse.takeWhile (fun c => decide (c ≠ '/')) = [] := by
      rcases hd with rfl | hd
      · rfl
      · rw [List.getLast?_eq_head?_reverse] at hd
        cases hr : dir.reverse with
        | nil => rfl
        | cons x l =>
          rw [hr] at hd
          simp at hd
          subst hd
          simp
    rw [this, List.append_nil, List.reverse_reverse]
  have st : stem (base ++ ['.', 'c']) = base := by
    unfold stem
    rw [if_pos]
    · simp
    · simp
  simp only [outFile, cloogFile, Option.getD_none, e, st, and_self]

example : outFile "test/seidel.c".toList none = "seidel.pluto.c".toList ∧ cloogFile "a.c".toList (some "out/b.c".toList) = "b.pluto.cloog".toList := by
  decide

end Pluto
