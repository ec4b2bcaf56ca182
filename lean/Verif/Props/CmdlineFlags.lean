import Verif.Props.Cmdline
import Verif.Spec.CmdlineFlags

/-! C84: every flag does what it asks for. -/

namespace Pluto

theorem lastSwitch_snoc (on off : Flag) (d : Bool) (fs : List Flag) (f : Flag) : lastSwitch on off d (fs ++ [f]) =
    if f = on then true else if f = off then false else lastSwitch on off d fs := by
  unfold lastSwitch
  rw [List.filter_append]
  by_cases h1 : f = on
  · subst h1; simp
  · by_cases h2 : f = off
    · subst h2; simp [h1]
    · simp [h1, h2]

/-- What the loop over the arguments leaves behind in the other options. -/
structure FlagsRead2 (fs : List Flag) (o : CmdOpts) : Prop where
  tile : o.tile = lastSwitch .tile .notile true fs
  parallel : o.parallel = lastSwitch .parallel .noparallel true fs
  diamond : o.diamondtile = lastSwitch .diamondTile .nodiamondTile true fs
  fullDiamond : o.fulldiamondtile = decide (.fullDiamondTile ∈ fs)
  multipar : o.multipar = decide (.multipar ∈ fs)
  second : o.secondLevelTile = decide (.secondLevelTile ∈ fs)
  sizes : o.findTileSizes = decide (.determineTileSize ∈ fs)
  last : o.lastwriter = decide (.lastwriter ∈ fs)
  nolast : o.nolastwriter = decide (.nolastwriter ∈ fs)
  candl : o.candldep = decide (.candldep ∈ fs)
  colour : o.lpcolour = decide (.lpcolor ∈ fs)

theorem readFlags_read2 (b : Build) (fs : List Flag) (o : CmdOpts) (h : readFlags b fs = some o) : FlagsRead2 fs o := by
  unfold readFlags at h
  induction fs using List.reverseRecOn generalizing o with
  | nil =>
    simp at h
    subst h
    constructor <;> simp [defaultOpts, lastSwitch]
  | append_singleton fs f ih =>
    rw [List.foldlM_append] at h
    obtain ⟨o1, h1, h2⟩ := Option.bind_eq_some_iff.mp h
    have r := ih o1 h1
    have h3 : readFlag b o1 f = some o := by simpa using h2
    obtain ⟨r1, r2, r3, r4, r5, r6, r7, r8, r9, r10, r11⟩ := r
    cases f <;> simp only [readFlag, Option.some.injEq, Option.ite_none_right_eq_some] at h3 <;>
      (first | (obtain ⟨hb, rfl⟩ := h3) | subst h3) <;>
      constructor <;> simp_all [lastSwitch_snoc]

theorem fixSwitches_more (o : CmdOpts) : (fixSwitches o).tile = o.tile ∧ (fixSwitches o).parallel = (o.parallel || o.multipar) ∧
    (fixSwitches o).diamondtile = (o.diamondtile && o.tile) ∧ (fixSwitches o).fulldiamondtile = (o.fulldiamondtile && o.tile) ∧
    (fixSwitches o).multipar = o.multipar ∧ (fixSwitches o).lastwriter = (o.lastwriter && !o.nolastwriter) ∧
    (fixSwitches o).lpcolour = o.lpcolour ∧ (fixSwitches o).perCcObj = o.perCcObj ∧ (fixSwitches o).ilp = o.ilp ∧
    (fixSwitches o).dfp = o.dfp ∧ (fixSwitches o).sccCluster = o.sccCluster := by
  obtain ⟨t, p, d, fd, pc, fu, hy, dc, mp, sl, ft, lw, nlw, isd, cd, ps, is, gl, gu, lp, df, il, lc, sc⟩ := o
  unfold fixSwitches
  cases t <;> cases p <;> cases d <;> cases fd <;> cases mp <;> cases lw <;> cases nlw <;> cases hy <;> cases fu <;> simp

theorem fixSolvers_more (o : CmdOpts) : (fixSolvers o).lpcolour = o.lpcolour ∧ (fixSolvers o).lastwriter = o.lastwriter := by
  rw [fixSolvers_steps]
  simp only [setGlpk_eq, setDfp_eq, setLp_eq, dropIsl_eq]
  exact ⟨trivial, trivial⟩

theorem checkDfp_more (o o' : CmdOpts) (h : checkDfp o = some o') : o'.lpcolour = o.lpcolour := by
  obtain ⟨t, p, d, fd, pc, fu, hy, dc, mp, sl, ft, lw, nlw, isd, cd, ps, is, gl, gu, lp, df, il, lc, sc⟩ := o
  unfold checkDfp at h
  simp only at h
  by_cases ty : fu = FuseOpt.typed
  · subst ty
    cases ps <;> cases dc <;> cases gl <;> cases gu <;> cases df <;> cases pc <;> cases lw <;> cases sc <;> simp at h <;> subst h <;> simp
  · cases ps <;> cases dc <;> cases gl <;> cases gu <;> cases df <;> cases pc <;> cases lw <;> simp [ty] at h <;> subst h <;> simp

theorem or_turn (a b c d : Prop) : ((a ∨ (b ∨ c)) ∨ d) ↔ (a ∨ d ∨ b ∨ c) := by tauto

theorem or_and_drop (a b c : Prop) (h : b → c) : (a ∨ b ∧ c) ↔ (a ∨ b) := by tauto

/-- C84: for every build and every list of flags that is accepted, the options are what the flags ask for. -/
theorem C84_asked (b : Build) (fs : List Flag) (o : CmdOpts) (h : cmdline b fs = some o) : AsAsked fs o := by
  unfold cmdline at h
  obtain ⟨o1, h1, h⟩ := Option.bind_eq_some_iff.mp h
  obtain ⟨o2, h2, h⟩ := Option.bind_eq_some_iff.mp h
  have r := readFlags_read b fs o1 h1
  obtain ⟨t1, t2, t3, t4, t5, t6, t7, t8, t9, t10, t11⟩ := readFlags_read2 b fs o1 h1
  obtain ⟨d1, d2⟩ := checkDeps_fields o1 o2 h2
  have e1 : o2.isldep = !o1.candldep := by rw [d1]
  have e2 : o2.candldep = o1.candldep := by rw [d1]
  have e3 : o2.tile = o1.tile ∧ o2.parallel = o1.parallel ∧ o2.diamondtile = o1.diamondtile ∧ o2.fulldiamondtile = o1.fulldiamondtile ∧
      o2.multipar = o1.multipar ∧ o2.secondLevelTile = o1.secondLevelTile ∧ o2.findTileSizes = o1.findTileSizes ∧
      o2.lastwriter = o1.lastwriter ∧ o2.nolastwriter = o1.nolastwriter ∧ o2.lpcolour = o1.lpcolour ∧ o2.perCcObj = o1.perCcObj ∧
      o2.fuse = o1.fuse ∧ o2.hybridcut = o1.hybridcut ∧ o2.delayedCut = o1.delayedCut ∧ o2.ilp = o1.ilp ∧ o2.dfp = o1.dfp ∧
      o2.sccCluster = o1.sccCluster := by
    rw [d1]
    exact ⟨rfl, rfl, rfl, rfl, rfl, rfl, rfl, rfl, rfl, rfl, rfl, rfl, rfl, rfl, rfl, rfl, rfl⟩
  clear d1 h1 h2
  obtain ⟨u1, u2, u3, u4, u5, u6, u7, u8, u9, u10, u11, u12, u13, u14, u15, u16, u17⟩ := e3
  obtain ⟨a1, a2, a3, a4, a5, _, _, _, a9, a10, _⟩ := fixSwitches_fields o2
  obtain ⟨b1, b2, b3, b4, b5, b6, b7, b8, b9, b10, b11⟩ := fixSwitches_more o2
  generalize fixSwitches o2 = p at *
  have hfuse : p.fuse = if .hybridfuse ∈ fs then .typed else lastFuse fs := by
    rw [a1, u13, u12, r.hybrid, r.fuse]
    simp
  have hty : p.fuse = .typed ↔ (.hybridfuse ∈ fs ∨ lastFuse fs = .typed) := by
    rw [hfuse]
    split_ifs with hh <;> simp [hh]
  have hw : ∃ w : CmdOpts, checkDfp w = some o ∧ w.fuse = p.fuse ∧ w.isldep = p.isldep ∧ w.candldep = p.candldep ∧
      w.secondLevelTile = p.secondLevelTile ∧ w.findTileSizes = p.findTileSizes ∧ w.diamondtile = p.diamondtile ∧
      w.fulldiamondtile = p.fulldiamondtile ∧ w.tile = p.tile ∧ w.multipar = p.multipar ∧ w.parallel = p.parallel ∧
      w.hybridcut = p.hybridcut ∧ w.delayedCut = p.delayedCut ∧
      w.dfp = (p.dfp || decide (p.fuse = .typed) || p.delayedCut) ∧ w.ilp = p.ilp ∧ w.perCcObj = p.perCcObj ∧
      w.sccCluster = p.sccCluster ∧ w.lpcolour = p.lpcolour ∧ w.lastwriter = p.lastwriter := by
    by_cases hb : (b.glpk || b.gurobi) = true
    · rw [if_pos hb] at h
      obtain ⟨s1, s2, s3, s4, s5, s6, s7, s8, s9, s10, s11, s12, s13, _, _, _, s17, s18, _, _, s21⟩ := fixSolvers_fields p
      obtain ⟨v1, v2⟩ := fixSolvers_more p
      exact ⟨_, h, s1, s2, s3, s4, s5, s6, s7, s8, s9, s10, s11, s12, s13, s17, s18, s21, v1, v2⟩
    · rw [if_neg hb] at h
      refine ⟨p, h, rfl, rfl, rfl, rfl, rfl, rfl, rfl, rfl, rfl, rfl, rfl, rfl, ?_, rfl, rfl, rfl, rfl, rfl⟩
      obtain ⟨_, _, _, _, _, _, _, _, _, _, _, _, _, _, _, _, _, _, _, _, _, _, c23, c24, _⟩ := checkDfp_fields _ _ h
      cases hd : p.dfp with
      | true => simp
      | false =>
        have n1 : p.fuse ≠ .typed := fun hh => by have := c23 hh; rw [hd] at this; cases this
        have n2 : p.delayedCut = false := by
          cases hc : p.delayedCut with
          | false => rfl
          | true => have := c24 hc; rw [hd] at this; cases this
        rw [n2, decide_eq_false n1]
        rfl
  obtain ⟨w, hw, w1, w2, w3, w4, w5, w6, w7, w8, w9, w10, w11, w12, w13, w14, w15, w16, w17, w18⟩ := hw
  have c := checkDfp_fields _ _ hw
  have cm := checkDfp_more _ _ hw
  obtain ⟨c1, c2, c3, c4, c5, c6, c7, c8, c9, c10, c11, c12, c13, c14, c15, c16, c17, c18, c19, c20, c21, c22, c23, c24, c25, c26⟩ := c
  have hdfp : w.dfp = decide (WantsDfp fs) := by
    have hty' : decide (p.fuse = .typed) = decide (.hybridfuse ∈ fs ∨ lastFuse fs = .typed) := decide_eq_decide.mpr hty
    rw [w13, b10, u16, r.dfp, a10, u14, r.delayed, hty']
    rw [Bool.eq_iff_iff]
    simp only [Bool.or_eq_true, decide_eq_true_eq]
    exact or_turn _ _ _ _
  constructor
  · rw [c8, w8, b1, u1, t1]
  · rw [c10, w10, b2, u2, u5, t2, t5]
  · rw [c6, w6, b3, u3, u1, t3, t1]
  · rw [c7, w7, b4, u4, u1, t4, t1]
  · rw [c9, w9, b5, u5, t5]
  · rw [c4, w4, a4, u6, t6]
  · rw [c5, w5, a5, u7, t7]
  · rw [c3, w3, a3, e2, t10]
  · rw [c2, w2, a2, e1, t10]; simp
  · rw [c18, w15, b8, u11, r.obj]
  · rw [cm, w17, b7, u10, t11]
  · rw [c1, w1, hfuse]
  · rw [c11, w11, a9, u13, r.hybrid]
  · rw [c12, w12, a10, u14, r.delayed]
  · rw [c17, w14, b9, u15, r.ilp]
  · rw [c13, hdfp]
  · rw [c26, w18, hdfp, b6, u8, u9, t8, t9]; simp
  · rw [c21, w16, b11, u17, r.cluster, w1]
    have : w.fuse = .typed → w.dfp = true := c23
    rw [w1] at this
    rw [Bool.eq_iff_iff]
    simp only [Bool.or_eq_true, Bool.and_eq_true, decide_eq_true_eq]
    rw [hty]
    rw [hty] at this
    exact or_and_drop _ _ _ this

example : ∃ o, cmdline ⟨true, false⟩ [.notile, .noparallel, .tile, .nodiamondTile, .multipar, .lastwriter, .nolastwriter] = some o ∧
    o.tile = true ∧ o.parallel = true ∧ o.diamondtile = false ∧ o.lastwriter = false :=
  ⟨_, rfl, rfl, rfl, rfl, rfl⟩

end Pluto
