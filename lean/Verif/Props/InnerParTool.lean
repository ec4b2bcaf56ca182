import Verif.Props.InnerPar
import Verif.Props.OslMore
import Verif.Props.ParallelRun
import Verif.Props.OneToOne
import Verif.Props.TileFind

/-! C63, C65, C67, C70 with `--innerpar`: from the program to the code, with no condition on bands. Loops that carry no
dependence may be run in parallel; that those which the tool marks are such loops is false with this option
(`C20_violated_innerpar`). -/

namespace Pluto

/-- `C63_tool_partial` with `--innerpar`. Missing: as there, except wavefronts. -/
theorem C63_innerpar_partial (ops : IslOps) (ho : ops.OK)
    (ao : AutoOpts) (L : Libs) (hE : EmptyOracle L.isEmpty) (hL : FeasibleOracle L.solve) (fuel : Nat) (d0 : DfsState)
    (best : Prog → List Loop → Option Loop) (hbest : ∀ p ls L, best p ls = some L → L ∈ ls) (o : TileOpts) (hip : o.innerpar = true)
    (tile : Bool) (sizes sizes2 : Nat → Nat → Int) (hz : ∀ n m, 1 ≤ sizes n m) (hz2 : ∀ n m, 1 ≤ sizes2 n m)
    (p0 : Prog) (hp : p0.InputOK) (hea : EagerAuto ao L noDiamond fuel d0 p0)
    (p : Prog) (h : autoTransform ao L noDiamond fuel d0 p0 = some (.success p))
    (hU : Uniform p 0 p.hProps.length (List.range p.stmts.length))
    (params : List String) (hn : params.length = p0.npar) (pctx cctx : List Cst) (h0 : pctx ≠ [])
    (h1 : ∀ c ∈ pctx, c.WF ∧ c.Fits 64 ∧ c.ncols = p0.npar + 1) (h2 : ∀ c ∈ cctx, c.WF ∧ c.Fits 64 ∧ c.ncols = p0.npar + 1)
    (texts : Nat → List Line) (ht : ∀ i, texts i = []) :
    ∃ p' inp, scheduleProg ao L noDiamond fuel d0 best o tile false sizes sizes2 p0 = some (.success p') ∧
      readCloog p0.npar p'.hProps.length (genCloogFile ops params pctx cctx texts p') = some inp ∧
      (∀ q, q.length = p0.npar → (inp.Context q ↔ SatUnion pctx q ∧ SatUnion cctx q)) ∧
      ∀ q, q.length = p0.npar → ∀ run, Generated inp p'.dim q run →
        (run.map (origPart p0)).Nodup ∧
        (∀ i x, (i, x) ∈ run.map (origPart p0) ↔ ∃ st, p0.stmts[i]? = some st ∧ x.length = st.dim ∧ st.domain.Sat (x ++ q)) ∧
        ∀ d ∈ p0.deps, d.rar = false → ∀ s t, p0.Inst d s t q → (d.src, s) ∈ run.map (origPart p0) → (d.dest, t) ∈ run.map (origPart p0) →
          ComesBefore (run.map (origPart p0)) (d.src, s) (d.dest, t) := by
  obtain ⟨k1, k2, k3⟩ := C10_shape ao L hE hL fuel d0 p0 p hp h
  have k4 := C10_stepwise ao L hE hL fuel d0 p0 p hp hea h
  obtain ⟨_, _, r1, r2⟩ := C10_legal_partial ao L hE hL fuel d0 p0 p hp h
  obtain ⟨p', T, a1, a2, a3, a4, _⟩ := C52_innerpar_post_partial L.isEmpty hE best hbest o hip tile false sizes sizes2 hz hz2 p k1 k4 k2 hU k3
  have hS := (restored_sameRuns (auto_npar hE hL hp h) r1 r2).trans a4
  rw [← hS.npar] at hn h1 h2 ⊢
  obtain ⟨inp, b1, -, b2, -, -⟩ := C63_file ops ho p' a2 params hn pctx cctx h0 h1 h2 texts ht
  refine ⟨p', inp, ?_, b1, b2, fun q hq run hr => ?_⟩
  · unfold scheduleProg
    simp [h, a1]
  · exact C63_transformed ops ho p0 p' _ hS a2 (hS.inOrder a3) params hn pctx cctx h0 h1 h2 texts ht inp b1 q hq run hr

/-- `C65_tool_partial` with `--innerpar`. Missing: as there, except wavefronts. -/
theorem C65_tool_innerpar_partial {V : Type*} (ops : IslOps) (ho : ops.OK)
    (fo : FlowOps) (fl : FlowOpts) (accs : Bool) (func : BMap → List (List Int)) (npar : Nat)
    (ps : List PetStmt) (hpok : PetOK npar (petLive ps)) (hne : accs = true → ∀ s ∈ petLive ps, ∀ a ∈ s.reads ++ s.writes, a.parts ≠ [])
    (hfo : fo.OK (petReads (petLive ps)) (petWrites (petLive ps)) (petTimes (petLive ps)))
    (hnames : ∀ d, computeDeps fo fl true (petReads (petLive ps)) (petWrites (petLive ps)) (petTimes (petLive ps)) = some d → FlowNamesOK npar (petLive ps) d)
    (hdiv : ∀ s ∈ petLive ps, s.domain.ndiv = 0)
    (p0 : Prog) (ds : List PetDep) (hp0 : petToProg ops fo fl accs func npar ps = some (p0, ds))
    (ao : AutoOpts) (L : Libs) (hE : EmptyOracle L.isEmpty) (hL : FeasibleOracle L.solve) (fuel : Nat) (d0 : DfsState)
    (best : Prog → List Loop → Option Loop) (hbest : ∀ p ls L, best p ls = some L → L ∈ ls) (o : TileOpts) (hip : o.innerpar = true)
    (tile : Bool) (sizes sizes2 : Nat → Nat → Int) (hz : ∀ n m, 1 ≤ sizes n m) (hz2 : ∀ n m, 1 ≤ sizes2 n m)
    (hea : EagerAuto ao L noDiamond fuel d0 p0)
    (p : Prog) (h : autoTransform ao L noDiamond fuel d0 p0 = some (.success p))
    (hU : Uniform p 0 p.hProps.length (List.range p.stmts.length))
    (params : List String) (hn : params.length = npar) (pctx cctx : List Cst) (h0 : pctx ≠ [])
    (h1 : ∀ c ∈ pctx, c.WF ∧ c.Fits 64 ∧ c.ncols = npar + 1) (h2 : ∀ c ∈ cctx, c.WF ∧ c.Fits 64 ∧ c.ncols = npar + 1)
    (texts : Nat → List Line) (ht : ∀ i, texts i = []) :
    ∃ p' inp, scheduleProg ao L noDiamond fuel d0 best o tile false sizes sizes2 p0 = some (.success p') ∧
      readCloog npar p'.hProps.length (genCloogFile ops params pctx cctx texts p') = some inp ∧
      (∀ q, q.length = npar → (inp.Context q ↔ SatUnion pctx q ∧ SatUnion cctx q)) ∧
      ∀ q, q.length = npar → ∀ par : List Loop, (∀ l ∈ par, CarriesNone p' l.stmts l.depth) →
        ∀ run, ParGenerated inp p'.dim par q run → ∀ orig, SourceRun (petLive ps) q orig →
          ∀ act : Pt → Action Pt V, ActsAs (petLive ps) q act →
            ∀ m : Pt → V, execute act (run.map (origPart p0)) m = execute act orig m := by
  obtain ⟨p0', ds', e1, hp, e2, -, e3, e4⟩ := C64_program ops ho fo fl accs func npar ps hpok hne hnames
  rw [hp0] at e1
  cases e1
  subst e2
  obtain ⟨k1, k2, k3⟩ := C10_shape ao L hE hL fuel d0 p0 p hp h
  have k4 := C10_stepwise ao L hE hL fuel d0 p0 p hp hea h
  obtain ⟨_, _, r1, r2⟩ := C10_legal_partial ao L hE hL fuel d0 p0 p hp h
  obtain ⟨p', T, a1, a2, a3, a4, _⟩ := C52_innerpar_post_partial L.isEmpty hE best hbest o hip tile false sizes sizes2 hz hz2 p k1 k4 k2 hU k3
  have hS := (restored_sameRuns (auto_npar hE hL hp h) r1 r2).trans a4
  have hnp := hS.npar
  obtain ⟨inp, b1, -, b2, -, -⟩ := C63_file ops ho p' a2 params (by rw [hnp]; exact hn) pctx cctx h0 (by rw [hnp]; exact h1) (by rw [hnp]; exact h2) texts ht
  refine ⟨p', inp, ?_, by rw [← hnp]; exact b1, by rw [← hnp]; exact b2, fun q hq par hpar run hr orig hor act hact m => ?_⟩
  · unfold scheduleProg
    simp [h, a1]
  · obtain ⟨c1, c2, c3⟩ := C65_parallel ops ho p0 p' _ hS a2 (hS.inOrder a3) par hpar params (by rw [hnp]; exact hn) pctx cctx h0 (by rw [hnp]; exact h1)
      (by rw [hnp]; exact h2) texts ht inp b1 q (by rw [hnp]; exact hq) run hr
    refine C65_pet ops ho fo fl accs func p0.npar ps hpok hne hfo hnames p0 ds hp0 q orig hor act hact _ c1 (fun a => ?_) c3 m
    obtain ⟨i, x⟩ := a
    rw [c2]
    unfold PetRuns
    constructor
    · rintro ⟨st, f1, f2, f3⟩
      have hi : i < (petLive ps).length := by rw [← e3]; exact (List.getElem?_eq_some_iff.mp f1).1
      have hs := List.getElem?_eq_getElem hi
      obtain ⟨st', g1, g2, g3⟩ := e4 i _ hs
      rw [f1] at g1
      cases g1
      exact ⟨_, hs, (g3 x q (by rw [f2, g2]) hq).2 (hdiv _ (List.getElem_mem hi)) f3⟩
    · rintro ⟨s, hs, hx⟩
      obtain ⟨st, g1, g2, g3⟩ := e4 i s hs
      have hl : x.length = s.domain.nout := hx.2.1
      exact ⟨st, g1, by rw [g2, hl], (g3 x q hl hq).1 hx⟩

/-- `C65_tool_osl_partial` with `--innerpar`. Missing: as there, except wavefronts. -/
theorem C65_tool_osl_innerpar_partial {V : Type*} (ops : IslOps) (ho : ops.OK)
    (fo : FlowOps) (fl : FlowOpts) (accs : Bool) (sc : OslScop) (hsok : sc.OK) (hfo : OslFlowOK fo fl accs sc)
    (p0 : Prog) (ds : List OslDep) (hp0 : oslToProg ops fo fl accs sc = some (p0, ds))
    (ao : AutoOpts) (L : Libs) (hE : EmptyOracle L.isEmpty) (hL : FeasibleOracle L.solve) (fuel : Nat) (d0 : DfsState)
    (best : Prog → List Loop → Option Loop) (hbest : ∀ p ls L, best p ls = some L → L ∈ ls) (o : TileOpts) (hip : o.innerpar = true)
    (tile : Bool) (sizes sizes2 : Nat → Nat → Int) (hz : ∀ n m, 1 ≤ sizes n m) (hz2 : ∀ n m, 1 ≤ sizes2 n m)
    (hea : EagerAuto ao L noDiamond fuel d0 p0)
    (p : Prog) (h : autoTransform ao L noDiamond fuel d0 p0 = some (.success p))
    (hU : Uniform p 0 p.hProps.length (List.range p.stmts.length))
    (params : List String) (hn : params.length = sc.context.npar) (ctx : Cst) (hctx : oslToCst sc.context = some ctx) (cctx : List Cst)
    (h2 : ∀ c ∈ cctx, c.WF ∧ c.Fits 64 ∧ c.ncols = sc.context.npar + 1)
    (texts : Nat → List Line) (ht : ∀ i, texts i = []) :
    ∃ p' inp, scheduleProg ao L noDiamond fuel d0 best o tile false sizes sizes2 p0 = some (.success p') ∧
      readCloog sc.context.npar p'.hProps.length (genCloogFile ops params [ctx] cctx texts p') = some inp ∧
      (∀ q, q.length = sc.context.npar → (inp.Context q ↔ sc.context.Has [] [] q ∧ SatUnion cctx q)) ∧
      ∀ q, q.length = sc.context.npar → inp.Context q → ∀ par : List Loop, (∀ l ∈ par, CarriesNone p' l.stmts l.depth) →
        ∀ run, ParGenerated inp p'.dim par q run → ∀ orig, OslSourceRun sc q orig →
          ∀ act : Pt → Action Pt V, OslActsAs sc q act →
            ∀ m : Pt → V, execute act (run.map (origPart p0)) m = execute act orig m := by
  obtain ⟨p0', ds', e1, hp, e2, -, e3, e4⟩ := C68_program ops ho fo fl accs sc hsok hfo
  rw [hp0] at e1
  cases e1
  -- the context
  obtain ⟨cw, c1, c2⟩ := hsok.context
  have hcx : ctx = ⟨sc.context.npar + 1, sc.context.rows.map (fun w => ⟨w.headD 0 == 0, w.drop 1⟩)⟩ := by
    unfold oslToCst at hctx
    rw [if_neg (by simp [cw.noLocal]), c1, c2, cw.noLocal] at hctx
    simpa using hctx.symm
  have h1 : ∀ c ∈ [ctx], c.WF ∧ c.Fits 64 ∧ c.ncols = sc.context.npar + 1 := by
    intro c hc
    rw [List.mem_singleton] at hc
    subst hc
    rw [hcx]
    refine ⟨⟨by simp, fun r hr => ?_⟩, fun r hr v hv => ?_, rfl⟩
    · obtain ⟨w, hw, rfl⟩ := List.mem_map.mp hr
      have := cw.rows w hw
      simp only [List.length_drop]; omega
    · obtain ⟨w, hw, rfl⟩ := List.mem_map.mp hr
      have := cw.small w hw v (List.mem_of_mem_drop hv)
      norm_num at this ⊢
      omega
  have hctxsat : ∀ q : List Int, q.length = sc.context.npar → (SatUnion [ctx] q ↔ sc.context.Has [] [] q) := by
    intro q hq
    unfold SatUnion OslRel.Has Cst.Sat
    simp only [List.mem_singleton, exists_eq_left, hcx, List.mem_map, forall_exists_index, and_imp, forall_apply_eq_imp_iff₂, Row.Sat, hq, c1, c2, cw.noLocal, List.length_nil, true_and,
      List.length_eq_zero_iff, List.nil_append, List.append_nil]
    refine forall₂_congr fun w _ => ?_
    simp
  obtain ⟨k1, k2, k3⟩ := C10_shape ao L hE hL fuel d0 p0 p hp h
  have k4 := C10_stepwise ao L hE hL fuel d0 p0 p hp hea h
  obtain ⟨_, _, r1, r2⟩ := C10_legal_partial ao L hE hL fuel d0 p0 p hp h
  obtain ⟨p', T, a1, a2, a3, a4, _⟩ := C52_innerpar_post_partial L.isEmpty hE best hbest o hip tile false sizes sizes2 hz hz2 p k1 k4 k2 hU k3
  have hS := (restored_sameRuns (auto_npar hE hL hp h) r1 r2).trans a4
  have hnp := hS.npar.trans e2
  obtain ⟨inp, b1, -, b2, -, -⟩ := C63_file ops ho p' a2 params (by rw [hnp]; exact hn) [ctx] cctx (by simp) (by rw [hnp]; exact h1) (by rw [hnp]; exact h2) texts ht
  have hcon : ∀ q, q.length = sc.context.npar → (inp.Context q ↔ sc.context.Has [] [] q ∧ SatUnion cctx q) := by
    intro q hq
    rw [b2 q (by rw [hnp]; exact hq), hctxsat q hq]
  refine ⟨p', inp, ?_, by rw [← hnp]; exact b1, hcon, fun q hq hqc par hpar run hr orig hor act hact m => ?_⟩
  · unfold scheduleProg
    simp [h, a1]
  · obtain ⟨c1, c2, c3⟩ := C65_parallel ops ho p0 p' _ hS a2 (hS.inOrder a3) par hpar params (by rw [hnp]; exact hn) [ctx] cctx (by simp) (by rw [hnp]; exact h1)
      (by rw [hnp]; exact h2) texts ht inp b1 q (by rw [hnp]; exact hq) run hr
    refine C65_osl ops ho fo fl accs sc hsok hfo p0 ds hp0 q orig hor act hact _ c1 (fun a => ?_) c3 m
    obtain ⟨i, x⟩ := a
    have hcx := ((hcon q hq).mp hqc).1
    rw [c2]
    constructor
    · rintro ⟨st, f1, f2, f3⟩
      have hi : i < sc.stmts.length := by rw [← e3]; exact (List.getElem?_eq_some_iff.mp f1).1
      obtain ⟨st', g1, g2⟩ := e4 i _ (List.getElem?_eq_getElem hi)
      rw [f1] at g1
      cases g1
      exact (g2 x q f2 hq hcx).1.mp f3
    · intro hx
      obtain ⟨-, s, hs, -⟩ := id hx
      obtain ⟨st, g1, g2⟩ := e4 i s hs
      have hl : x.length = st.dim := by
        obtain ⟨st', hst', hm⟩ := forall2_get?' (P := fun (_ : OslStmt) (_ : Stmt) => True) (l := sc.stmts) (r := p0.stmts) (List.forall₂_iff_get.mpr ⟨e3.symm, fun _ _ _ => trivial⟩) hs
        rw [g1] at hst'
        cases hst'
        obtain ⟨pp, dd, isl, d, ra, wa, ds1, ds2, m1, -, -, -, -, -, -, -, m2, -⟩ := oslToProg_made ops ho fo fl accs sc hsok hfo
        rw [hp0] at m1
        cases m1
        obtain ⟨st'', n1, n2⟩ := forall2_get?' m2 hs
        rw [g1] at n1
        cases n1
        rw [n2.dim]
        exact (OslRuns.dim hsok hx hs).1
      exact ⟨st, g1, hl, (g2 x q hl hq hcx).1.mpr hx⟩

/-- `C67_library_partial` with `--innerpar`. Missing: as there, except wavefronts. -/
theorem C67_innerpar_partial (ops : IslOps) (ho : ops.OK) (npar : Nat) (doms : List IslDom) (deps : List IslDep) (hd : DomsOK npar doms)
    (hdp : DepsOK npar doms deps)
    (ao : AutoOpts) (L : Libs) (hE : EmptyOracle L.isEmpty) (hL : FeasibleOracle L.solve) (fuel : Nat) (d0 : DfsState)
    (best : Prog → List Loop → Option Loop) (hbest : ∀ p ls L, best p ls = some L → L ∈ ls) (o : TileOpts) (hip : o.innerpar = true)
    (tile : Bool) (sizes sizes2 : Nat → Nat → Int) (hz : ∀ n m, 1 ≤ sizes n m) (hz2 : ∀ n m, 1 ≤ sizes2 n m)
    (p0 : Prog) (h0 : progFromIsl ops doms deps = some p0) (hea : EagerAuto ao L noDiamond fuel d0 p0)
    (p : Prog) (h : autoTransform ao L noDiamond fuel d0 p0 = some (.success p))
    (hU : Uniform p 0 p.hProps.length (List.range p.stmts.length))
    (hsm : ∀ p', scheduleProg ao L noDiamond fuel d0 best o tile false sizes sizes2 p0 = some (.success p') → SmallEntries p') :
    ∃ p' ms rs, scheduleProg ao L noDiamond fuel d0 best o tile false sizes sizes2 p0 = some (.success p') ∧
      parallelScheduleWithRemap ops (scheduleProg ao L noDiamond fuel d0 best o tile false sizes sizes2) doms deps = some ⟨some ms, some rs, none⟩ ∧
      plutoTransform ops (scheduleProg ao L noDiamond fuel d0 best o tile false sizes sizes2) doms deps = some (some ms) ∧
      scheduleAndRemap ops (scheduleProg ao L noDiamond fuel d0 best o tile false sizes sizes2) doms deps = some (some rs) ∧
      DistinctTimes doms ms ∧
      ∀ (i : Nat) x q t m, Instance doms i x q → ms[i]? = some m → m.Has x t q →
        ∃ r st, rs[i]? = some r ∧ p'.stmts[i]? = some st ∧ Recovers r (st.dim - st.dimOrig) x t q := by
  obtain ⟨q, g1, hp, -⟩ := C60_extract ops ho npar doms deps hd hdp
  rw [h0] at g1
  cases g1
  obtain ⟨k1, k2, k3⟩ := C10_shape ao L hE hL fuel d0 p0 p hp h
  have k4 := C10_stepwise ao L hE hL fuel d0 p0 p hp hea h
  obtain ⟨_, _, r1, r2⟩ := C10_legal_partial ao L hE hL fuel d0 p0 p hp h
  obtain ⟨p', T, a1, a2, a3, a4, _⟩ := C52_innerpar_post_partial L.isEmpty hE best hbest o hip tile false sizes sizes2 hz hz2 p k1 k4 k2 hU k3
  have hS := (restored_sameRuns (auto_npar hE hL hp h) r1 r2).trans a4
  have hs : scheduleProg ao L noDiamond fuel d0 best o tile false sizes sizes2 p0 = some (.success p') := by
    unfold scheduleProg
    simp [h, a1]
  have hor : origs p' = origs p0 := by
    rw [postTransform_origs a1]
    have : ∀ l l' : List Stmt, List.Forall₂ (StmtRestored p0.npar) l l' → l'.map (·.dimOrig) = l.map (·.dimOrig) := by
      intro l l' hl
      induction hl with
      | nil => rfl
      | cons hh _ ih => simp [hh.2.1, ih]
    exact this _ _ r1
  obtain ⟨o1, o2⟩ := C67_schedule ao L hE hL fuel d0 best o tile false sizes sizes2 p0 p' hp (by simp) hs
  obtain ⟨ms, rs, e1, e2, e3, e4, e5⟩ := C67_library ops ho npar doms deps hd hdp _ p0 p' _ h0 hs a2 o1 o2 hS hor (hsm p' hs)
  exact ⟨p', ms, rs, hs, e1, e2, e3, e4, e5⟩

/-- `C70_any_sizes_partial` with `--innerpar`. Missing: as there, except wavefronts. -/
theorem C70_innerpar_partial (isEmpty : Cst → Bool) (hE : EmptyOracle isEmpty) (best : Prog → List Loop → Option Loop)
    (hbest : ∀ p ls L, best p ls = some L → L ∈ ls) (o : TileOpts) (hip : o.innerpar = true)
    (select : Prog → Band → List Int × List Int → Option (List Int × List Int))
    (p : Prog) (hok : p.OK) (hi : p.Info) (hst : Stepwise p) (hT : TypesRight p)
    (hU : Uniform p 0 p.hProps.length (List.range p.stmts.length)) (hps : PureScalars p)
    (p' : Prog) (h : plutoTileWith isEmpty best select o p = some p') :
    ∃ T, p'.OK ∧ p'.Legal ∧ SameRuns p p' T ∧
      ∀ d ∈ p.deps, d.rar = false → ∀ s t q, p.Inst d s t q →
        LexBefore (p'.timestamp d.src (T d.src s q ++ s) q) (p'.timestamp d.dest (T d.dest t q ++ t) q) := by
  have hall := h
  unfold plutoTileWith at h
  obtain ⟨bands, hb, h⟩ := Option.bind_eq_some_iff.mp h
  obtain ⟨p1, e1, h⟩ := Option.bind_eq_some_iff.mp h
  obtain ⟨S, hS, e2⟩ := tileScatteringWith_sizes e1
  have hS2 : ∃ S2 : Nat → Nat → Int, (∀ n m, 1 ≤ S2 n m) ∧ (o.secondLevel = true →
      tileScatteringWith select true p1 bands = tileScatteringDims p1 bands S2) := by
    by_cases c : o.secondLevel = true
    · rw [if_pos c] at h
      obtain ⟨x, e3, -⟩ := Option.bind_eq_some_iff.mp h
      obtain ⟨p2, e4, -⟩ := Option.map_eq_some_iff.mp e3
      obtain ⟨S2, hS2, e5⟩ := tileScatteringWith_sizes e4
      exact ⟨S2, hS2, fun _ => by rw [e4, e5]⟩
    · exact ⟨fun _ _ => 1, by simp, fun h => absurd h c⟩
  obtain ⟨S2, hS2, e5⟩ := hS2
  obtain ⟨p2, T, h1, h2⟩ := C50_innerpar_partial isEmpty hE best hbest o hip S S2 hS hS2 p hok hi hst hT hU hps
  have : plutoTile isEmpty best o S S2 p = plutoTileWith isEmpty best select o p := by
    unfold plutoTileWith plutoTile tileLevels
    simp only [hb, e1, e2, Option.bind_eq_bind, Option.bind_some]
    cases c : o.secondLevel with
    | false => rfl
    | true => rw [if_pos rfl, if_pos rfl, e5 c]; cases tileScatteringDims p1 bands S2 <;> rfl
  rw [this, hall] at h1
  cases h1
  exact ⟨T, h2⟩

/-- `C70_tile_partial` with `--innerpar`. Missing: as there, except wavefronts. -/
theorem C70_tile_innerpar_partial (isEmpty : Cst → Bool) (hE : EmptyOracle isEmpty) (best : Prog → List Loop → Option Loop)
    (hbest : ∀ p ls L, best p ls = some L → L ∈ ls) (o : TileOpts) (hip : o.innerpar = true) (file : Option SizeFile)
    (hf : ∀ f, file = some f → f.Positive) (ft lt : Int) (hft : ft < 0 ∨ lt < 0)
    (p : Prog) (hok : p.OK) (hi : p.Info) (hst : Stepwise p) (hT : TypesRight p)
    (hU : Uniform p 0 p.hProps.length (List.range p.stmts.length)) (hps : PureScalars p) :
    ∃ p' T, plutoTileWith isEmpty best (readSelect file ft lt) o p = some p' ∧ p'.OK ∧ p'.Legal ∧ SameRuns p p' T ∧
      ∀ d ∈ p.deps, d.rar = false → ∀ s t q, p.Inst d s t q →
        LexBefore (p'.timestamp d.src (T d.src s q ++ s) q) (p'.timestamp d.dest (T d.dest t q ++ t) q) := by
  obtain ⟨bands, hb, hB, hbase⟩ := tileBands_base hok hi hst hT hU hps
  obtain ⟨S, p1, e1, e2, hS⟩ := C70_any_file p hok bands hB file hf ft lt hft false
  obtain ⟨p1', f1, ok1, _, _, _, B1, _⟩ := tile_step hS hok (hst.legal hok) hT hps hB hbase
  rw [e2] at f1
  cases f1
  obtain ⟨S2, p2, e3, e4, hS2⟩ := C70_any_file p1 ok1 bands B1 file hf ft lt hft true
  obtain ⟨p', T, h1, h⟩ := C50_innerpar_partial isEmpty hE best hbest o hip S S2 hS hS2 p hok hi hst hT hU hps
  refine ⟨p', T, ?_, h⟩
  rw [← h1]
  unfold plutoTileWith plutoTile tileLevels
  simp only [hb, e1, e2, e3, e4, Option.bind_eq_bind, Option.bind_some]
  cases o.secondLevel <;> rfl

/-- The hypotheses of `C70_innerpar_partial` and `C70_tile_innerpar_partial` hold for the tiling example, without a file of tile sizes. -/
example (isEmpty : Cst → Bool) (hE : EmptyOracle isEmpty) : (exTile.OK ∧ exTile.Info ∧ Stepwise exTile ∧ TypesRight exTile ∧
    Uniform exTile 0 exTile.hProps.length (List.range exTile.stmts.length) ∧ PureScalars exTile) ∧
    ∃ p', plutoTileWith isEmpty exBest (readSelect none (-1) (-1)) { exTileOpts with innerpar := true } exTile = some p' := by
  have h : exTile.OK ∧ exTile.Info ∧ Stepwise exTile ∧ TypesRight exTile ∧
      Uniform exTile 0 exTile.hProps.length (List.range exTile.stmts.length) ∧ PureScalars exTile :=
    ⟨exTile_ok.1, exTile_info, exTile_stepwise, by decide +kernel, by decide +kernel, exTile_pure⟩
  refine ⟨h, ?_⟩
  obtain ⟨h1, h2, h3, h4, h5, h6⟩ := h
  obtain ⟨p', _, h, _⟩ := C70_tile_innerpar_partial isEmpty hE exBest (fun p ls L h => List.mem_of_getLast? h) { exTileOpts with innerpar := true } rfl none
    (by simp) (-1) (-1) (by simp) exTile h1 h2 h3 h4 h5 h6
  exact ⟨p', h⟩

/-- The hypotheses of `C63_innerpar_partial` hold for the example of `C52_schedule_partial`; those of the front ends and of `C67_innerpar_partial`
are shown beside `C64_program`, `C68_program` and `C60_innerpar_partial`. -/
example : EmptyOracle exSchedLibs.isEmpty ∧ FeasibleOracle exSchedLibs.solve ∧ exSched.InputOK ∧
    EagerAuto exAutoOpts exSchedLibs noDiamond 10 exDfs exSched ∧
    Outcome.holds (fun p => decide (Uniform p 0 p.hProps.length (List.range p.stmts.length))) (autoTransform exAutoOpts exSchedLibs noDiamond 10 exDfs exSched) = true :=
  ⟨exSchedLibs_ok.1, exSchedLibs_ok.2.1, ⟨by decide, by decide⟩, eagerAutoCheck_ok (by decide +kernel), by decide +kernel⟩

end Pluto
