import Verif.Spec.ParallelRun
import Verif.Props.Codegen
import Verif.Props.Semantics

/-! C65: generated code, with loops run in parallel, computes what the source program computes. -/

namespace Pluto

theorem timestamp_phi {p : Prog} (hok : p.OK) {i : Nat} (hi : i < p.stmts.length) (l : Nat) (x q : List Int) :
    (p.timestamp i x q)[l]? = if l < p.hProps.length then some (p.phi i l x q) else none := by
  have hst := List.getElem?_eq_getElem hi
  have hlen := hok.levels _ (List.getElem_mem hi)
  by_cases h : l < p.hProps.length
  · rw [if_pos h]
    unfold Prog.timestamp Prog.phi Prog.row
    simp [hst, hlen ▸ h]
  · rw [if_neg h]
    unfold Prog.timestamp
    simp [hst]
    omega

/-- Dependent instances are not in different iterations of a loop that carries no dependence. -/
theorem carriesNone_sameRuns {p p' : Prog} {T : Nat → List Int → List Int → List Int} (h : SameRuns p p' T) (hok : p'.OK) {l : Loop}
    (hl : CarriesNone p' l.stmts l.depth) : ∀ d ∈ p.deps, d.rar = false → ∀ s t q, p.Inst d s t q →
      ¬ OtherIters l d.dest d.src (p'.timestamp d.dest (T d.dest t q ++ t) q) (p'.timestamp d.src (T d.src s q ++ s) q) := by
  rintro d hd hr s t q hin ⟨m1, m2, m3, m4⟩
  obtain ⟨n, hn, rfl⟩ := List.getElem_of_mem hd
  have hlen := h.deps.length_eq
  have hD := (List.forall₂_iff_get.mp h.deps).2 n hn (by omega)
  simp only [List.get_eq_getElem] at hD
  obtain ⟨a1, a2, a3, a4⟩ := hD
  have l1 : (T p.deps[n].src s q ++ s).length = p'.dim p.deps[n].src := by rw [List.length_append]; exact h.coords _ _ _ hin.hs
  have l2 : (T p.deps[n].dest t q ++ t).length = p'.dim p.deps[n].dest := by rw [List.length_append]; exact h.coords _ _ _ hin.ht
  have hin' : p'.Inst (p'.deps[n]'(by omega)) (T p.deps[n].src s q ++ s) (T p.deps[n].dest t q ++ t) q :=
    ⟨by rw [a1]; exact l1, by rw [a2]; exact l2, by rw [h.npar]; exact hin.hp,
      (a4 _ _ q l1 l2 hin.hp).mpr ⟨s, t, hin.hs, hin.ht, hin.sat, rfl, rfl⟩⟩
  obtain ⟨b1, b2, -⟩ := hok.deps _ (List.getElem_mem (l := p'.deps) (n := n) (by omega))
  have := hl _ (List.getElem_mem (by omega)) (by rw [a3]; exact hr) (by rw [a1]; exact m2) (by rw [a2]; exact m1) _ _ _ hin'
  rw [a1] at b1 this
  rw [a2] at b2 this
  rw [timestamp_phi hok b2, timestamp_phi hok b1] at m4
  by_cases hh : l.depth < p'.hProps.length
  · rw [if_pos hh, if_pos hh] at m4
    refine m4 (congrArg some (this fun k hk => ?_).symm)
    have e := m3 k hk
    rw [timestamp_phi hok b2, timestamp_phi hok b1, if_pos (by omega), if_pos (by omega)] at e
    unfold Prog.comp
    rw [a1, a2, Option.some.inj e, sub_self]
  · rw [if_neg hh, if_neg hh] at m4
    exact m4 rfl

/-- C65. As `C63_transformed`, with the iterations of loops that carry no dependence run in any order: every
instance of `p0` is run once, nothing else is, and dependent ones are run in order. -/
theorem C65_parallel (ops : IslOps) (ho : ops.OK) (p0 p : Prog) (T : Nat → List Int → List Int → List Int) (hS : SameRuns p0 p T)
    (hok : p.OK) (hord : ∀ d ∈ p0.deps, d.rar = false → ∀ s t q, p0.Inst d s t q →
        LexBefore (p.timestamp d.src (T d.src s q ++ s) q) (p.timestamp d.dest (T d.dest t q ++ t) q))
    (par : List Loop) (hpar : ∀ l ∈ par, CarriesNone p l.stmts l.depth)
    (params : List String) (hn : params.length = p.npar) (pctx cctx : List Cst) (h0 : pctx ≠ [])
    (h1 : ∀ c ∈ pctx, c.WF ∧ c.Fits 64 ∧ c.ncols = p.npar + 1) (h2 : ∀ c ∈ cctx, c.WF ∧ c.Fits 64 ∧ c.ncols = p.npar + 1)
    (texts : Nat → List Line) (ht : ∀ i, texts i = []) (inp : CloogInput)
    (hin : readCloog p.npar p.hProps.length (genCloogFile ops params pctx cctx texts p) = some inp)
    (q : List Int) (hq : q.length = p.npar) (run : List (Nat × List Int)) (hr : ParGenerated inp p.dim par q run) :
    (run.map (origPart p0)).Nodup ∧
    (∀ i x, (i, x) ∈ run.map (origPart p0) ↔ ∃ st, p0.stmts[i]? = some st ∧ x.length = st.dim ∧ st.domain.Sat (x ++ q)) ∧
    ∀ d ∈ p0.deps, d.rar = false → ∀ s t, p0.Inst d s t q → (d.src, s) ∈ run.map (origPart p0) → (d.dest, t) ∈ run.map (origPart p0) →
      ComesBefore (run.map (origPart p0)) (d.src, s) (d.dest, t) := by
  obtain ⟨inp', k1, -, -, k2, k3⟩ := C63_file ops ho p hok params hn pctx cctx h0 h1 h2 texts ht
  rw [hin] at k1
  cases k1
  have hq0 : q.length = p0.npar := by rw [hq, hS.npar]
  have hdim : ∀ (P : Prog) (i : Nat) (st : Stmt), P.stmts[i]? = some st → P.dim i = st.dim := fun P i st h => by simp [Prog.dim, h]
  -- what the code runs
  have hrun : ∀ i x', (i, x') ∈ run ↔ ∃ st x, p0.stmts[i]? = some st ∧ x.length = st.dim ∧ st.domain.Sat (x ++ q) ∧ x' = T i x q ++ x := by
    intro i x'
    rw [hr.all]
    constructor
    · rintro ⟨a, b⟩
      obtain ⟨u, hu, -⟩ := id b
      have hi : i < p.stmts.length := by rw [← k2]; exact (List.getElem?_eq_some_iff.mp hu).1
      have hst := List.getElem?_eq_getElem hi
      have hi0 : i < p0.stmts.length := by rw [← hS.len]; exact hi
      have hst0 := List.getElem?_eq_getElem hi0
      have hx : x'.length = (p.stmts[i]).dim := by rw [a, hdim p i _ hst]
      obtain ⟨x, e1, e2, e3⟩ := (hS.stmts i _ _ hst0 hst x' q hx hq0).mp (((k3 i _ hst x' q hx hq).1).mp b)
      exact ⟨_, x, hst0, e1, e2, e3⟩
    · rintro ⟨st0, x, hst0, hx, hsat, rfl⟩
      have hi : i < p.stmts.length := by rw [hS.len]; exact (List.getElem?_eq_some_iff.mp hst0).1
      have hst := List.getElem?_eq_getElem hi
      have hl : (T i x q ++ x).length = (p.stmts[i]).dim := by
        rw [List.length_append, hS.coords i x q (by rw [hx, hdim p0 i _ hst0]), hdim p i _ hst]
      refine ⟨by rw [hl, hdim p i _ hst], ((k3 i _ hst _ q hl hq).1).mpr ?_⟩
      exact (hS.stmts i _ _ hst0 hst _ q hl hq0).mpr ⟨x, hx, hsat, rfl⟩
  have horig : ∀ i st x, p0.stmts[i]? = some st → x.length = st.dim → origPart p0 (i, T i x q ++ x) = (i, x) := by
    intro i st x hst hx
    unfold origPart
    rw [hdim p0 i st hst, List.length_append, hx, Nat.add_sub_cancel, List.drop_left]
  have hmem : ∀ i x, (i, x) ∈ run.map (origPart p0) ↔ ∃ st, p0.stmts[i]? = some st ∧ x.length = st.dim ∧ st.domain.Sat (x ++ q) := by
    intro i x
    rw [List.mem_map]
    constructor
    · rintro ⟨⟨j, x'⟩, a, b⟩
      obtain ⟨st, y, e1, e2, e3, rfl⟩ := (hrun j x').mp a
      rw [horig j st y e1 e2] at b
      cases b
      exact ⟨st, e1, e2, e3⟩
    · rintro ⟨st, e1, e2, e3⟩
      exact ⟨(i, T i x q ++ x), (hrun _ _).mpr ⟨st, x, e1, e2, e3, rfl⟩, horig i st x e1 e2⟩
  have hnd : (run.map (origPart p0)).Nodup := by
    refine List.Nodup.map_on ?_ hr.once
    rintro ⟨i, x⟩ ha ⟨j, y⟩ hb e
    obtain ⟨st, x0, a1, a2, a3, rfl⟩ := (hrun i x).mp ha
    obtain ⟨st', y0, b1, b2, b3, rfl⟩ := (hrun j y).mp hb
    rw [horig i st x0 a1 a2, horig j st' y0 b1 b2] at e
    obtain ⟨rfl, rfl⟩ := Prod.mk.inj e
    rfl
  refine ⟨hnd, hmem, fun d hd hrar s t hI hs ht => ?_⟩
  have hlex := hord d hd hrar s t q hI
  obtain ⟨i, hi, ei⟩ := List.getElem_of_mem hs
  obtain ⟨j, hj, ej⟩ := List.getElem_of_mem ht
  refine ⟨i, j, ?_, by rw [← ei]; exact List.getElem?_eq_getElem hi, by rw [← ej]; exact List.getElem?_eq_getElem hj⟩
  rw [List.length_map] at hi hj
  have back : ∀ (k : Nat) (hk : k < run.length) (a : Nat) (x : List Int), (run.map (origPart p0))[k]'(by simpa using hk) = (a, x) →
      run[k] = (a, T a x q ++ x) ∧ ∀ u, inp.At q a (T a x q ++ x) u ↔ u = p.timestamp a (T a x q ++ x) q := by
    intro k hk a x e
    rw [List.getElem_map] at e
    have hm : (run[k].1, run[k].2) ∈ run := List.getElem_mem hk
    obtain ⟨st, y, e1, e2, e3, e4⟩ := (hrun _ _).mp hm
    have e5 : run[k] = (run[k].1, T run[k].1 y q ++ y) := Prod.ext rfl e4
    rw [e5, horig _ st y e1 e2] at e
    obtain ⟨f1, f2⟩ := Prod.mk.inj e
    rw [f1, f2] at e5
    rw [f1] at e1
    rw [f2] at e2
    refine ⟨e5, ?_⟩
    have hi : a < p.stmts.length := by rw [hS.len]; exact (List.getElem?_eq_some_iff.mp e1).1
    have hst := List.getElem?_eq_getElem hi
    have hl : (T a x q ++ x).length = (p.stmts[a]).dim := by
      rw [List.length_append, hS.coords a x q (by rw [e2, hdim p0 a _ e1]), hdim p a _ hst]
    exact fun u => (k3 a _ hst _ q hl hq).2 u
  obtain ⟨a1, a2⟩ := back i hi _ _ ei
  obtain ⟨b1, b2⟩ := back j hj _ _ ej
  rcases Nat.lt_trichotomy i j with h | h | h
  · exact h
  · subst h
    rw [ei] at ej
    obtain ⟨e1, e2⟩ := Prod.mk.inj ej
    rw [e1, e2] at hlex
    exact absurd hlex (lexBefore_irrefl _)
  · exfalso
    have := List.pairwise_iff_getElem.mp hr.order j i hj hi h
    rw [a1, b1] at this
    obtain ⟨l, hl, hsep⟩ := this _ _ ((b2 _).mpr rfl) ((a2 _).mpr rfl) hlex
    exact carriesNone_sameRuns hS hok (hpar l hl) d hd hrar s t q hI hsep

/-- C65, from the source program to the code. Take a scop that pet reads (without existentially quantified variables
in the domains). If the automatic transformation succeeds, then the code generated from the file that the tool
writes computes what the statements of the scop (other than those removed as dead) compute in their
original order, also if loops that carry no dependence are run in parallel.
Missing: as for `C52_schedule_partial`; statements whose text has several lines (`C63_violated_text`); domains with
existentially quantified variables (`C64_violated_stride`) and dead statements (`C64_violated_dead`). -/
theorem C65_tool_partial {V : Type*} (ops : IslOps) (ho : ops.OK)
    (fo : FlowOps) (fl : FlowOpts) (accs : Bool) (func : BMap → List (List Int)) (npar : Nat)
    (ps : List PetStmt) (hpok : PetOK npar (petLive ps)) (hne : accs = true → ∀ s ∈ petLive ps, ∀ a ∈ s.reads ++ s.writes, a.parts ≠ [])
    (hfo : fo.OK (petReads (petLive ps)) (petWrites (petLive ps)) (petTimes (petLive ps)))
    (hnames : ∀ d, computeDeps fo fl true (petReads (petLive ps)) (petWrites (petLive ps)) (petTimes (petLive ps)) = some d → FlowNamesOK npar (petLive ps) d)
    (hdiv : ∀ s ∈ petLive ps, s.domain.ndiv = 0)
    (p0 : Prog) (ds : List PetDep) (hp0 : petToProg ops fo fl accs func npar ps = some (p0, ds))
    (ao : AutoOpts) (L : Libs) (hE : EmptyOracle L.isEmpty) (hL : FeasibleOracle L.solve) (fuel : Nat) (d0 : DfsState)
    (best : Prog → List Loop → Option Loop) (hbest : ∀ p ls L, best p ls = some L → L ∈ ls) (o : TileOpts) (hip : o.innerpar = false)
    (tile : Bool) (sizes sizes2 : Nat → Nat → Int) (hz : ∀ n m, 1 ≤ sizes n m) (hz2 : ∀ n m, 1 ≤ sizes2 n m)
    (hea : EagerAuto ao L noDiamond fuel d0 p0)
    (p : Prog) (h : autoTransform ao L noDiamond fuel d0 p0 = some (.success p))
    (hU : Uniform p 0 p.hProps.length (List.range p.stmts.length))
    (hfw : o.parallel = true → tile = true → ∀ p1 bands, recompute L.isEmpty p = some p1 → tileBands p1 = some bands → LoopBands p1 bands)
    (hfw' : o.parallel = true → tile = false → ∀ p1 bands, beforeWave L.isEmpty best o false sizes sizes2 p = some p1 →
      outermostBands p1 = some bands → LoopBands p1 bands)
    (params : List String) (hn : params.length = npar) (pctx cctx : List Cst) (h0 : pctx ≠ [])
    (h1 : ∀ c ∈ pctx, c.WF ∧ c.Fits 64 ∧ c.ncols = npar + 1) (h2 : ∀ c ∈ cctx, c.WF ∧ c.Fits 64 ∧ c.ncols = npar + 1)
    (texts : Nat → List Line) (ht : ∀ i, texts i = []) :
    ∃ p' inp, scheduleProg ao L noDiamond fuel d0 best o tile false sizes sizes2 p0 = some (.success p') ∧
      readCloog npar p'.hProps.length (genCloogFile ops params pctx cctx texts p') = some inp ∧
      (∀ q, q.length = npar → (inp.Context q ↔ SatUnion pctx q ∧ SatUnion cctx q)) ∧
      ∀ q, q.length = npar → ∀ par : List Loop, (∀ l ∈ par, CarriesNone p' l.stmts l.depth) →
        ∀ run, ParGenerated inp p'.dim par q run → ∀ orig, SourceRun (petLive ps) q orig →
          ∀ act : Pt → Action Pt V, ActsAs (petLive ps) q act →
            ∀ m : Pt → V, execute act (run.map (origPart p0)) m = execute act orig m := by
  obtain ⟨p0', ds', e1, hp, e2, -, e3, e4⟩ := C64_program ops ho fo fl accs func npar ps hpok hne hnames
  rw [hp0] at e1
  cases e1
  subst e2
  obtain ⟨k1, k2, k3⟩ := C10_shape ao L hE hL fuel d0 p0 p hp h
  have k4 := C10_stepwise ao L hE hL fuel d0 p0 p hp hea h
  obtain ⟨_, _, r1, r2⟩ := C10_legal_partial ao L hE hL fuel d0 p0 p hp h
  obtain ⟨p', T, a1, a2, a3, a4, _⟩ := C52_post_partial L.isEmpty hE best hbest o hip tile false sizes sizes2 hz hz2 p k1 k4 k2 hU k3 hfw
    (fun a b _ => hfw' a b)
  have hS := (restored_sameRuns (auto_npar hE hL hp h) r1 r2).trans a4
  have hnp := hS.npar
  obtain ⟨inp, b1, -, b2, -, -⟩ := C63_file ops ho p' a2 params (by rw [hnp]; exact hn) pctx cctx h0 (by rw [hnp]; exact h1) (by rw [hnp]; exact h2) texts ht
  refine ⟨p', inp, ?_, by rw [← hnp]; exact b1, by rw [← hnp]; exact b2, fun q hq par hpar run hr orig hor act hact m => ?_⟩
  · unfold scheduleProg
    simp [h, a1]
  · obtain ⟨c1, c2, c3⟩ := C65_parallel ops ho p0 p' _ hS a2 (hS.inOrder a3) par hpar params (by rw [hnp]; exact hn) pctx cctx h0 (by rw [hnp]; exact h1)
      (by rw [hnp]; exact h2) texts ht inp b1 q (by rw [hnp]; exact hq) run hr
    refine C65_pet ops ho fo fl accs func p0.npar ps hpok hne hfo hnames p0 ds hp0 q orig hor act hact _ c1 (fun a => ?_) c3 m
    obtain ⟨i, x⟩ := a
    rw [c2]
    unfold PetRuns
    constructor
    · rintro ⟨st, f1, f2, f3⟩
      have hi : i < (petLive ps).length := by rw [← e3]; exact (List.getElem?_eq_some_iff.mp f1).1
      have hs := List.getElem?_eq_getElem hi
      obtain ⟨st', g1, g2, g3⟩ := e4 i _ hs
      rw [f1] at g1
      cases g1
      exact ⟨_, hs, (g3 x q (by rw [f2, g2]) hq).2 (hdiv _ (List.getElem_mem hi)) f3⟩
    · rintro ⟨s, hs, hx⟩
      obtain ⟨st, g1, g2, g3⟩ := e4 i s hs
      have hl : x.length = s.domain.nout := hx.2.1
      exact ⟨st, g1, by rw [g2, hl], (g3 x q hl hq).1 hx⟩

end Pluto
