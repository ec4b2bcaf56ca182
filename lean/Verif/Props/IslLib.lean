import Verif.Lemmas.IslLib
import Verif.Lemmas.Origs
import Verif.Props.Schedule

/-!
C60: what `pluto_transform` returns. The caller gives iteration domains and dependences as isl objects and
gets a schedule relation for every statement.
-/

namespace Pluto

/-- C60. The isl relation made for a statement maps an instance `x` of the original loops to exactly the
times of the transformed statement, over all the added (tile) coordinates `z` with which `x` is in the
transformed domain. -/
theorem C60_schedules (ops : IslOps) (ho : ops.OK) (p : Prog) (hok : p.OK) (hdo : ∀ st ∈ p.stmts, st.dimOrig ≤ st.dim) (hs : SmallEntries p) :
    ∃ ms, schedulesToIsl ops p = some ms ∧ ms.length = p.stmts.length ∧
      ∀ (i : Nat) (st : Stmt) (m : BMap), p.stmts[i]? = some st → ms[i]? = some m →
        ∀ x q t : List Int, x.length = st.dimOrig → q.length = p.npar →
        (∃ z : List Int, z.length = st.dim - st.dimOrig ∧ st.domain.Sat (z ++ x ++ q)) →
        (m.Has x t q ↔ ∃ z : List Int, z.length = st.dim - st.dimOrig ∧ st.domain.Sat (z ++ x ++ q) ∧ t = st.time (z ++ x) q) := by
  obtain ⟨ms, h1, h2, h3⟩ := schedulesToIsl_ok ops ho p hok hdo hs
  exact ⟨ms, h1, h2, fun i st m a b => (h3 i st m a b).2⟩

/-- C60. The program made from isl domains and dependences is a valid input of the automatic transformation
and has the given instances and dependences: statement `i` is the domain named `S_i`, the `k`-th
dependence the `k`-th relation. With existentially quantified variables it may have more instances and
dependent pairs, without them exactly the given ones. -/
theorem C60_extract (ops : IslOps) (ho : ops.OK) (npar : Nat) (doms : List IslDom) (deps : List IslDep) (hd : DomsOK npar doms)
    (hp : DepsOK npar doms deps) :
    ∃ p, progFromIsl ops doms deps = some p ∧ p.InputOK ∧ p.stmts.length = doms.length ∧
      (∀ d ∈ doms, ∃ st, p.stmts[d.id]? = some st ∧ st.dim = d.set.nout ∧ st.dimOrig = d.set.nout ∧ ∀ x q : List Int, x.length = d.set.nout → q.length = npar →
        (d.set.Has [] x q → st.domain.Sat (x ++ q)) ∧ (d.set.ndiv = 0 → st.domain.Sat (x ++ q) → d.set.Has [] x q)) ∧
      List.Forall₂ (fun (d : IslDep) (d' : Dep) => d'.src = d.src ∧ d'.dest = d.dest ∧ d'.rar = false ∧ ∀ s t q,
        (d.rel.Has s t q → p.Inst d' s t q) ∧ (d.rel.ndiv = 0 → p.Inst d' s t q → d.rel.Has s t q)) deps p.deps := by
  obtain ⟨p, h1, h2, h3, h4, h5, h6⟩ := progFromIsl_ok ops ho npar doms deps hd hp
  refine ⟨p, h1, h2, h3, fun d hdm => ⟨_, h5 d hdm, rfl, rfl, fun x q hx hq => ?_⟩, ?_⟩
  · obtain ⟨w, n0, np⟩ := hd.sets d hdm
    have := (C59_to_set ops ho d.set w).2.2 [] x q (by simp [n0]) hx (by rw [np, hq])
    simpa [islStmt] using this
  · rw [List.forall₂_iff_get] at h6 ⊢
    refine ⟨h6.1, fun k hk hk' => ?_⟩
    have hk2 := h6.2 k hk hk'
    have hdm : deps.get ⟨k, hk⟩ ∈ deps := List.get_mem _ _
    generalize deps.get ⟨k, hk⟩ = d at hk2 hdm
    generalize p.deps.get ⟨k, hk'⟩ = d' at hk2
    obtain ⟨s1, s2, s3, s4⟩ := hk2
    refine ⟨s1, s2, s3, fun s t q => ?_⟩
    obtain ⟨w, np, a, ha, b, hb, ea, eb, e1, e2⟩ := hp d hdm
    obtain ⟨r1, r2, r3, r4, r5, r6, r7⟩ := ho.removeDivs d.rel w
    have hnp : p.npar = npar := h4 (List.ne_nil_of_mem ha)
    have hda : p.dim d'.src = a.set.nout := by simp [Prog.dim, s1, ← ea, h5 a ha, islStmt]
    have hdb : p.dim d'.dest = b.set.nout := by simp [Prog.dim, s2, ← eb, h5 b hb, islStmt]
    unfold Prog.Inst
    rw [hda, hdb, hnp, s4]
    constructor
    · intro h
      have h' := r6 s t q h
      obtain ⟨l1, l2, l3, -⟩ := h
      exact ⟨by rw [l1, e1], by rw [l2, e2], by rw [l3, np], (C59_to_map_exact _ r1 r2 s t q (by rw [r3, l1]) (by rw [r4, l2]) (by rw [r5, l3])).mpr h'⟩
    · rintro h0 ⟨l1, l2, l3, h⟩
      exact r7 h0 s t q ((C59_to_map_exact _ r1 r2 s t q (by rw [r3, l1, e1]) (by rw [r4, l2, e2]) (by rw [r5, l3, np])).mp h)

/-- C60, for any scheduler: whenever it turns the extracted program into one with the same instances that
runs dependent instances in order, `pluto_transform` returns schedules that give every instance exactly one
time and respect all dependences, as long as coefficients are in the range of an `int`. -/
theorem C60_transform (ops : IslOps) (ho : ops.OK) (npar : Nat) (doms : List IslDom) (deps : List IslDep) (hd : DomsOK npar doms)
    (hp : DepsOK npar doms deps) (sched : Prog → Option Outcome) (p0 p' : Prog) (T : Nat → List Int → List Int → List Int)
    (h0 : progFromIsl ops doms deps = some p0) (h : sched p0 = some (.success p')) (hok : p'.OK) (hS : SameRuns p0 p' T)
    (hor : origs p' = origs p0) (hlex : ∀ d ∈ p0.deps, d.rar = false → ∀ s t q, p0.Inst d s t q →
        LexBefore (p'.timestamp d.src (T d.src s q ++ s) q) (p'.timestamp d.dest (T d.dest t q ++ t) q))
    (hsm : SmallEntries p') :
    ∃ ms, plutoTransform ops sched doms deps = some (some ms) ∧ ms.length = doms.length ∧ OneTime doms ms ∧ RespectsDeps doms deps ms := by
  obtain ⟨p, k1, k2, k3, k4, k5⟩ := C60_extract ops ho npar doms deps hd hp
  rw [h0] at k1
  cases k1
  have hnpar : ∀ d ∈ doms, p0.npar = npar := by
    obtain ⟨p, a1, a2, a3, a4, -⟩ := progFromIsl_ok ops ho npar doms deps hd hp
    rw [h0] at a1
    cases a1
    exact fun d hdm => a4 (List.ne_nil_of_mem hdm)
  -- the transformed statement of a domain
  have hfind : ∀ d ∈ doms, ∃ st st', p0.stmts[d.id]? = some st ∧ p'.stmts[d.id]? = some st' ∧ st.dim = d.set.nout ∧ st'.dimOrig = d.set.nout ∧
      (∀ x q : List Int, d.set.Has [] x q → x.length = d.set.nout ∧ q.length = p0.npar ∧ st.domain.Sat (x ++ q)) := by
    intro d hdm
    obtain ⟨st, b1, b2, b2', b3⟩ := k4 d hdm
    have hi : d.id < p0.stmts.length := (List.getElem?_eq_some_iff.mp b1).1
    have hi' : d.id < p'.stmts.length := by rw [hS.len]; exact hi
    refine ⟨st, _, b1, List.getElem?_eq_getElem hi', b2, ?_, fun x q hh => ?_⟩
    · have := congrArg (fun l => l[d.id]?) hor
      simp only [origs, List.getElem?_map, b1, List.getElem?_eq_getElem hi', Option.map_some, Option.some.injEq] at this
      rw [this, b2']
    · obtain ⟨-, l2, l3, -⟩ := id hh
      have l3' : q.length = npar := by rw [l3, (hd.sets d hdm).2.2]
      exact ⟨l2, by rw [l3', hnpar d hdm], (b3 x q l2 l3').1 hh⟩
  have hlen' : ∀ (i : Nat) (st st' : Stmt), p0.stmts[i]? = some st → p'.stmts[i]? = some st' → ∀ x q : List Int, x.length = st.dim →
      (T i x q).length + st.dim = st'.dim := by
    intro i st st' a b x q hx
    have := hS.coords i x q (by simp [Prog.dim, a, hx])
    simp only [Prog.dim, b, Option.map_some, Option.getD_some] at this
    omega
  have hdo : ∀ st ∈ p'.stmts, st.dimOrig ≤ st.dim := by
    intro st' hst'
    obtain ⟨i, hi, e⟩ := List.mem_iff_getElem.mp hst'
    have hi0 : i < p0.stmts.length := by rw [← hS.len]; exact hi
    have b := List.getElem?_eq_getElem hi
    have a := List.getElem?_eq_getElem hi0
    have := hlen' i _ _ a b (List.replicate p0.stmts[i].dim 0) [] (by simp)
    have ho' := congrArg (fun l => l[i]?) hor
    simp only [origs, List.getElem?_map, a, b, Option.map_some, Option.some.injEq] at ho'
    have := (k2.stmts _ (List.getElem_mem hi0)).1
    rw [← e]
    omega
  obtain ⟨ms, m1, m2, m3⟩ := C60_schedules ops ho p' hok hdo hsm
  -- the times of an instance
  have htime : ∀ d ∈ doms, ∀ x q : List Int, d.set.Has [] x q → ∃ m, ms[d.id]? = some m ∧ ∀ t, m.Has x t q ↔ t = p'.timestamp d.id (T d.id x q ++ x) q := by
    intro d hdm x q hx
    obtain ⟨st, st', b1, b2, b3, b4, b5⟩ := hfind d hdm
    obtain ⟨l1, l2, hsat⟩ := b5 x q hx
    have hi : d.id < ms.length := by rw [m2]; exact (List.getElem?_eq_some_iff.mp b2).1
    refine ⟨_, List.getElem?_eq_getElem hi, fun t => ?_⟩
    have hT := hlen' d.id st st' b1 b2 x q (by rw [l1, b3])
    have hin := (hS.stmts d.id st st' b1 b2 (T d.id x q ++ x) q (by rw [List.length_append]; omega) l2).mpr ⟨x, by rw [l1, b3], hsat, rfl⟩
    have hts : p'.timestamp d.id (T d.id x q ++ x) q = st'.time (T d.id x q ++ x) q := by
      simp [Prog.timestamp, b2, Stmt.time]
    rw [m3 d.id st' _ b2 (List.getElem?_eq_getElem hi) x q t (by rw [l1, b4]) (by rw [hS.npar, l2]) ⟨T d.id x q, by omega, hin⟩, hts]
    constructor
    · rintro ⟨z, hz, hz2, rfl⟩
      obtain ⟨y, hy, -, e⟩ := (hS.stmts d.id st st' b1 b2 (z ++ x) q (by rw [List.length_append]; omega) l2).mp hz2
      obtain ⟨e1, e2⟩ := List.append_inj' e (by rw [hy, l1, b3])
      rw [e1, ← e2]
    · rintro rfl
      exact ⟨T d.id x q, by omega, hin, rfl⟩
  refine ⟨ms, ?_, by rw [m2, hS.len, k3], ?_, ?_⟩
  · unfold plutoTransform
    simp only [h0, h, m1, Option.bind_eq_bind, Option.bind_some, Option.pure_def]
  · rintro i x q ⟨d, hdm, rfl, hx⟩
    obtain ⟨m, a1, a2⟩ := htime d hdm x q hx
    exact ⟨m, a1, _, (a2 _).mpr rfl, fun t ht => (a2 t).mp ht⟩
  · rintro d hdm s t q ⟨a, ha, ea, hs⟩ ⟨b, hb, eb, ht⟩ hr m m' u v hm hm' hu hv
    obtain ⟨j, hj, e⟩ := List.mem_iff_getElem.mp hdm
    have hj' : j < p0.deps.length := by rw [← k5.length_eq]; exact hj
    have hk := (List.forall₂_iff_get.mp k5).2 j hj hj'
    simp only [List.get_eq_getElem, e] at hk
    obtain ⟨c1, c2, c3, c4⟩ := hk
    have hL := hlex _ (List.getElem_mem hj') c3 s t q ((c4 s t q).1 hr)
    rw [c1, c2] at hL
    obtain ⟨n, n1, n2⟩ := htime a ha s q hs
    obtain ⟨n', n1', n2'⟩ := htime b hb t q ht
    rw [ea] at n1 n2
    rw [eb] at n1' n2'
    rw [hm] at n1
    rw [hm'] at n1'
    cases n1
    cases n1'
    rw [(n2 u).mp hu, (n2' v).mp hv]
    exact hL

/-- C60. `pluto_transform` returns NULL exactly if the scheduler reports failure on the extracted program;
with `pluto_schedule_prog` and without `--identity`, exactly if the automatic transformation fails. -/
theorem C60_null (ops : IslOps) (doms : List IslDom) (deps : List IslDep) (p0 : Prog) (h0 : progFromIsl ops doms deps = some p0)
    (ao : AutoOpts) (L : Libs) (dia : Nat → Prog → Option (Prog × Bool)) (fuel : Nat) (d0 : DfsState) (best : Prog → List Loop → Option Loop)
    (o : TileOpts) (tile : Bool) (sizes sizes2 : Nat → Nat → Int) :
    plutoTransform ops (scheduleProg ao L dia fuel d0 best o tile false sizes sizes2) doms deps = some none ↔
      ∃ p, autoTransform ao L dia fuel d0 p0 = some (.failed p) := by
  unfold plutoTransform scheduleProg
  simp only [h0, Option.bind_eq_bind, Option.bind_some, Bool.false_eq_true, if_false, Option.pure_def]
  cases autoTransform ao L dia fuel d0 p0 with
  | none => simp
  | some r =>
    cases r with
    | timeout => simp
    | failed q => simp
    | success q =>
      simp only [Option.some.injEq, reduceCtorEq, exists_false, iff_false]
      cases postTransform L.isEmpty best o tile false sizes sizes2 q with
      | none => simp
      | some r => cases e : schedulesToIsl ops r <;> simp [e]

/-- C60. `pluto_transform` returns a legal schedule: if the automatic transformation succeeds on the extracted
program, the result gives every instance of every domain exactly one time, and runs all dependent pairs of
instances in order.
Missing: as for `C52_schedule_partial`; coefficients of the transformed program outside the range of an
`int` (`C59_violated_from_map`); domains of more than one basic set. -/
theorem C60_transform_partial (ops : IslOps) (ho : ops.OK) (npar : Nat) (doms : List IslDom) (deps : List IslDep) (hd : DomsOK npar doms)
    (hdp : DepsOK npar doms deps)
    (ao : AutoOpts) (L : Libs) (hE : EmptyOracle L.isEmpty) (hL : FeasibleOracle L.solve) (fuel : Nat) (d0 : DfsState)
    (best : Prog → List Loop → Option Loop) (hbest : ∀ p ls L, best p ls = some L → L ∈ ls) (o : TileOpts) (hip : o.innerpar = false)
    (tile : Bool) (sizes sizes2 : Nat → Nat → Int) (hz : ∀ n m, 1 ≤ sizes n m) (hz2 : ∀ n m, 1 ≤ sizes2 n m)
    (p0 : Prog) (h0 : progFromIsl ops doms deps = some p0) (hea : EagerAuto ao L noDiamond fuel d0 p0)
    (p : Prog) (h : autoTransform ao L noDiamond fuel d0 p0 = some (.success p))
    (hU : Uniform p 0 p.hProps.length (List.range p.stmts.length))
    (hfw : o.parallel = true → tile = true → ∀ p1 bands, recompute L.isEmpty p = some p1 → tileBands p1 = some bands → LoopBands p1 bands)
    (hfw' : o.parallel = true → tile = false → ∀ p1 bands, beforeWave L.isEmpty best o false sizes sizes2 p = some p1 →
      outermostBands p1 = some bands → LoopBands p1 bands)
    (hsm : ∀ p', scheduleProg ao L noDiamond fuel d0 best o tile false sizes sizes2 p0 = some (.success p') → SmallEntries p') :
    ∃ ms, plutoTransform ops (scheduleProg ao L noDiamond fuel d0 best o tile false sizes sizes2) doms deps = some (some ms) ∧
      ms.length = doms.length ∧ OneTime doms ms ∧ RespectsDeps doms deps ms := by
  obtain ⟨q, g1, hp, -⟩ := C60_extract ops ho npar doms deps hd hdp
  rw [h0] at g1
  cases g1
  obtain ⟨k1, k2, k3⟩ := C10_shape ao L hE hL fuel d0 p0 p hp h
  have k4 := C10_stepwise ao L hE hL fuel d0 p0 p hp hea h
  obtain ⟨_, _, r1, r2⟩ := C10_legal_partial ao L hE hL fuel d0 p0 p hp h
  obtain ⟨p', T, a1, a2, a3, a4, _⟩ := C52_post_partial L.isEmpty hE best hbest o hip tile false sizes sizes2 hz hz2 p k1 k4 k2 hU k3 hfw
    (fun a b _ => hfw' a b)
  have hS := (restored_sameRuns (auto_npar hE hL hp h) r1 r2).trans a4
  have hs : scheduleProg ao L noDiamond fuel d0 best o tile false sizes sizes2 p0 = some (.success p') := by
    unfold scheduleProg
    simp [h, a1]
  have hor : origs p' = origs p0 := by
    rw [postTransform_origs a1]
    have : ∀ l l' : List Stmt, List.Forall₂ (StmtRestored p0.npar) l l' → l'.map (·.dimOrig) = l.map (·.dimOrig) := by
      intro l l' hl
      induction hl with
      | nil => rfl
      | cons hh _ ih => simp [hh.2.1, ih]
    exact this _ _ r1
  exact C60_transform ops ho npar doms deps hd hdp _ p0 p' _ h0 hs a2 hS hor (hS.inOrder a3) (hsm p' hs)

/-! ### Example -/

/-- `S_1` and `S_0`, in this order: `{ S_1[i,j] : 0 <= i,j < N }`, `{ S_0[i,j] : 0 <= i,j < N }`. -/
def exIslDoms : List IslDom :=
  let b : BMap := ⟨0, 2, 0, 1, [], [[1, 0, 0, 0], [0, 1, 0, 0], [-1, 0, 1, -1], [0, -1, 1, -1]]⟩
  [⟨1, b⟩, ⟨0, b⟩]

/-- `{ S_0[i,j] -> S_0[i+1,j-1] }` and `{ S_0[i,j] -> S_1[i,j] }`. -/
def exIslDeps : List IslDep :=
  [⟨0, 0, ⟨2, 2, 0, 1, [[-1, 0, 1, 0, 0, -1], [0, -1, 0, 1, 0, 1]], []⟩⟩,
   ⟨0, 1, ⟨2, 2, 0, 1, [[-1, 0, 1, 0, 0, 0], [0, -1, 0, 1, 0, 0]], []⟩⟩]

def exIslProg : Prog := { exSched with deps := exSched.deps.map (fun d => { d with bpoly := d.dpoly }) }

/-- Decides `SmallEntries`. -/
def smallCheck (p : Prog) : Bool := p.stmts.all fun st =>
  (st.domain.rows.all fun r => r.val.all fun v => decide (-(2 ^ 31) < v ∧ v < 2 ^ 31)) &&
    st.trans.all fun r => r.all fun v => decide (-(2 ^ 31) < v ∧ v < 2 ^ 31)

theorem smallCheck_ok {p : Prog} (h : smallCheck p = true) : SmallEntries p := by
  intro st hst
  simp only [smallCheck, List.all_eq_true, Bool.and_eq_true, decide_eq_true_eq] at h
  exact h st hst

theorem exIsl_ok : DomsOK 1 exIslDoms ∧ DepsOK 1 exIslDoms exIslDeps ∧ progFromIsl simpleOps exIslDoms exIslDeps = some exIslProg := by
  refine ⟨⟨by decide, fun d hd => ?_⟩, fun d hd => ?_, by decide +kernel⟩
  · fin_cases hd <;> exact ⟨⟨by decide, by decide⟩, rfl, rfl⟩
  · fin_cases hd
    · exact ⟨⟨by decide, by decide⟩, rfl, _, List.mem_cons_of_mem _ List.mem_cons_self, _, List.mem_cons_of_mem _ List.mem_cons_self, rfl, rfl, rfl, rfl⟩
    · exact ⟨⟨by decide, by decide⟩, rfl, _, List.mem_cons_of_mem _ List.mem_cons_self, _, List.mem_cons_self, rfl, rfl, rfl, rfl⟩

/-- The hypotheses of `C60_transform_partial` are met, without tiling and with all other options. -/
example : simpleOps.OK ∧ DomsOK 1 exIslDoms ∧ DepsOK 1 exIslDoms exIslDeps ∧ EmptyOracle exSchedLibs.isEmpty ∧ FeasibleOracle exSchedLibs.solve ∧
    progFromIsl simpleOps exIslDoms exIslDeps = some exIslProg ∧ EagerAuto exAutoOpts exSchedLibs noDiamond 10 exDfs exIslProg ∧
    ∃ p, autoTransform exAutoOpts exSchedLibs noDiamond 10 exDfs exIslProg = some (.success p) ∧
      Uniform p 0 p.hProps.length (List.range p.stmts.length) ∧
      (∀ p1 bands, beforeWave exSchedLibs.isEmpty exBest exTileOpts false (fun _ _ => 32) (fun _ _ => 8) p = some p1 →
        outermostBands p1 = some bands → LoopBands p1 bands) ∧
      (∀ p', scheduleProg exAutoOpts exSchedLibs noDiamond 10 exDfs exBest exTileOpts false false (fun _ _ => 32) (fun _ _ => 8) exIslProg =
        some (.success p') → SmallEntries p') := by
  obtain ⟨k1, k2, k3⟩ := exSchedLibs_ok
  refine ⟨simpleOps_ok, exIsl_ok.1, exIsl_ok.2.1, k1, k2, exIsl_ok.2.2, eagerAutoCheck_ok (by decide +kernel), ?_⟩
  have h : Outcome.holds (fun p => decide (Uniform p 0 p.hProps.length (List.range p.stmts.length)) && match beforeWave exSchedLibs.isEmpty exBest exTileOpts false (fun _ _ => 32) (fun _ _ => 8) p with
        | some p1 => (match outermostBands p1 with | some bands => loopBandsCheck p1 bands && bands.length == 2 | none => false)
        | none => false)
      (autoTransform exAutoOpts exSchedLibs noDiamond 10 exDfs exIslProg) = true := by decide +kernel
  have h' : Outcome.holds smallCheck (scheduleProg exAutoOpts exSchedLibs noDiamond 10 exDfs exBest exTileOpts false false (fun _ _ => 32) (fun _ _ => 8)
      exIslProg) = true := by decide +kernel
  generalize autoTransform exAutoOpts exSchedLibs noDiamond 10 exDfs exIslProg = r at h
  match r, h with
  | some (.success p), h =>
    simp only [Outcome.holds, Bool.and_eq_true, decide_eq_true_eq] at h
    refine ⟨p, rfl, h.1, fun p1 bands h1 h2 => ?_, fun p' hp' => ?_⟩
    · have := h.2
      simp only [h1, h2, Bool.and_eq_true] at this
      exact loopBandsCheck_ok this.1
    · rw [hp'] at h'
      exact smallCheck_ok h'

end Pluto
