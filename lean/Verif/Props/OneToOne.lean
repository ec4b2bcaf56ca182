import Verif.Props.Diamond
import Verif.Props.IslLib
import Verif.Props.Remap
import Verif.Lemmas.OneToOneRun
import Verif.Model.RemapLib
import Verif.Spec.RemapLib

/-! C67: transformed schedules are one-to-one, and the remappings the library returns invert them. -/

namespace Pluto

/-- C67. When `pluto_auto_transform` succeeds, with or without diamond tiling, in whichever mode the search
ends, different iterations of a statement have different times. -/
theorem C67_auto (ao : AutoOpts) (L : Libs) (hE : EmptyOracle L.isEmpty) (hL : FeasibleOracle L.solve)
    (dia : Nat → Prog → Option (Prog × Bool))
    (hdia : dia = noDiamond ∨ ∃ full solve, FeasibleOracle solve ∧ dia = autoDiamond ao.toSearchOpts full L solve)
    (fuel : Nat) (d0 : DfsState) (p0 p : Prog) (hp : p0.InputOK) (h : autoTransform ao L dia fuel d0 p0 = some (.success p)) :
    p.OneToOne ∧ p.RowsFit := by
  have hs := auto_sharp dia ao L hE hL fuel d0 p0 p hp (fun k hk => by
    rcases hdia with rfl | ⟨full, solve, hS, rfl⟩
    · exact noDiamond_ok k hk
    · exact autoDiamond_ok ao.toSearchOpts full L solve hE hL hS hk) h
  exact ⟨hs.oneToOne, hs.rowsFit⟩

/-- C67. Tiling, intra-tile optimization and wavefronts keep schedules one-to-one, for any tile sizes, any bands and
any dependences. -/
theorem C67_post (isEmpty : Cst → Bool) (best : Prog → List Loop → Option Loop) (o : TileOpts) (tile identity : Bool)
    (sizes sizes2 : Nat → Nat → Int) (p p' : Prog) (h1 : p.OneToOne) (h2 : p.RowsFit)
    (h : postTransform isEmpty best o tile identity sizes sizes2 p = some p') : p'.OneToOne ∧ p'.RowsFit := by
  have hs := (sharp_of_oneToOne h1 h2).postTransform h
  exact ⟨hs.oneToOne, hs.rowsFit⟩

/-- C67. When `pluto_schedule_prog` succeeds, different iterations of a statement (with its tile iterators) have
different times. With `--identity` this needs the given schedules to be one-to-one. -/
theorem C67_schedule (ao : AutoOpts) (L : Libs) (hE : EmptyOracle L.isEmpty) (hL : FeasibleOracle L.solve) (fuel : Nat) (d0 : DfsState)
    (best : Prog → List Loop → Option Loop) (o : TileOpts) (tile identity : Bool) (sizes sizes2 : Nat → Nat → Int) (p0 p : Prog)
    (hp : p0.InputOK) (hid : identity = true → p0.OneToOne ∧ p0.RowsFit)
    (h : scheduleProg ao L noDiamond fuel d0 best o tile identity sizes sizes2 p0 = some (.success p)) : p.OneToOne ∧ p.RowsFit := by
  unfold scheduleProg at h
  cases identity with
  | true =>
    simp only [if_true, Option.map_eq_some_iff, Outcome.success.injEq] at h
    obtain ⟨q, h1, rfl⟩ := h
    exact C67_post _ _ _ _ _ _ _ p0 q (hid rfl).1 (hid rfl).2 h1
  | false =>
    simp only [Bool.false_eq_true, if_false] at h
    cases ha : autoTransform ao L noDiamond fuel d0 p0 with
    | none => rw [ha] at h; simp at h
    | some r =>
      rw [ha] at h
      cases r with
      | timeout => simp at h
      | failed q => simp at h
      | success q =>
        simp only [Option.map_eq_some_iff, Outcome.success.injEq] at h
        obtain ⟨q', h1, rfl⟩ := h
        obtain ⟨k1, k2⟩ := C67_auto ao L hE hL noDiamond (.inl rfl) fuel d0 p0 q hp ha
        exact C67_post _ _ _ _ _ _ _ q q' k1 k2 h1

theorem mapM_defined_iff {α β : Type*} (f : α → Option β) (l : List α) : (l.mapM f).isSome ↔ ∀ a ∈ l, (f a).isSome := by
  induction l with
  | nil => simp
  | cons a l ih =>
    rw [List.mapM_cons]
    cases h : f a with
    | none => simp [h]
    | some b => cases h' : l.mapM f <;> simp_all

theorem mapM_entries {α β : Type*} (f : α → Option β) (l : List α) (l' : List β) (h : l.mapM f = some l') :
    l'.length = l.length ∧ ∀ (i : Nat) a, l[i]? = some a → ∃ b, l'[i]? = some b ∧ f a = some b := by
  induction l generalizing l' with
  | nil => simp only [List.mapM_nil, Option.pure_def, Option.some.injEq] at h; subst h; simp
  | cons a l ih =>
    rw [List.mapM_cons] at h
    obtain ⟨b, h1, h⟩ := Option.bind_eq_some_iff.mp h
    obtain ⟨bs, h2, h⟩ := Option.bind_eq_some_iff.mp h
    cases h
    obtain ⟨k1, k2⟩ := ih bs h2
    refine ⟨by simp [k1], fun i x hx => ?_⟩
    cases i with
    | zero => simp only [List.getElem?_cons_zero, Option.some.injEq] at hx; subst hx; exact ⟨b, rfl, h1⟩
    | succ i => simpa using k2 i x (by simpa using hx)

/-- C67. `pluto_get_remapping` returns exactly if all schedules are one-to-one. -/
theorem C67_remap_defined (p : Prog) (h2 : p.RowsFit) : (getRemapping p).isSome ↔ p.OneToOne := by
  unfold getRemapping
  rw [mapM_defined_iff]
  constructor
  · intro h
    refine Sharp.oneToOne (npar := p.npar) ⟨rfl, fun st hst => ⟨h2 st hst, ?_⟩⟩
    exact (C22_defined st.dim p.npar st.trans (h2 st hst)).mp (h st hst)
  · intro h st hst
    exact (C22_defined st.dim p.npar st.trans (h2 st hst)).mpr ((sharp_of_oneToOne h h2).2 st hst).2

/-- C67. The remapping computes the iterators (with the tile iterators) back from the time. -/
theorem C67_remap_inverse (p : Prog) (h2 : p.RowsFit) (rs : Remap) (h : getRemapping p = some rs) :
    rs.length = p.stmts.length ∧ ∀ (i : Nat) (st : Stmt), p.stmts[i]? = some st → ∃ r, rs[i]? = some r ∧
      ∀ x q : List Int, x.length = st.dim → q.length = p.npar → Recovers r 0 x (st.time x q) q := by
  obtain ⟨k1, k2⟩ := mapM_entries _ _ _ h
  refine ⟨k1, fun i st hst => ?_⟩
  obtain ⟨r, e1, e2⟩ := k2 i st hst
  refine ⟨r, e1, fun x q hx hq j hj => ?_⟩
  obtain ⟨m, divs⟩ := r
  obtain ⟨_, _, _, c4, c5, c6⟩ := C22_inverse st.dim p.npar st.trans (h2 st (List.mem_of_getElem? hst)) m divs e2
  have hjd : 0 + j < divs.length := by rw [c4]; omega
  refine ⟨?_, ?_⟩
  · simp only
    rw [List.getD_eq_getElem _ _ hjd]
    exact c5 _ (List.getElem_mem hjd)
  · have := c6 x q hx hq (0 + j) (by omega)
    have e : (x ++ q ++ [1]).getD (0 + j) 0 = x.getD j 0 := by
      rw [Nat.zero_add, List.append_assoc, List.getD_append _ _ _ _ hj]
    rw [e] at this
    exact this

/-- Iterators after tile iterators. -/
theorem recovers_tail {r : Mat × List Int} {z x t q : List Int} (h : Recovers r 0 (z ++ x) t q) : Recovers r z.length x t q := by
  intro j hj
  have := h (z.length + j) (by simp [hj])
  rw [Nat.zero_add, List.getD_append_right _ _ _ _ (by omega), Nat.add_sub_cancel_left] at this
  exact this

/-- C67. `pluto_parallel_schedule_with_remapping` for a scheduler that succeeds with a well-formed program whose
schedules are one-to-one: it returns, and the result is what `pluto_transform` returns, in which no two
instances of a statement have a common time, together with remappings that compute the iterators of
every instance back from its time. `T` are the tile iterators of the instances. -/
theorem C67_library (ops : IslOps) (ho : ops.OK) (npar : Nat) (doms : List IslDom) (deps : List IslDep) (hd : DomsOK npar doms)
    (hp : DepsOK npar doms deps) (sched : Prog → Option Outcome) (p0 p' : Prog) (T : Nat → List Int → List Int → List Int)
    (h0 : progFromIsl ops doms deps = some p0) (h : sched p0 = some (.success p')) (hok : p'.OK) (hone : p'.OneToOne) (hfit : p'.RowsFit)
    (hS : SameRuns p0 p' T) (hor : origs p' = origs p0) (hsm : SmallEntries p') :
    ∃ ms rs, parallelScheduleWithRemap ops sched doms deps = some ⟨some ms, some rs, none⟩ ∧
      plutoTransform ops sched doms deps = some (some ms) ∧ scheduleAndRemap ops sched doms deps = some (some rs) ∧
      DistinctTimes doms ms ∧
      ∀ (i : Nat) x q t m, Instance doms i x q → ms[i]? = some m → m.Has x t q →
        ∃ r st, rs[i]? = some r ∧ p'.stmts[i]? = some st ∧ Recovers r (st.dim - st.dimOrig) x t q := by
  obtain ⟨p, k1, k2, k3, k4, k5⟩ := C60_extract ops ho npar doms deps hd hp
  rw [h0] at k1
  cases k1
  have hnpar : ∀ d ∈ doms, p0.npar = npar := by
    obtain ⟨p, a1, a2, a3, a4, -⟩ := progFromIsl_ok ops ho npar doms deps hd hp
    rw [h0] at a1
    cases a1
    exact fun d hdm => a4 (List.ne_nil_of_mem hdm)
  have hle : ∀ st ∈ p'.stmts, st.dimOrig ≤ st.dim := by
    intro st' hst'
    obtain ⟨i, hi, rfl⟩ := List.getElem_of_mem hst'
    have hi0 : i < p0.stmts.length := by rw [← hS.len]; exact hi
    have e : (origs p')[i]? = (origs p0)[i]? := by rw [hor]
    simp only [origs, List.getElem?_map, List.getElem?_eq_getElem hi, List.getElem?_eq_getElem hi0, Option.map_some, Option.some.injEq] at e
    rw [e, ← (k2.stmts _ (List.getElem_mem hi0)).1]
    have := hS.coords i (zrow (p0.dim i)) [] (by simp [zrow])
    have e1 : p0.dim i = p0.stmts[i].dim := Prog.dim_of (List.getElem?_eq_getElem hi0)
    have e2 : p'.dim i = p'.stmts[i].dim := Prog.dim_of (List.getElem?_eq_getElem hi)
    simp only [zrow, List.length_replicate] at this
    omega
  obtain ⟨ms, m1, m2, m3⟩ := C60_schedules ops ho p' hok hle hsm
  obtain ⟨rs, hrs⟩ := Option.isSome_iff_exists.mp ((C67_remap_defined p' hfit).mpr hone)
  obtain ⟨r1, r2⟩ := C67_remap_inverse p' hfit rs hrs
  -- the times of an instance
  have key : ∀ (i : Nat) x q t m, Instance doms i x q → ms[i]? = some m → m.Has x t q →
      ∃ st z, p'.stmts[i]? = some st ∧ z.length = st.dim - st.dimOrig ∧ (z ++ x).length = st.dim ∧ q.length = p'.npar ∧ t = st.time (z ++ x) q := by
    rintro i x q t m ⟨d, hdm, rfl, hx⟩ hm ht
    obtain ⟨st, b1, b2, b3, b4⟩ := k4 d hdm
    have hi : d.id < p0.stmts.length := (List.getElem?_eq_some_iff.mp b1).1
    have hi' : d.id < p'.stmts.length := by rw [hS.len]; exact hi
    have hg := List.getElem?_eq_getElem hi'
    obtain ⟨w, w2, w3⟩ := hd.sets d hdm
    have hlx : x.length = d.set.nout := hx.2.1
    have hlq : q.length = npar := by rw [← w3]; exact hx.2.2.1
    have hdo : (p'.stmts[d.id]).dimOrig = d.set.nout := by
      have e : (origs p')[d.id]? = (origs p0)[d.id]? := by rw [hor]
      simp only [origs, List.getElem?_map, hg, b1, Option.map_some, Option.some.injEq] at e
      rw [e, b3]
    have hnp : q.length = p'.npar := by rw [hS.npar, hnpar d hdm, hlq]
    have hsat := (b4 x q hlx hlq).1 hx
    have hT := hS.coords d.id x q (by rw [Prog.dim_of b1, hlx, b2])
    rw [Prog.dim_of hg] at hT
    have hin := (hS.stmts d.id st _ b1 hg (T d.id x q ++ x) q (by rw [List.length_append, hT]) (by rw [hnpar d hdm, hlq])).mpr
      ⟨x, by rw [hlx, b2], hsat, rfl⟩
    have hh := (m3 d.id _ m hg hm x q t (by rw [hlx, hdo]) hnp ⟨T d.id x q, by omega, hin⟩).mp ht
    obtain ⟨z, z1, z2, z3⟩ := hh
    refine ⟨_, z, hg, z1, ?_, hnp, z3⟩
    have := hle _ (List.getElem_mem hi')
    rw [List.length_append]
    omega
  refine ⟨ms, rs, ?_, ?_, ?_, ?_, ?_⟩
  · unfold parallelScheduleWithRemap
    simp only [h0, h, hrs, m1, Option.bind_eq_bind, Option.bind_some, Option.pure_def]
  · unfold plutoTransform
    simp only [h0, h, m1, Option.bind_eq_bind, Option.bind_some, Option.pure_def]
  · unfold scheduleAndRemap
    simp only [h0, h, hrs, Option.bind_eq_bind, Option.bind_some, Option.pure_def]
  · intro i x y t q hx hy m hm hxt hyt
    obtain ⟨st, z, a1, a2, a3, a4, a5⟩ := key i x q t m hx hm hxt
    obtain ⟨st', z', b1, b2, b3, b4, b5⟩ := key i y q t m hy hm hyt
    rw [a1] at b1
    cases b1
    have hdim : p'.dim i = st.dim := Prog.dim_of a1
    have := hone i (List.getElem?_eq_some_iff.mp a1).1 (z ++ x) (z' ++ y) q (by rw [hdim, a3]) (by rw [hdim, b3]) a4 (by
      unfold Prog.timestamp
      rw [a1]
      simp only [Option.map_some, Option.getD_some]
      exact a5.symm.trans b5)
    exact (List.append_inj this (by rw [a2, b2])).2
  · intro i x q t m hx hm ht
    obtain ⟨st, z, a1, a2, a3, a4, rfl⟩ := key i x q t m hx hm ht
    obtain ⟨r, e1, e2⟩ := r2 i st a1
    refine ⟨r, st, e1, a1, ?_⟩
    rw [← a2]
    exact recovers_tail (e2 (z ++ x) q a3 a4)

/-- C67. `pluto_parallel_schedule_with_remapping`: if the automatic transformation succeeds on the extracted
program, the function returns a schedule in which no two instances of a statement have a common time and
remappings that compute the iterators of every instance back from its time.
Missing: as for `C60_transform_partial`. -/
theorem C67_library_partial (ops : IslOps) (ho : ops.OK) (npar : Nat) (doms : List IslDom) (deps : List IslDep) (hd : DomsOK npar doms)
    (hdp : DepsOK npar doms deps)
    (ao : AutoOpts) (L : Libs) (hE : EmptyOracle L.isEmpty) (hL : FeasibleOracle L.solve) (fuel : Nat) (d0 : DfsState)
    (best : Prog → List Loop → Option Loop) (hbest : ∀ p ls L, best p ls = some L → L ∈ ls) (o : TileOpts) (hip : o.innerpar = false)
    (tile : Bool) (sizes sizes2 : Nat → Nat → Int) (hz : ∀ n m, 1 ≤ sizes n m) (hz2 : ∀ n m, 1 ≤ sizes2 n m)
    (p0 : Prog) (h0 : progFromIsl ops doms deps = some p0) (hea : EagerAuto ao L noDiamond fuel d0 p0)
    (p : Prog) (h : autoTransform ao L noDiamond fuel d0 p0 = some (.success p))
    (hU : Uniform p 0 p.hProps.length (List.range p.stmts.length))
    (hfw : o.parallel = true → tile = true → ∀ p1 bands, recompute L.isEmpty p = some p1 → tileBands p1 = some bands → LoopBands p1 bands)
    (hfw' : o.parallel = true → tile = false → ∀ p1 bands, beforeWave L.isEmpty best o false sizes sizes2 p = some p1 →
      outermostBands p1 = some bands → LoopBands p1 bands)
    (hsm : ∀ p', scheduleProg ao L noDiamond fuel d0 best o tile false sizes sizes2 p0 = some (.success p') → SmallEntries p') :
    ∃ p' ms rs, scheduleProg ao L noDiamond fuel d0 best o tile false sizes sizes2 p0 = some (.success p') ∧
      parallelScheduleWithRemap ops (scheduleProg ao L noDiamond fuel d0 best o tile false sizes sizes2) doms deps = some ⟨some ms, some rs, none⟩ ∧
      plutoTransform ops (scheduleProg ao L noDiamond fuel d0 best o tile false sizes sizes2) doms deps = some (some ms) ∧
      scheduleAndRemap ops (scheduleProg ao L noDiamond fuel d0 best o tile false sizes sizes2) doms deps = some (some rs) ∧
      DistinctTimes doms ms ∧
      ∀ (i : Nat) x q t m, Instance doms i x q → ms[i]? = some m → m.Has x t q →
        ∃ r st, rs[i]? = some r ∧ p'.stmts[i]? = some st ∧ Recovers r (st.dim - st.dimOrig) x t q := by
  obtain ⟨q, g1, hp, -⟩ := C60_extract ops ho npar doms deps hd hdp
  rw [h0] at g1
  cases g1
  obtain ⟨k1, k2, k3⟩ := C10_shape ao L hE hL fuel d0 p0 p hp h
  have k4 := C10_stepwise ao L hE hL fuel d0 p0 p hp hea h
  obtain ⟨_, _, r1, r2⟩ := C10_legal_partial ao L hE hL fuel d0 p0 p hp h
  obtain ⟨p', T, a1, a2, a3, a4, _⟩ := C52_post_partial L.isEmpty hE best hbest o hip tile false sizes sizes2 hz hz2 p k1 k4 k2 hU k3 hfw
    (fun a b _ => hfw' a b)
  have hS := (restored_sameRuns (auto_npar hE hL hp h) r1 r2).trans a4
  have hs : scheduleProg ao L noDiamond fuel d0 best o tile false sizes sizes2 p0 = some (.success p') := by
    unfold scheduleProg
    simp [h, a1]
  have hor : origs p' = origs p0 := by
    rw [postTransform_origs a1]
    have : ∀ l l' : List Stmt, List.Forall₂ (StmtRestored p0.npar) l l' → l'.map (·.dimOrig) = l.map (·.dimOrig) := by
      intro l l' hl
      induction hl with
      | nil => rfl
      | cons hh _ ih => simp [hh.2.1, ih]
    exact this _ _ r1
  obtain ⟨o1, o2⟩ := C67_schedule ao L hE hL fuel d0 best o tile false sizes sizes2 p0 p' hp (by simp) hs
  obtain ⟨ms, rs, e1, e2, e3, e4, e5⟩ := C67_library ops ho npar doms deps hd hdp _ p0 p' _ h0 hs a2 o1 o2 hS hor (hsm p' hs)
  exact ⟨p', ms, rs, hs, e1, e2, e3, e4, e5⟩

/-- C67 fails for the parallel loops: `pluto_parallel_schedule_with_remapping` is documented to give them back, but
never stores any, so that the list written by `pluto_schedule_str` is `0`, whatever the input. -/
theorem C67_violated_loops (ops : IslOps) (sched : Prog → Option Outcome) (doms : List IslDom) (deps : List IslDep) :
    (∀ out, parallelScheduleWithRemap ops sched doms deps = some out → out.ploops = none) ∧
    ∀ s r l, scheduleStr ops sched true doms deps = some (s, r, l) → l = some [0] := by
  have key : ∀ out, parallelScheduleWithRemap ops sched doms deps = some out → out.ploops = none := by
    intro out h
    unfold parallelScheduleWithRemap at h
    obtain ⟨p, h1, h⟩ := Option.bind_eq_some_iff.mp h
    obtain ⟨x, h2, h⟩ := Option.bind_eq_some_iff.mp h
    cases x with
    | timeout => simp at h
    | failed q => cases h; rfl
    | success q =>
      obtain ⟨r, h3, h⟩ := Option.bind_eq_some_iff.mp h
      obtain ⟨ms, h4, h⟩ := Option.bind_eq_some_iff.mp h
      cases h; rfl
  refine ⟨key, fun s r l h => ?_⟩
  unfold scheduleStr at h
  obtain ⟨out, h1, h⟩ := Option.bind_eq_some_iff.mp h
  obtain ⟨r', h2, h⟩ := Option.bind_eq_some_iff.mp h
  obtain ⟨s', h3, h⟩ := Option.bind_eq_some_iff.mp h
  cases h
  rw [key out h1]
  rfl

/-! ### Example -/

/-- The scheduler of the example of C60, without tiling and with all other options. -/
noncomputable def exIslRun : Prog → Option Outcome :=
  scheduleProg exAutoOpts exSchedLibs noDiamond 10 exDfs exBest exTileOpts false false (fun _ _ => 32) (fun _ _ => 8)

/-- The hypotheses of `C67_auto`, `C67_post` and `C67_schedule` are met by the example of C60 (and with them those of
`C67_library`, for which see the example there). -/
example : EmptyOracle exSchedLibs.isEmpty ∧ FeasibleOracle exSchedLibs.solve ∧ exIslProg.InputOK ∧
    (∃ p, autoTransform exAutoOpts exSchedLibs noDiamond 10 exDfs exIslProg = some (.success p) ∧ p.stmts.length = 2) ∧
    ∃ p, exIslRun exIslProg = some (.success p) ∧ p.stmts.map (·.trans.length) = [3, 3] := by
  obtain ⟨k1, k2, k3⟩ := exSchedLibs_ok
  refine ⟨k1, k2, ?_, ?_, ?_⟩
  · obtain ⟨p, h1, h2, -⟩ := C60_extract simpleOps simpleOps_ok 1 exIslDoms exIslDeps exIsl_ok.1 exIsl_ok.2.1
    rw [exIsl_ok.2.2] at h1
    cases h1
    exact h2
  · have h : Outcome.holds (fun p => decide (p.stmts.length = 2)) (autoTransform exAutoOpts exSchedLibs noDiamond 10 exDfs exIslProg) = true := by
      decide +kernel
    generalize autoTransform exAutoOpts exSchedLibs noDiamond 10 exDfs exIslProg = r at h
    match r, h with
    | some (.success p), h => exact ⟨p, rfl, of_decide_eq_true h⟩
  · have h : Outcome.holds (fun p => decide (p.stmts.map (·.trans.length) = [3, 3])) (exIslRun exIslProg) = true := by
      decide +kernel
    generalize exIslRun exIslProg = r at h
    match r, h with
    | some (.success p), h => exact ⟨p, rfl, of_decide_eq_true h⟩

/-- The program of the example has three parallel loops, the list says there is none. -/
example : (∃ s r, scheduleStr simpleOps exIslRun true exIslDoms exIslDeps = some (s, r, some [0])) ∧
    Outcome.holds (fun p => decide ((parallelLoops p).map (·.length) = some 3)) (exIslRun exIslProg) = true := by
  refine ⟨?_, by decide +kernel⟩
  obtain ⟨k1, k2, k3⟩ := exSchedLibs_ok
  have h : Outcome.holds (fun p => decide (Uniform p 0 p.hProps.length (List.range p.stmts.length)) && match beforeWave exSchedLibs.isEmpty exBest exTileOpts false (fun _ _ => 32) (fun _ _ => 8) p with
        | some p1 => (match outermostBands p1 with | some bands => loopBandsCheck p1 bands && bands.length == 2 | none => false)
        | none => false)
      (autoTransform exAutoOpts exSchedLibs noDiamond 10 exDfs exIslProg) = true := by decide +kernel
  have h' : Outcome.holds smallCheck (exIslRun exIslProg) = true := by decide +kernel
  cases e : autoTransform exAutoOpts exSchedLibs noDiamond 10 exDfs exIslProg with
  | none => rw [e] at h; simp [Outcome.holds] at h
  | some r =>
    cases r with
    | timeout => rw [e] at h; simp [Outcome.holds] at h
    | failed q => rw [e] at h; simp [Outcome.holds] at h
    | success p =>
      rw [e] at h
      simp only [Outcome.holds, Bool.and_eq_true, decide_eq_true_eq] at h
      obtain ⟨p', ms, rs, -, e2, -⟩ := C67_library_partial simpleOps simpleOps_ok 1 exIslDoms exIslDeps exIsl_ok.1 exIsl_ok.2.1 exAutoOpts exSchedLibs k1 k2 10
        exDfs exBest (fun _ _ _ h => List.mem_of_getLast? h) exTileOpts rfl false (fun _ _ => 32) (fun _ _ => 8) (by simp) (by simp) exIslProg exIsl_ok.2.2
        (eagerAutoCheck_ok (by decide +kernel)) p e h.1 (by simp) (fun _ _ p1 bands h1 h2 => by
          have := h.2
          simp only [h1, h2, Bool.and_eq_true] at this
          exact loopBandsCheck_ok this.1) (fun p' hp' => by
          have hh : exIslRun exIslProg = some (.success p') := hp'
          rw [hh] at h'
          exact smallCheck_ok h')
      refine ⟨ms, rs, ?_⟩
      unfold scheduleStr
      have e3 : parallelScheduleWithRemap simpleOps exIslRun exIslDoms exIslDeps = some ⟨some ms, some rs, none⟩ := e2
      rw [e3]
      rfl

/-- Remappings of the example. -/
example : (scheduleAndRemap simpleOps exIslRun exIslDoms exIslDeps).map (·.map (·.map (·.2))) = some (some [[1, 1, 1, 1], [1, 1, 1, 1]]) := by
  decide +kernel

/-- A schedule that is not one-to-one has no remapping. -/
example : getRemapping ⟨2, 0, [⟨2, 2, ⟨3, []⟩, [true, true], [[1, 1, 0]], [.loop]⟩], [], [.loop]⟩ = none := by decide +kernel

end Pluto
