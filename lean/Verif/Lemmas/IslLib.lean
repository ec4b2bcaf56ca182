import Verif.Spec.IslLib
import Verif.Props.IslConv
import Verif.Props.NewDomain

/-! Lemmas on the library interface. -/

namespace Pluto

/-! ### Schedules as relations -/

theorem normalize_more {p p' : Prog} {i : Nat} {st : Stmt} {sched : Cst} (hst : p.stmts[i]? = some st)
    (hn : st.domain.ncols = st.dim + p.npar + 1) (h : normalizeDomainSchedule p i = some (sched, p')) :
    p'.npar = p.npar ∧ p'.stmts.length = p.stmts.length ∧
    (∀ st', p'.stmts[i]? = some st' → st'.trans.length = st.trans.length) ∧
    sched.rows = (stmtGetSchedule st.domain.ncols st.trans).rows ++ ((st.domain.rows.filter (isTileRow (st.dim - st.dimOrig))).map (liftRow st.trans.length)) := by
  unfold normalizeDomainSchedule at h
  rw [hst] at h
  simp only [Option.bind_eq_bind, Option.bind_some, normPiece_eq] at h
  set snodes := st.dim - st.dimOrig with hsn
  set st1 : Stmt := { st with domain := ⟨st.domain.ncols, st.domain.rows.filter (fun r => !isTileRow snodes r)⟩ } with hst1
  have hi : i < p.stmts.length := (List.getElem?_eq_some_iff.mp hst).1
  obtain ⟨p2, h1, h2, h3, h4, h5⟩ := removeDims_eq { p with stmts := p.stmts.set i st1 } i st1
    (by simp [List.getElem?_set_self hi]) snodes (by simp only [hst1]; omega) (by simp only [hst1]; omega)
  rw [h1] at h
  simp only [Option.bind_some] at h
  cases h
  refine ⟨h2, by simpa using h3, fun st' hs => ?_, rfl⟩
  rw [h5] at hs
  cases hs
  simp [hst1]

theorem sched_fits {st : Stmt} {npar : Nat} (htr : ∀ r ∈ st.trans, r.length = st.domain.ncols)
    (h1 : ∀ r ∈ st.domain.rows, ∀ v ∈ r.val, -(2 ^ 31) < v ∧ v < 2 ^ 31) (h2 : ∀ r ∈ st.trans, ∀ v ∈ r, -(2 ^ 31) < v ∧ v < 2 ^ 31) (f : Row → Bool) :
    ∀ r ∈ (stmtGetSchedule st.domain.ncols st.trans).rows ++ ((st.domain.rows.filter f).map (liftRow st.trans.length)),
      ∀ v ∈ r.val, -(2 ^ 31) ≤ v ∧ v < (2 ^ 31 : Int) := by
  intro r hr v hv
  rcases List.mem_append.mp hr with hr | hr
  · unfold stmtGetSchedule at hr
    rw [schedMatrix_eq htr] at hr
    simp only [fromEqualities, List.mem_map] at hr
    obtain ⟨w, hw, rfl⟩ := hr
    rw [List.mem_mapIdx] at hw
    obtain ⟨k, hk, rfl⟩ := hw
    simp only [List.mem_append, List.mem_map] at hv
    rcases hv with hv | ⟨a, ha, rfl⟩
    · rcases List.mem_or_eq_of_mem_set hv with hv | rfl
      · rw [zrow, List.mem_replicate] at hv
        rw [hv.2]; norm_num
      · norm_num
    · have := h2 _ (List.getElem_mem hk) a ha
      omega
  · simp only [List.mem_map, List.mem_filter] at hr
    obtain ⟨r', ⟨hr', -⟩, rfl⟩ := hr
    simp only [liftRow, List.mem_append] at hv
    rcases hv with hv | hv
    · rw [zrow, List.mem_replicate] at hv
      rw [hv.2]; norm_num
    · have := h1 r' hr' v hv
      omega

/-- What the relation made for a statement says. -/
def SchedRel (npar : Nat) (st : Stmt) (m : BMap) : Prop :=
  m.nin = st.dimOrig ∧ ∀ x q t : List Int, x.length = st.dimOrig → q.length = npar →
    (∃ z : List Int, z.length = st.dim - st.dimOrig ∧ st.domain.Sat (z ++ x ++ q)) →
    (m.Has x t q ↔ ∃ z : List Int, z.length = st.dim - st.dimOrig ∧ st.domain.Sat (z ++ x ++ q) ∧ t = st.time (z ++ x) q)

theorem schedulesFrom_ok (ops : IslOps) (ho : ops.OK) : ∀ (n i : Nat) (p : Prog), i + n = p.stmts.length →
    (∀ j st, i ≤ j → p.stmts[j]? = some st → st.OK p.npar ∧ st.dimOrig ≤ st.dim ∧
      (∀ r ∈ st.domain.rows, ∀ v ∈ r.val, -(2 ^ 31) < v ∧ v < 2 ^ 31) ∧ ∀ r ∈ st.trans, ∀ v ∈ r, -(2 ^ 31) < v ∧ v < 2 ^ 31) →
    ∃ ms, schedulesFrom ops n i p = some ms ∧ ms.length = n ∧
      ∀ j st m, p.stmts[i + j]? = some st → ms[j]? = some m → SchedRel p.npar st m := by
  intro n
  induction n with
  | zero =>
    intro i p _ _
    exact ⟨[], rfl, rfl, by simp⟩
  | succ n ih =>
    intro i p hl hp
    have hi : i < p.stmts.length := by omega
    have hst : p.stmts[i]? = some p.stmts[i] := List.getElem?_eq_getElem hi
    set st := p.stmts[i] with hs
    obtain ⟨hOK, hdo, hf1, hf2⟩ := hp i st (le_refl _) hst
    obtain ⟨sched, p', st', e1, e2, e3, e4, e5, e6, e7, e8, e9⟩ := C48_relation p i st hst hOK.wf hOK.cols hOK.trans hdo
    obtain ⟨m1, m2, m3, m4⟩ := normalize_more hst hOK.cols e1
    have hft : sched.Fits 32 := by
      intro r hr v hv
      rw [m4] at hr
      have := sched_fits (npar := p.npar) (by rw [hOK.cols]; exact hOK.trans) hf1 hf2 _ r hr v hv
      simpa using this
    have htl := m3 st' e2
    obtain ⟨b, b1, b2, b3, b4, b5, b6, b7⟩ := C59_from_map_partial sched st.dim st.trans.length p.npar e7 hft (by rw [e8]; omega)
    obtain ⟨ms, k1, k2, k3⟩ := ih (i + 1) p' (by omega) (fun j s hj hs => by
      rw [e3 j (by omega)] at hs
      rw [m1]
      exact hp j s (by omega) hs)
    obtain ⟨q1, q2, q3, q4⟩ := ho.projectIn b (st.dim - st.dimOrig) b2 (by omega)
    refine ⟨ops.projectIn b (st.dim - st.dimOrig) :: ms, ?_, by simp [k2], ?_⟩
    · unfold schedulesFrom
      rw [e1]
      simp only [Option.bind_eq_bind, Option.bind_some]
      rw [e2]
      simp only [Option.bind_some]
      rw [htl, m1, show sched.ncols - st.trans.length - p.npar - 1 = st.dim by omega,
        show sched.ncols - st.trans.length - st'.domain.ncols = st.dim - st.dimOrig by omega, b1]
      simp only [Option.bind_some, k1]
      rfl
    · intro j s m hj hm
      cases j with
      | zero =>
        rw [Nat.add_zero, hst] at hj
        cases hj
        simp only [List.getElem?_cons_zero, Option.some.injEq] at hm
        subst hm
        refine ⟨by rw [q1, b3]; omega, fun x q t hx hq ⟨z0, hz0, hs0⟩ => ?_⟩
        have hdom : st'.domain.Sat (x ++ q) :=
          ((e9 z0 x q (timesOf st.trans (z0 ++ x) q) hz0 hx hq (by simp [timesOf])).mpr ⟨hs0, rfl⟩).2
        rw [q4]
        constructor
        · rintro ⟨z, hz, hh⟩
          obtain ⟨c1, c2, c3, c4⟩ := (b7 _ _ _).mp hh
          have := (e9 z x q t hz hx hq c2).mp ⟨by simpa using c4, hdom⟩
          exact ⟨z, hz, this.1, this.2⟩
        · rintro ⟨z, hz, hh, rfl⟩
          refine ⟨z, hz, (b7 _ _ _).mpr ⟨by simp [hz, hx]; omega, by simp [Stmt.time], hq, ?_⟩⟩
          have := ((e9 z x q (st.time (z ++ x) q) hz hx hq (by simp [Stmt.time])).mpr ⟨hh, rfl⟩).1
          simpa using this
      | succ j =>
        simp only [List.getElem?_cons_succ] at hm
        have := k3 j s m (by rw [e3 _ (by omega)]; rw [← hj]; congr 1; omega) hm
        rwa [m1] at this

theorem schedulesToIsl_ok (ops : IslOps) (ho : ops.OK) (p : Prog) (hok : p.OK) (hdo : ∀ st ∈ p.stmts, st.dimOrig ≤ st.dim) (hs : SmallEntries p) :
    ∃ ms, schedulesToIsl ops p = some ms ∧ ms.length = p.stmts.length ∧
      ∀ (j : Nat) (st : Stmt) (m : BMap), p.stmts[j]? = some st → ms[j]? = some m → SchedRel p.npar st m := by
  obtain ⟨ms, h1, h2, h3⟩ := schedulesFrom_ok ops ho p.stmts.length 0 p (by omega) (fun j st _ hst => by
    have hm := List.mem_of_getElem? hst
    exact ⟨hok.stmts st hm, hdo st hm, hs st hm⟩)
  exact ⟨ms, h1, h2, fun j st m a b => h3 j st m (by simpa using a) b⟩

/-! ### Programs from isl objects -/

theorem extractStmts_fold (ops : IslOps) : ∀ (ds : List IslDom) (a : List (Option Stmt)), (ds.map (·.id)).Nodup →
    (∀ d ∈ ds, a[d.id]? = some none) →
    ∃ a', ds.foldlM (extractStmt ops) a = some a' ∧ a'.length = a.length ∧
      (∀ d ∈ ds, a'[d.id]? = some (some (islStmt ops d))) ∧ ∀ j, (∀ d ∈ ds, d.id ≠ j) → a'[j]? = a[j]? := by
  intro ds
  induction ds with
  | nil => intro a _ _; exact ⟨a, rfl, rfl, nofun, fun _ _ => rfl⟩
  | cons d ds ih =>
    intro a hn ha
    simp only [List.map_cons, List.nodup_cons, List.mem_map, not_exists, not_and] at hn
    have hd := ha d List.mem_cons_self
    have hlt : d.id < a.length := (List.getElem?_eq_some_iff.mp hd).1
    obtain ⟨a', h1, h2, h3, h4⟩ := ih (a.set d.id (some (islStmt ops d))) hn.2 (fun e he => by
      rw [List.getElem?_set_ne (fun h => hn.1 e he h.symm)]
      exact ha e (List.mem_cons_of_mem _ he))
    refine ⟨a', ?_, by simpa using h2, ?_, ?_⟩
    · rw [List.foldlM_cons]
      simp only [extractStmt, hd, Option.bind_eq_bind, Option.bind_some]
      exact h1
    · intro e he
      rcases List.mem_cons.mp he with rfl | he
      · rw [h4 _ (fun x hx => hn.1 x hx), List.getElem?_set_self hlt]
      · exact h3 e he
    · intro j hj
      rw [h4 j (fun x hx => hj x (List.mem_cons_of_mem _ hx)), List.getElem?_set_ne (hj d List.mem_cons_self)]

theorem mapM_id_some {α : Type*} : ∀ (a : List (Option α)), (∀ x ∈ a, x ≠ none) → ∃ l, a.mapM id = some l ∧ l.length = a.length ∧
    ∀ j : Nat, a[j]? = (l[j]?).map some := by
  intro a
  induction a with
  | nil => intro _; exact ⟨[], rfl, rfl, by simp⟩
  | cons x a ih =>
    intro h
    obtain ⟨l, h1, h2, h3⟩ := ih (fun y hy => h y (List.mem_cons_of_mem _ hy))
    cases x with
    | none => exact absurd rfl (h none List.mem_cons_self)
    | some x =>
      refine ⟨x :: l, ?_, by simp [h2], ?_⟩
      · rw [List.mapM_cons]
        simp [h1]
      · intro j
        cases j with
        | zero => rfl
        | succ j => simpa using h3 j

theorem extractStmts_ok (ops : IslOps) (doms : List IslDom) (h : (doms.map (·.id)).Perm (List.range doms.length)) :
    ∃ sts, extractStmts ops doms = some sts ∧ sts.length = doms.length ∧
      (∀ d ∈ doms, sts[d.id]? = some (islStmt ops d)) ∧ ∀ st ∈ sts, ∃ d ∈ doms, st = islStmt ops d := by
  have hlt : ∀ d ∈ doms, d.id < doms.length := fun d hd =>
    List.mem_range.mp (h.mem_iff.mp (List.mem_map_of_mem (f := (·.id)) hd))
  obtain ⟨a, h1, h2, h3, h4⟩ := extractStmts_fold ops doms (List.replicate doms.length none) (h.nodup_iff.mpr List.nodup_range)
    (fun d hd => by rw [List.getElem?_replicate]; simp [hlt d hd])
  rw [List.length_replicate] at h2
  have hall : ∀ j < doms.length, ∃ d ∈ doms, d.id = j ∧ a[j]? = some (some (islStmt ops d)) := by
    intro j hj
    obtain ⟨d, hd, rfl⟩ := List.mem_map.mp (h.mem_iff.mpr (List.mem_range.mpr hj))
    exact ⟨d, hd, rfl, h3 d hd⟩
  obtain ⟨l, k1, k2, k3⟩ := mapM_id_some a (fun x hx hn => by
    subst hn
    obtain ⟨j, hj, e⟩ := List.mem_iff_getElem.mp hx
    obtain ⟨d, -, -, hd⟩ := hall j (by omega)
    rw [List.getElem?_eq_getElem hj, e] at hd
    cases hd)
  refine ⟨l, ?_, by omega, fun d hd => ?_, fun st hst => ?_⟩
  · unfold extractStmts
    simp only [h1, Option.bind_eq_bind, Option.bind_some, k1]
  · have := (k3 d.id).symm.trans (h3 d hd)
    cases hl : l[d.id]? with
    | none => rw [hl] at this; cases this
    | some s => rw [hl] at this; simpa using this
  · obtain ⟨j, hj, e⟩ := List.mem_iff_getElem.mp hst
    obtain ⟨d, hd, -, hd2⟩ := hall j (by omega)
    refine ⟨d, hd, ?_⟩
    have := (k3 j).symm.trans hd2
    rw [List.getElem?_eq_getElem hj, e] at this
    simpa using this

theorem le_foldl_max : ∀ (l : List Nat) (a n : Nat), n ∈ l → n ≤ l.foldl max a := by
  intro l
  induction l with
  | nil => intro a n h; cases h
  | cons b l ih =>
    intro a n h
    rw [List.foldl_cons]
    rcases List.mem_cons.mp h with rfl | h
    · have : ∀ (l : List Nat) (a : Nat), a ≤ l.foldl max a := by
        intro l
        induction l with
        | nil => intro a; exact le_refl a
        | cons b l ih => intro a; exact le_trans (le_max_left a b) (ih _)
      exact le_trans (le_max_right a n) (this l _)
    · exact ih _ n h

theorem mapM_forall2 {α β : Type*} {f : α → Option β} {P : α → β → Prop} : ∀ (l : List α), (∀ a ∈ l, ∃ b, f a = some b ∧ P a b) →
    ∃ r, l.mapM f = some r ∧ List.Forall₂ P l r := by
  intro l
  induction l with
  | nil => intro _; exact ⟨[], rfl, .nil⟩
  | cons a l ih =>
    intro h
    obtain ⟨b, h1, h2⟩ := h a List.mem_cons_self
    obtain ⟨r, h3, h4⟩ := ih (fun x hx => h x (List.mem_cons_of_mem _ hx))
    exact ⟨b :: r, by rw [List.mapM_cons]; simp [h1, h3], .cons h2 h4⟩

theorem progFromIsl_ok (ops : IslOps) (ho : ops.OK) (npar : Nat) (doms : List IslDom) (deps : List IslDep) (hd : DomsOK npar doms)
    (hp : DepsOK npar doms deps) :
    ∃ p, progFromIsl ops doms deps = some p ∧ p.InputOK ∧ p.stmts.length = doms.length ∧ (doms ≠ [] → p.npar = npar) ∧
      (∀ d ∈ doms, p.stmts[d.id]? = some (islStmt ops d)) ∧
      List.Forall₂ (fun (d : IslDep) (d' : Dep) => d'.src = d.src ∧ d'.dest = d.dest ∧ d'.rar = false ∧ d'.dpoly = bmapToCst (ops.removeDivs d.rel))
        deps p.deps := by
  obtain ⟨sts, h1, h2, h3, h4⟩ := extractStmts_ok ops doms hd.ids
  have hdom : ∀ d ∈ doms, (islStmt ops d).domain.WF ∧ (islStmt ops d).domain.ncols = (islStmt ops d).dim + npar + 1 := by
    intro d hdm
    obtain ⟨w, n0, np⟩ := hd.sets d hdm
    obtain ⟨t1, t2, -⟩ := C59_to_set ops ho d.set w
    refine ⟨t1, ?_⟩
    simp only [islStmt]
    rw [t2, n0, np]; omega
  have hnp : firstNpar sts = if doms = [] then 0 else npar := by
    cases hs : sts with
    | nil => rw [if_pos (List.length_eq_zero_iff.mp (by rw [← h2, hs]; rfl))]; rfl
    | cons st l =>
      rw [if_neg (fun h => by rw [h, hs] at h2; simp at h2)]
      obtain ⟨d, hdm, e⟩ := h4 st (by rw [hs]; exact List.mem_cons_self)
      have := (hdom d hdm).2
      simp only [firstNpar]
      rw [e]; omega
  obtain ⟨ds, k1, k2⟩ := mapM_forall2 (f := extractDep ops sts) (P := fun (d : IslDep) (d' : Dep) => d'.src = d.src ∧ d'.dest = d.dest ∧
      d'.rar = false ∧ d'.dpoly = bmapToCst (ops.removeDivs d.rel) ∧ d'.bpoly = d'.dpoly) deps (by
    intro d hdm
    obtain ⟨w, np, a, ha, b, hb, ea, eb, e1, e2⟩ := hp d hdm
    obtain ⟨r1, r2, r3, r4, r5, -⟩ := ho.removeDivs d.rel w
    unfold extractDep
    simp only
    rw [← ea, ← eb, h3 a ha, h3 b hb]
    simp only [Option.bind_eq_bind, Option.bind_some]
    rw [if_neg]
    · exact ⟨_, rfl, by simp [ea], by simp [eb], rfl, rfl, rfl⟩
    · have := (hdom a ha).2
      rw [(bmapToCst_wf r1).2, r2, r3, r4, r5, np, e1, e2, this]
      simp only [islStmt]
      omega)
  have hne : deps ≠ [] → doms ≠ [] := by
    intro hn hn'
    obtain ⟨d, l, rfl⟩ := List.exists_cons_of_ne_nil hn
    obtain ⟨-, -, a, ha, -⟩ := hp d List.mem_cons_self
    rw [hn'] at ha; cases ha
  refine ⟨_, by
    unfold progFromIsl
    rw [h1]
    simp only [Option.bind_eq_bind, Option.bind_some, k1]
    rfl, ?_, h2, fun hn => by simp only; rw [hnp, if_neg hn], h3, by refine List.Forall₂.imp ?_ k2; exact fun _ _ h => ⟨h.1, h.2.1, h.2.2.1, h.2.2.2.1⟩⟩
  rw [hnp]
  refine ⟨fun st hst => ?_, fun d' hd' => ?_⟩
  · obtain ⟨d, hdm, rfl⟩ := h4 st hst
    have hnn : doms ≠ [] := List.ne_nil_of_mem hdm
    simp only
    rw [if_neg hnn]
    exact ⟨rfl, le_foldl_max _ _ _ (List.mem_map_of_mem (f := (·.dim)) hst), rfl, hdom d hdm⟩
  · obtain ⟨j, hj, e⟩ := List.mem_iff_getElem.mp hd'
    simp only at hj e
    have hlen := k2.length_eq
    have hk := (List.forall₂_iff_get.mp k2).2 j (by omega) hj
    simp only [List.get_eq_getElem] at hk
    rw [e] at hk
    have hdm : deps[j]'(by omega) ∈ deps := List.getElem_mem _
    generalize deps[j]'(by omega) = d at hk hdm
    obtain ⟨s1, s2, s3, s4, s5⟩ := hk
    obtain ⟨w, np, a, ha, b, hb, ea, eb, e1, e2⟩ := hp d hdm
    obtain ⟨r1, r2, r3, r4, r5, -⟩ := ho.removeDivs d.rel w
    have hia := h3 a ha
    have hib := h3 b hb
    have hnn : doms ≠ [] := List.ne_nil_of_mem ha
    simp only
    rw [if_neg hnn, s1, s2, ← ea, ← eb]
    have hdima : Prog.dim ⟨(sts.map (·.dim)).foldl max 0, npar, sts, ds, []⟩ a.id = a.set.nout := by
      simp [Prog.dim, hia, islStmt]
    have hdimb : Prog.dim ⟨(sts.map (·.dim)).foldl max 0, npar, sts, ds, []⟩ b.id = b.set.nout := by
      simp [Prog.dim, hib, islStmt]
    have hc : d'.dpoly.ncols = a.set.nout + b.set.nout + npar + 1 := by
      rw [s4, (bmapToCst_wf r1).2, r2, r3, r4, r5, np, e1, e2]; omega
    refine ⟨(List.getElem?_eq_some_iff.mp hia).1, (List.getElem?_eq_some_iff.mp hib).1, ⟨?_, ?_⟩, ?_, ?_⟩
    · rw [s4]; exact (bmapToCst_wf r1).1
    · rw [s1, s2, ← ea, ← eb, hdima, hdimb]; exact hc
    · rw [s5, s4]; exact (bmapToCst_wf r1).1
    · rw [s5, hdima, hdimb]; exact hc

end Pluto
