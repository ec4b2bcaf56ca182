import Verif.Lemmas.OslExtract
import Verif.Props.Pet

/-! C68: the program that the front end for OpenScop makes. -/

namespace Pluto

/-- C68. The rows of a scattering may be in any order: the schedule of the statement and the map given to isl are the
function that the relation stands for. -/
theorem C68_scattering (r : OslRel) (f : List (List Int)) (h : r.IsFun f) (hw : r.WF) :
    oslTrans r = some f ∧ ∃ b, oslScatMap r = some b ∧ (∀ x t q, b.Has x t q ↔ r.Has t x q) ∧
      ∀ x t q, r.Has t x q ↔ x.length = r.nin ∧ q.length = r.npar ∧ t = f.map (fun g => aff g (x ++ q)) := by
  obtain ⟨b, h1, -, -, -, -, h2⟩ := h.scatMap hw
  exact ⟨h.trans hw.noLocal, b, h1, h2, fun x t q => h.has hw.noLocal t x q⟩

/-- C68. The same for an access: the array, the subscripts and the map given to isl (a scalar is element 0 of a
one-dimensional array). -/
theorem C68_access (r : OslRel) (id : Nat) (f : List (List Int)) (h : r.IsAcc id f) (hw : r.WF) :
    oslArrayId r = id ∧ oslAccMat r = some (if f = [] then [List.replicate (r.nin + r.npar + 1) 0] else f) ∧
    ∃ b, oslAccMap r = some b ∧ ∀ x z q, b.Has x z q ↔ ∃ y, r.Has ((id : Int) :: y) x q ∧ z = if y = [] then [0] else y := by
  obtain ⟨b, h1, -, -, -, h2⟩ := h.accMap hw
  refine ⟨h.arrayId, h.accMat hw.noLocal, b, h1, fun x z q => ?_⟩
  rw [h2]
  constructor
  · rintro ⟨a1, a2, a3⟩
    exact ⟨_, (h.has hw.noLocal id _ x q).mpr ⟨a1, a2, rfl, rfl⟩, a3⟩
  · rintro ⟨y, a1, a2⟩
    obtain ⟨a3, a4, -, rfl⟩ := (h.has hw.noLocal id _ x q).mp a1
    exact ⟨a3, a4, a2⟩

/-- What is known of the program made. -/
theorem oslToProg_made (ops : IslOps) (ho : ops.OK) (fo : FlowOps) (o : FlowOpts) (accs : Bool) (sc : OslScop) (hok : sc.OK) (hfo : OslFlowOK fo o accs sc) :
    ∃ p ds isl d ra wa ds1 ds2, oslToProg ops fo o accs sc = some (p, ds) ∧ sc.stmts.mapM (oslIslStmt (oslSet sc.context)) = some isl ∧
      List.Forall₂ (StmtRight sc.context) sc.stmts isl ∧
      computeDeps fo o true (oslReads accs isl) (oslWrites accs isl) (oslTimes accs isl) = some d ∧ p.InputOK ∧ p.npar = sc.context.npar ∧ p.deps = ds.map (·.dep) ∧
      ds = ds1 ++ ds2 ∧ List.Forall₂ (StmtMade sc.context.npar (oslRows sc)) sc.stmts p.stmts ∧
      List.Forall₂ (fun s l => List.Forall₂ AccMade (OslStmt.rels s false) l) sc.stmts ra ∧
      List.Forall₂ (fun s l => List.Forall₂ AccMade (OslStmt.rels s true) l) sc.stmts wa ∧
      List.Forall₂ (fun m e => OslExtracted p accs m e ∧ e.dep.rar = false ∧ (accs = true → OslAccsOf ra wa m e)) (d.raw ++ d.war ++ d.waw) ds1 ∧
      List.Forall₂ (fun m e => OslExtracted p accs m e ∧ e.dep.rar = true ∧ (accs = true → OslAccsOf ra wa m e)) (d.rar.getD []) ds2 := by
  obtain ⟨isl, i1, i2⟩ := mapM_forall2_of sc.stmts (fun s hs => oslIslStmt_ok hok.context (hok.stmts s hs))
  obtain ⟨sts, s1, s2⟩ := mapM_forall2_of sc.stmts (fun s hs => oslStmt_ok (rows := oslRows sc) (hok.stmts s hs))
  obtain ⟨ra, a1, a2⟩ := mapM_forall2_of sc.stmts (fun s hs => oslAccs_ok (hok.stmts s hs) false)
  obtain ⟨wa, w1, w2⟩ := mapM_forall2_of sc.stmts (fun s hs => oslAccs_ok (hok.stmts s hs) true)
  obtain ⟨d, hd⟩ := computeDeps_some fo o (oslReads accs isl) (oslWrites accs isl) (oslTimes accs isl)
  obtain ⟨n1, n2, n3, n4⟩ := (hfo isl i1).2 d hd
  have one : ∀ k l, OslNamedOK accs sc k l → ∀ d ∈ l, OslNamedOK accs sc k [d] := fun k l h d hd e he => by
    rw [List.mem_singleton] at he
    exact h e (he ▸ hd)
  set nvar := (sc.stmts.map (·.niter)).foldl max 0 with hnv
  set hyps := (if sts = [] then [] else (List.range (oslRows sc)).map (fun i => if i % 2 = 1 then HypType.loop else .scalar)) with hhy
  have ext : ∀ (deps : List Dep) (type : DepType) (k : Bool → Bool → Bool) (l : List IslDep), (type = .raw ∧ (k = fun w v => w && !v) ∨ type = .war ∧ (k = fun _ v => v) ∨ type = .waw ∧ (k = fun w v => w && v) ∨ type = .rar ∧ (k = fun w v => !w && !v)) →
      OslNamedOK accs sc k l → ∃ r, l.mapM (oslExtractDep ops accs ra wa sts type) = some r ∧ List.Forall₂ (fun m e => OslExtracted ⟨nvar, sc.context.npar, sts, deps, hyps⟩ accs m e ∧
        e.dep.rar = (type == .rar) ∧ (accs = true → OslAccsOf ra wa m e) ∧ e.dep.bpoly = e.dep.dpoly ∧ Prog.DepFits ⟨nvar, sc.context.npar, sts, deps, hyps⟩ e.dep ∧
        e.dep.src < sts.length ∧ e.dep.dest < sts.length) l r :=
    fun deps type k l hk hl => mapM_forall2_of l (fun m hm => oslExtractDep_ok ops ho accs sc _ sts s2 ra wa a2 w2 type k hk nvar deps hyps m (one k l hl m hm))
  have k1 := fun deps => ext deps .raw _ _ (.inl ⟨rfl, rfl⟩) n1
  have k2 := fun deps => ext deps .war _ _ (.inr (.inl ⟨rfl, rfl⟩)) n2
  have k3 := fun deps => ext deps .waw _ _ (.inr (.inr (.inl ⟨rfl, rfl⟩))) n3
  have k4 := fun deps => ext deps .rar _ _ (.inr (.inr (.inr ⟨rfl, rfl⟩))) n4
  obtain ⟨r1, e1, -⟩ := k1 []
  obtain ⟨r2, e2, -⟩ := k2 []
  obtain ⟨r3, e3, -⟩ := k3 []
  obtain ⟨r4, e4, -⟩ := k4 []
  have f1 := k1 ((r1 ++ r2 ++ r3 ++ r4).map (·.dep))
  have f2 := k2 ((r1 ++ r2 ++ r3 ++ r4).map (·.dep))
  have f3 := k3 ((r1 ++ r2 ++ r3 ++ r4).map (·.dep))
  have f4 := k4 ((r1 ++ r2 ++ r3 ++ r4).map (·.dep))
  rw [e1] at f1
  rw [e2] at f2
  rw [e3] at f3
  rw [e4] at f4
  obtain ⟨_, ⟨⟩, f1⟩ := f1
  obtain ⟨_, ⟨⟩, f2⟩ := f2
  obtain ⟨_, ⟨⟩, f3⟩ := f3
  obtain ⟨_, ⟨⟩, f4⟩ := f4
  set p : Prog := ⟨nvar, sc.context.npar, sts, (r1 ++ r2 ++ r3 ++ r4).map (·.dep), hyps⟩ with hp
  refine ⟨p, r1 ++ r2 ++ r3 ++ r4, isl, d, ra, wa, r1 ++ r2 ++ r3, r4, ?_, i1, i2, hd, ⟨fun st hst => ?_, fun e he => ?_⟩, rfl, rfl, rfl, s2, a2, w2, ?_, ?_⟩
  · unfold oslToProg oslDeps
    have a1' : sc.stmts.mapM (fun s => oslAccs s.reads) = some ra := a1
    have w1' : sc.stmts.mapM (fun s => oslAccs s.writes) = some wa := w1
    simp only [s1, a1', w1', i1, hd, e1, e2, e3, e4, Option.bind_eq_bind, Option.bind_some]
    rfl
  · obtain ⟨k, hk⟩ := List.mem_iff_getElem?.mp hst
    obtain ⟨s, hs, hm⟩ := forall2_get? s2 hk
    refine ⟨hm.orig.1.symm, ?_, hm.orig.2, hm.wf, hm.cols⟩
    rw [hm.dim]
    exact le_foldl_max _ 0 _ (List.mem_map_of_mem (f := fun s : OslStmt => s.niter) (List.mem_of_getElem? hs))
  · obtain ⟨e', he', rfl⟩ := List.mem_map.mp he
    have all : ∀ (l : List IslDep) (r : List OslDep) (type : DepType), List.Forall₂ (fun m e => OslExtracted p accs m e ∧
        e.dep.rar = (type == .rar) ∧ (accs = true → OslAccsOf ra wa m e) ∧ e.dep.bpoly = e.dep.dpoly ∧ Prog.DepFits p e.dep ∧
        e.dep.src < sts.length ∧ e.dep.dest < sts.length) l r → ∀ e ∈ r, e.dep.bpoly = e.dep.dpoly ∧ Prog.DepFits p e.dep ∧ e.dep.src < sts.length ∧ e.dep.dest < sts.length := by
      intro l r type hf e he
      obtain ⟨k, hk⟩ := List.mem_iff_getElem?.mp he
      obtain ⟨m, -, -, -, -, g⟩ := forall2_get? hf hk
      exact g
    have : e'.dep.bpoly = e'.dep.dpoly ∧ Prog.DepFits p e'.dep ∧ e'.dep.src < sts.length ∧ e'.dep.dest < sts.length := by
      simp only [List.mem_append] at he'
      rcases he' with ((he' | he') | he') | he'
      · exact all _ _ _ f1 _ he'
      · exact all _ _ _ f2 _ he'
      · exact all _ _ _ f3 _ he'
      · exact all _ _ _ f4 _ he'
    obtain ⟨b1, b2, b3, b4⟩ := this
    exact ⟨b3, b4, b2, by rw [b1]; exact b2.wf, by rw [b1]; exact b2.cols⟩
  · refine List.rel_append (List.rel_append ?_ ?_) ?_
    · exact f1.imp (fun _ _ h => ⟨h.1, h.2.1, h.2.2.1⟩)
    · exact f2.imp (fun _ _ h => ⟨h.1, h.2.1, h.2.2.1⟩)
    · exact f3.imp (fun _ _ h => ⟨h.1, h.2.1, h.2.2.1⟩)
  · exact f4.imp (fun _ _ h => ⟨h.1, h.2.1, h.2.2.1⟩)

/-- C68. The front end makes a program from every scop as clan makes it. It is a valid input of the automatic
transformation, its statements are those of the scop with the same instances, and their initial
schedules are the scatterings, filled up with zeros. -/
theorem C68_program (ops : IslOps) (ho : ops.OK) (fo : FlowOps) (o : FlowOpts) (accs : Bool) (sc : OslScop) (hok : sc.OK) (hfo : OslFlowOK fo o accs sc) :
    ∃ p ds, oslToProg ops fo o accs sc = some (p, ds) ∧ p.InputOK ∧ p.npar = sc.context.npar ∧ p.deps = ds.map (·.dep) ∧ p.stmts.length = sc.stmts.length ∧
      ∀ (i : Nat) (s : OslStmt), sc.stmts[i]? = some s → ∃ st, p.stmts[i]? = some st ∧
        ∀ x q : List Int, x.length = st.dim → q.length = sc.context.npar → sc.context.Has [] [] q →
          (st.domain.Sat (x ++ q) ↔ OslRuns sc q (i, x)) ∧
          ∃ t, s.scat.Has t x q ∧ st.trans.map (fun r => aff r (x ++ q)) = t ++ List.replicate (oslRows sc - t.length) 0 := by
  obtain ⟨p, ds, isl, d, ra, wa, ds1, ds2, h1, -, -, -, h2, h3, h4, -, h5, -⟩ := oslToProg_made ops ho fo o accs sc hok hfo
  refine ⟨p, ds, h1, h2, h3, h4, h5.length_eq.symm, fun i s hs => ?_⟩
  obtain ⟨st, g1, g2⟩ := forall2_get?' h5 hs
  refine ⟨st, g1, fun x q hx hq hc => ⟨?_, g2.trans x q hx hq⟩⟩
  rw [g2.dom x q hx hq]
  unfold OslRuns
  constructor
  · intro h; exact ⟨hc, s, hs, h⟩
  · rintro ⟨-, s', hs', h⟩
    simp only [hs] at hs'
    cases hs'
    exact h

theorem OslRuns.dim {sc : OslScop} (hok : sc.OK) {q : List Int} {p : Pt} (h : OslRuns sc q p) {s : OslStmt} (hs : sc.stmts[p.1]? = some s) :
    p.2.length = s.niter ∧ q.length = sc.context.npar := by
  obtain ⟨hc, s', hs', d, hd, hh⟩ := h
  rw [hs] at hs'
  cases hs'
  obtain ⟨d', h1, -⟩ := (hok.stmts s (List.mem_of_getElem? hs)).domain
  rw [h1, List.mem_singleton] at hd
  subst hd
  exact ⟨by simp [OslStmt.niter, h1, hh.1], hc.2.2.1⟩

theorem OslBefore.at {sc : OslScop} {q : List Int} {a b : Pt} : OslBefore sc q a b ↔ BeforeAt (OslAt sc q) a b := by
  constructor
  · rintro ⟨s, t, u, v, h1, h2, h3, h4, h5⟩
    exact ⟨u, v, ⟨s, h1, h3⟩, ⟨t, h2, h4⟩, h5⟩
  · rintro ⟨u, v, ⟨s, h1, h3⟩, ⟨t, h2, h4⟩, h5⟩
    exact ⟨s, t, u, v, h1, h2, h3, h4, h5⟩

theorem conflict_osl {sc : OslScop} {isl : List OslIsl} (hS : List.Forall₂ (StmtRight sc.context) sc.stmts isl) {accs : Bool} {w v : Bool} {q : List Int} {x y : Pt}
    (hc : Conflict (oslMaps accs w isl) (oslMaps accs v isl) (oslTimes accs isl) q x y) :
    ∃ (i j k l : Nat) (e : Pt), x.1 = oslCode accs i w k ∧ y.1 = oslCode accs j v l ∧ OslAccAt sc q w k (i, x.2) e ∧ OslAccAt sc q v l (j, y.2) e ∧
      OslBefore sc q (i, x.2) (j, y.2) := by
  obtain ⟨e, h1, h2, t, t', h3, h4, h5⟩ := hc
  obtain ⟨i, k, a1, a2⟩ := (touches_osl hS).mp h1
  obtain ⟨j, l, b1, b2⟩ := (touches_osl hS).mp h2
  refine ⟨i, j, k, l, e, a1, b1, a2, b2, OslBefore.at.mpr ⟨t, t', ?_, ?_, h5⟩⟩
  · obtain ⟨i', w', k', s, c1, c2, -, c3⟩ := (atTime_osl hS).mp h3
    have : i = i' := by rw [← oslCodeStmt_code accs i w k, ← a1, c1, oslCodeStmt_code]
    subst this
    exact ⟨s, c2, c3⟩
  · obtain ⟨i', w', k', s, c1, c2, -, c3⟩ := (atTime_osl hS).mp h4
    have : j = i' := by rw [← oslCodeStmt_code accs j v l, ← b1, c1, oslCodeStmt_code]
    subst this
    exact ⟨s, c2, c3⟩

theorem related_osl {isl : List OslIsl} {fo : FlowOps} {o : FlowOpts} {accs : Bool}
    (hfo : fo.OK (oslReads accs isl) (oslWrites accs isl) (oslTimes accs isl)) {d : IslDeps}
    (hc : computeDeps fo o true (oslReads accs isl) (oslWrites accs isl) (oslTimes accs isl) = some d) {q : List Int} {x y : Pt}
    (hr : Related d.raw q x y ∨ Related d.war q x y ∨ Related d.waw q x y) :
    ∃ w v, (w = true ∨ v = true) ∧ Conflict (oslMaps accs w isl) (oslMaps accs v isl) (oslTimes accs isl) q x y := by
  rcases C61_sound fo o true _ _ _ hfo d hc q x y hr with h | h | h
  · exact ⟨true, false, by simp, h⟩
  · exact ⟨false, true, by simp, h⟩
  · exact ⟨true, true, by simp, h⟩

/-- C68. No conflict is lost: if an instance writes an element and another one reads or writes it, or the other way
round, then the later one depends on the earlier one through a chain of dependences of the program. -/
theorem C68_complete (ops : IslOps) (ho : ops.OK) (fo : FlowOps) (o : FlowOpts) (accs : Bool) (sc : OslScop) (hok : sc.OK) (hfo : OslFlowOK fo o accs sc)
    (p : Prog) (ds : List OslDep) (h : oslToProg ops fo o accs sc = some (p, ds)) (q : List Int) (hfin : {a | OslRuns sc q a}.Finite)
    (a b : Pt) (hb : OslBefore sc q a b) (hc : OslConflict sc q a b) : OslChain sc p q a b := by
  obtain ⟨p', ds', isl, d, ra, wa, ds1, ds2, h1, h2, h3, h4, h5, h6, h7, h8, h9, h10, h11, h12, h13⟩ := oslToProg_made ops ho fo o accs sc hok hfo
  rw [h] at h1
  cases h1
  have hC : ConflictAt (fun p e => ∃ k, OslAccAt sc q false k p e) (fun p e => ∃ k, OslAccAt sc q true k p e) a b := by
    obtain ⟨e, ⟨c1, c2 | c2⟩ | ⟨c1, c2⟩⟩ := hc
    · exact ⟨islElem e, .inl ⟨(oslWritesElem_iff hok).mpr ⟨e, c1, rfl⟩, .inl ((oslReadsElem_iff hok).mpr ⟨e, c2, rfl⟩)⟩⟩
    · exact ⟨islElem e, .inl ⟨(oslWritesElem_iff hok).mpr ⟨e, c1, rfl⟩, .inr ((oslWritesElem_iff hok).mpr ⟨e, c2, rfl⟩)⟩⟩
    · exact ⟨islElem e, .inr ⟨(oslReadsElem_iff hok).mpr ⟨e, c1, rfl⟩, (oslWritesElem_iff hok).mpr ⟨e, c2, rfl⟩⟩⟩
  have key := flowNames_complete (osl_names hok h3 accs q) fo o true (hfo isl h2).1 d h4 (oslWrites_finite h3 accs q hfin) a b hC (OslBefore.at.mp hb)
  refine Relation.TransGen.mono ?_ _ _ key
  rintro a b ⟨x, y, rfl, rfl, hr⟩
  obtain ⟨w, v, -, hcf⟩ := related_osl (hfo isl h2).1 h4 hr
  obtain ⟨i, j, k, l, e, x1, y1, r1, r2, -⟩ := conflict_osl h3 hcf
  have ei : oslCodeStmt accs x.1 = i := by rw [x1, oslCodeStmt_code]
  have ej : oslCodeStmt accs y.1 = j := by rw [y1, oslCodeStmt_code]
  unfold decPt
  rw [ei, ej]
  refine ⟨r1.1, r2.1, ?_⟩
  obtain ⟨m, hm, m1, m2, m3⟩ : ∃ m ∈ d.raw ++ d.war ++ d.waw, m.src = x.1 ∧ m.dest = y.1 ∧ m.rel.Has x.2 y.2 q := by
    rcases hr with ⟨m, hm, r⟩ | ⟨m, hm, r⟩ | ⟨m, hm, r⟩
    · exact ⟨m, by simp [hm], r⟩
    · exact ⟨m, by simp [hm], r⟩
    · exact ⟨m, by simp [hm], r⟩
  obtain ⟨n, hn⟩ := List.mem_iff_getElem?.mp hm
  obtain ⟨e', g1, g2, g3, -⟩ := forall2_get?' h12 hn
  refine ⟨e'.dep, ?_, g3, ?_, ?_, g2.inst _ _ _ m3⟩
  · rw [h7, h8]
    exact List.mem_map_of_mem (List.mem_append_left _ (List.mem_of_getElem? g1))
  · rw [g2.src, m1, ei]
  · rw [g2.dest, m2, ej]

/-- The element of an access, with the access matrix. -/
theorem OslAccAt.elem {sc : OslScop} (hok : sc.OK) {q : List Int} {w : Bool} {k : Nat} {p e' : Pt} (h : OslAccAt sc q w k p e') :
    ∃ (s : OslStmt) (a : OslType × OslRel) (id : Nat) (f : List (List Int)) (y : List Int), s ∈ sc.stmts ∧ a ∈ s.accs ∧ a.2.IsAcc id f ∧ y.length = f.length ∧ e' = islElem (id, y) ∧ 1 ≤ id ∧
      (if w then OslWritesElem sc q p (id, y) else OslReadsElem sc q p (id, y)) := by
  obtain ⟨hr, s, r, y, h1, h2, h3, h4, h5⟩ := h
  have hs := List.mem_of_getElem? h1
  have hm := List.mem_of_getElem? h2
  cases w with
  | true =>
    obtain ⟨a, ha, ht, rfl⟩ := OslStmt.writes_mem.mp hm
    obtain ⟨w, -, id, f, hf⟩ := (hok.stmts s hs).accs a ha
    obtain ⟨-, -, -, hy⟩ := (hf.has w.noLocal _ _ _ _).mp h3
    rw [hf.arrayId] at h3 h4
    exact ⟨s, a, id, f, y, hs, ha, hf, by rw [hy]; simp, Prod.ext (by simp only [islElem]; omega) h5, hf.1, hr, s, h1, a, ha, ht, h3⟩
  | false =>
    have ha := OslStmt.reads_mem.mp hm
    obtain ⟨w, -, id, f, hf⟩ := (hok.stmts s hs).accs _ ha
    obtain ⟨-, -, -, hy⟩ := (hf.has w.noLocal _ _ _ _).mp h3
    rw [hf.arrayId] at h3 h4
    exact ⟨s, _, id, f, y, hs, ha, hf, by rw [hy]; simp, Prod.ext (by simp only [islElem]; omega) h5, hf.1, hr, s, h1, _, ha, rfl, h3⟩

theorem same_elem {sc : OslScop} (hok : sc.OK) (hsd : sc.SameDims) {q : List Int} {w v : Bool} {k l : Nat} {a b e' : Pt} (h1 : OslAccAt sc q w k a e') (h2 : OslAccAt sc q v l b e') :
    ∃ e, e' = islElem e ∧ 1 ≤ e.1 ∧ (if w then OslWritesElem sc q a e else OslReadsElem sc q a e) ∧ (if v then OslWritesElem sc q b e else OslReadsElem sc q b e) := by
  obtain ⟨s, c, id, f, y, a1, a2, a3, a4, a5, a6, a7⟩ := h1.elem hok
  obtain ⟨t, d, id', g, z, b1, b2, b3, b4, b5, b6, b7⟩ := h2.elem hok
  rw [a5] at b5
  obtain ⟨c1, c2⟩ := Prod.mk.inj b5
  simp only at c1 c2
  have : id = id' := by omega
  subst this
  have hl := hsd s a1 t b1 c a2 d b2 id f g a3 b3
  have : y = z := by
    unfold islIdx at c2
    by_cases hy : y = []
    · subst hy
      exact (List.length_eq_zero_iff.mp (by rw [b4, ← hl, ← a4]; rfl)).symm
    · have hz : z ≠ [] := by
        rintro rfl
        exact hy (List.length_eq_zero_iff.mp (by rw [a4, hl, ← b4]; rfl))
      rwa [if_neg hy, if_neg hz] at c2
  subst this
  exact ⟨(id, y), a5, a6, a7, b7⟩

/-- The accesses of a kind belong to the relations. -/
theorem kindAccs_at {sc : OslScop} {ra wa : List (List OslAcc)} (hra : List.Forall₂ (fun s l => List.Forall₂ AccMade (OslStmt.rels s false) l) sc.stmts ra)
    (hwa : List.Forall₂ (fun s l => List.Forall₂ AccMade (OslStmt.rels s true) l) sc.stmts wa) {q : List Int} {w : Bool} {i k : Nat} {x : List Int} {e' : Pt}
    (h : OslAccAt sc q w k (i, x) e') {l : List OslAcc} {a : OslAcc} (hl : (kindAccs w ra wa)[i]? = some l) (ha : l[k]? = some a) :
    a.1 = e'.1 ∧ a.2.map (fun g => aff g (x ++ q)) = e'.2 := by
  obtain ⟨-, s, r, y, h1, h2, h3, h4, h5⟩ := h
  have hf : List.Forall₂ (fun s l => List.Forall₂ AccMade (OslStmt.rels s w) l) sc.stmts (kindAccs w ra wa) := by
    cases w with
    | true => exact hwa
    | false => exact hra
  obtain ⟨l', g1, g2⟩ := forall2_get?' hf h1
  rw [hl] at g1
  cases g1
  obtain ⟨a', g3, g4, g5⟩ := forall2_get?' g2 h2
  rw [ha] at g3
  cases g3
  exact ⟨by omega, by rw [g5 y x q h3, h5]⟩

/-- C68. Nothing is added: a dependence of the program, if isl describes it without existentially quantified variables,
relates only instances that access the same element in the order in which they run, and one of them writes it
unless the dependence is marked as a dependence between reads; the accesses recorded (with the option for names of
accesses) are accesses to this element, of the kinds given by the type. -/
theorem C68_sound (ops : IslOps) (ho : ops.OK) (fo : FlowOps) (o : FlowOpts) (accs : Bool) (sc : OslScop) (hok : sc.OK) (hsd : sc.SameDims) (hfo : OslFlowOK fo o accs sc)
    (hdiv : OslNoDivs fo o accs sc) (p : Prog) (ds : List OslDep) (h : oslToProg ops fo o accs sc = some (p, ds)) (e : OslDep) (he : e ∈ ds) (s t q : List Int)
    (hi : p.Inst e.dep s t q) :
    OslBefore sc q (e.dep.src, s) (e.dep.dest, t) ∧
    (e.dep.rar = false → OslConflict sc q (e.dep.src, s) (e.dep.dest, t)) ∧
    (e.dep.rar = true → ∃ el, OslReadsElem sc q (e.dep.src, s) el ∧ OslReadsElem sc q (e.dep.dest, t) el) ∧
    (accs = true → ∃ (el : Pt) (arr : Nat) (f g : List (List Int)), e.srcAcc = some (arr, f) ∧ e.destAcc = some (arr, g) ∧ el.1 = arr + 1 ∧
      f.map (fun r => aff r (s ++ q)) = (if el.2 = [] then [0] else el.2) ∧ g.map (fun r => aff r (t ++ q)) = (if el.2 = [] then [0] else el.2) ∧
      match e.type with
      | .raw => OslWritesElem sc q (e.dep.src, s) el ∧ OslReadsElem sc q (e.dep.dest, t) el
      | .war => OslReadsElem sc q (e.dep.src, s) el ∧ OslWritesElem sc q (e.dep.dest, t) el
      | .waw => OslWritesElem sc q (e.dep.src, s) el ∧ OslWritesElem sc q (e.dep.dest, t) el
      | .rar => OslReadsElem sc q (e.dep.src, s) el ∧ OslReadsElem sc q (e.dep.dest, t) el) := by
  obtain ⟨p', ds', isl, d, ra, wa, ds1, ds2, h1, h2, h3, h4, h5, h6, h7, h8, h9, h10, h11, h12, h13⟩ := oslToProg_made ops ho fo o accs sc hok hfo
  rw [h] at h1
  cases h1
  -- the dependence of isl, and the kinds of the accesses
  obtain ⟨m, w, v, hm, hx, hacc, hk0, hk1, hcf⟩ : ∃ (m : IslDep) (w v : Bool), m ∈ d.raw ++ d.war ++ d.waw ++ d.rar.getD [] ∧ OslExtracted p accs m e ∧ (accs = true → OslAccsOf ra wa m e) ∧
      (e.dep.rar = false → w = true ∨ v = true) ∧ (e.dep.rar = true → w = false ∧ v = false) ∧
      Conflict (oslMaps accs w isl) (oslMaps accs v isl) (oslTimes accs isl) q (m.src, s) (m.dest, t) := by
    rw [h8, List.mem_append] at he
    rcases he with he | he
    · obtain ⟨n, hn⟩ := List.mem_iff_getElem?.mp he
      obtain ⟨m, g1, g2, g3, g4⟩ := forall2_get? h12 hn
      have hm := List.mem_of_getElem? g1
      have hh := g2.exact (hdiv isl h2 d h4 m (List.mem_append_left _ hm)) s t q hi
      have hrel : Related d.raw q (m.src, s) (m.dest, t) ∨ Related d.war q (m.src, s) (m.dest, t) ∨ Related d.waw q (m.src, s) (m.dest, t) := by
        rcases List.mem_append.mp hm with hm | hm
        · rcases List.mem_append.mp hm with hm | hm
          · exact .inl ⟨m, hm, rfl, rfl, hh⟩
          · exact .inr (.inl ⟨m, hm, rfl, rfl, hh⟩)
        · exact .inr (.inr ⟨m, hm, rfl, rfl, hh⟩)
      obtain ⟨w, v, c1, c2⟩ := related_osl (hfo isl h2).1 h4 hrel
      exact ⟨m, w, v, List.mem_append_left _ hm, g2, g4, fun _ => c1, fun hr => (by rw [g3] at hr; cases hr), c2⟩
    · obtain ⟨n, hn⟩ := List.mem_iff_getElem?.mp he
      obtain ⟨m, g1, g2, g3, g4⟩ := forall2_get? h13 hn
      have hm := List.mem_of_getElem? g1
      have hh := g2.exact (hdiv isl h2 d h4 m (List.mem_append_right _ hm)) s t q hi
      have c2 := flow_rar_sound fo o true _ _ _ (hfo isl h2).1 d h4 q (m.src, s) (m.dest, t) ⟨m, hm, rfl, rfl, hh⟩
      exact ⟨m, false, false, List.mem_append_right _ hm, g2, g4, fun hr => (by rw [g3] at hr; cases hr), fun _ => ⟨rfl, rfl⟩, c2⟩
  obtain ⟨i, j, k, l, e', x1, y1, r1, r2, hbef⟩ := conflict_osl h3 hcf
  simp only at x1 y1 r1 r2 hbef
  have ei : e.dep.src = i := by rw [hx.src, x1, oslCodeStmt_code]
  have ej : e.dep.dest = j := by rw [hx.dest, y1, oslCodeStmt_code]
  rw [ei, ej]
  obtain ⟨el, el1, el0, el2, el3⟩ := same_elem hok hsd r1 r2
  refine ⟨hbef, fun hr => ?_, fun hr => ?_, fun ha => ?_⟩
  · refine ⟨el, ?_⟩
    rcases w with _ | _ <;> rcases v with _ | _ <;> simp only [if_true, Bool.false_eq_true, if_false] at el2 el3
    · simpa using hk0 hr
    · exact .inr ⟨el2, el3⟩
    · exact .inl ⟨el2, .inl el3⟩
    · exact .inl ⟨el2, .inr el3⟩
  · obtain ⟨rfl, rfl⟩ := hk1 hr
    exact ⟨el, el2, el3⟩
  · obtain ⟨i', j', wi, wj, ki, kj, c1, c2, c3, ⟨a, la, c4, c5, c6⟩, b, lb, c7, c8, c9⟩ := hacc ha
    subst ha
    simp only [oslCode, if_true] at x1 y1
    obtain ⟨rfl, rfl, rfl⟩ := accCode_inj (c1.symm.trans x1)
    obtain ⟨rfl, rfl, rfl⟩ := accCode_inj (c2.symm.trans y1)
    obtain ⟨p1, p2⟩ := kindAccs_at h10 h11 r1 c5 c6
    obtain ⟨q1, q2⟩ := kindAccs_at h10 h11 r2 c8 c9
    refine ⟨el, e'.1, a.2, b.2, ?_, ?_, ?_, ?_, ?_, ?_⟩
    · rw [c4, ← p1]
    · rw [c7, ← q1]
    · rw [el1]; simp only [islElem]; omega
    · rw [p2, el1]; rfl
    · rw [q2, el1]; rfl
    · rw [c3]
      rcases wi with _ | _ <;> rcases wj with _ | _ <;> simp only [if_true, Bool.false_eq_true, if_false] at el2 el3 <;> exact ⟨el2, el3⟩

end Pluto
