import Verif.Lemmas.PetExtract
import Verif.Props.IslLib

/-! C64: the program that the front end for pet makes. -/

namespace Pluto

/-- C64. The names that the dependence analysis is given can be read back: statement, kind and number of the access. -/
theorem C64_names (i : Nat) (w : Bool) (k : Nat) :
    codeName (accCode i w k) = accName i w k ∧ nameStmt (accName i w k) = i ∧ nameAcc (accName i w k) = some (if w then 'w' else 'r', k) :=
  ⟨codeName_accCode i w k, nameStmt_accName i w k, nameAcc_accName i w k⟩

/-! ### Dead code -/

theorem markWriters_get (k : Nat) (ps : List PetStmt) (dead : List Bool) (j : Nat) (s : PetStmt) (d : Bool) (hs : ps[j]? = some s) (hd : dead[j]? = some d) :
    (markWriters k ps dead)[j]? = some (d || writesOnly s k) := by
  unfold markWriters
  rw [List.getElem?_zipWith, hs, hd]

theorem markWriters_length (k : Nat) (ps : List PetStmt) (dead : List Bool) (h : dead.length = ps.length) : (markWriters k ps dead).length = ps.length := by
  simp [markWriters, h]

/-- The only array that the statement writes is `k`. -/
def OnlyWrites (s : PetStmt) (k : Nat) : Prop := ∃ w, s.writes = [w] ∧ w.arr = k

theorem onlyWrites_iff (s : PetStmt) (k : Nat) : writesOnly s k = true ↔ OnlyWrites s k := by
  unfold OnlyWrites writesOnly
  rcases s.writes with _ | ⟨w, _ | ⟨v, l⟩⟩ <;> simp

theorem markStep_spec (ps : List PetStmt) (dead : List Bool) (h : dead.length = ps.length) (n : Nat) (hn : n < ps.length) :
    (markStep ps dead n).length = ps.length ∧ ∀ (j : Nat) (s : PetStmt) (d : Bool), ps[j]? = some s → dead[j]? = some d →
      ∃ d', (markStep ps dead n)[j]? = some d' ∧ (d' = true ↔ d = true ∨ (j = n ∧ s.kill ≠ none) ∨
        ∃ u k, ps[n]? = some u ∧ u.kill = some [k] ∧ OnlyWrites s k) := by
  have hps := List.getElem?_eq_getElem hn
  generalize ps[n] = u at hps
  unfold markStep
  rw [hps]
  simp only [Option.bind_some]
  have hset : ∀ (j : Nat) (s : PetStmt) (d : Bool), ps[j]? = some s → dead[j]? = some d → (dead.set n true)[j]? = some (d || decide (j = n)) := by
    intro j s d h1 h2
    rw [List.getElem?_set]
    by_cases hj : n = j
    · rw [if_pos hj, if_pos (by omega)]; simp [hj]
    · rw [if_neg hj, h2]; simp [Ne.symm hj]
  have hsame : ∀ (j : Nat) (s : PetStmt), ps[j]? = some s → j = n → s = u := by
    rintro j s h1 rfl
    rw [hps] at h1
    exact (Option.some.inj h1).symm
  rcases hk : u.kill with _ | ⟨_ | ⟨k, _ | ⟨k', l⟩⟩⟩
  · refine ⟨h, fun j s d h1 h2 => ⟨d, h2, ?_⟩⟩
    constructor
    · exact .inl
    · rintro (h3 | ⟨h3, h4⟩ | ⟨u', k, h3, h4, -⟩)
      · exact h3
      · rw [hsame j s h1 h3, hk] at h4; exact absurd rfl h4
      · cases h3; rw [hk] at h4; cases h4
  · refine ⟨by simp [h], fun j s d h1 h2 => ⟨_, hset j s d h1 h2, ?_⟩⟩
    rw [Bool.or_eq_true, decide_eq_true_eq]
    constructor
    · rintro (h3 | h3)
      · exact .inl h3
      · exact .inr (.inl ⟨h3, by rw [hsame j s h1 h3, hk]; simp⟩)
    · rintro (h3 | ⟨h3, -⟩ | ⟨u', k, h3, h4, -⟩)
      · exact .inl h3
      · exact .inr h3
      · cases h3; rw [hk] at h4; cases h4
  · refine ⟨markWriters_length k ps _ (by simp [h]), fun j s d h1 h2 => ⟨_, markWriters_get k ps _ j s _ h1 (hset j s d h1 h2), ?_⟩⟩
    rw [Bool.or_eq_true, Bool.or_eq_true, decide_eq_true_eq, onlyWrites_iff]
    constructor
    · rintro ((h3 | h3) | h3)
      · exact .inl h3
      · exact .inr (.inl ⟨h3, by rw [hsame j s h1 h3, hk]; simp⟩)
      · exact .inr (.inr ⟨u, k, rfl, hk, h3⟩)
    · rintro (h3 | ⟨h3, -⟩ | ⟨u', k', h3, h4, h5⟩)
      · exact .inl (.inl h3)
      · exact .inl (.inr h3)
      · cases h3; rw [hk] at h4; cases h4; exact .inr h5
  · refine ⟨by simp [h], fun j s d h1 h2 => ⟨_, hset j s d h1 h2, ?_⟩⟩
    rw [Bool.or_eq_true, decide_eq_true_eq]
    constructor
    · rintro (h3 | h3)
      · exact .inl h3
      · exact .inr (.inl ⟨h3, by rw [hsame j s h1 h3, hk]; simp⟩)
    · rintro (h3 | ⟨h3, -⟩ | ⟨u', k, h3, h4, -⟩)
      · exact .inl h3
      · exact .inr h3
      · cases h3; rw [hk] at h4; cases h4

/-- C64. Exactly these statements are left out: kill statements, and statements whose only written array is the only
one killed by some kill statement (wherever it is). -/
theorem C64_dead (ps : List PetStmt) :
    (markDead ps).length = ps.length ∧ ∀ (j : Nat) (s : PetStmt), ps[j]? = some s →
      ((markDead ps)[j]? = some true ↔ s.kill ≠ none ∨ ∃ u ∈ ps, ∃ k, u.kill = some [k] ∧ OnlyWrites s k) := by
  have key : ∀ n ≤ ps.length, let r := (List.range n).foldl (markStep ps) (List.replicate ps.length false)
      r.length = ps.length ∧ ∀ (j : Nat) (s : PetStmt), ps[j]? = some s → ∃ d, r[j]? = some d ∧
        (d = true ↔ (j < n ∧ s.kill ≠ none) ∨ ∃ m < n, ∃ u k, ps[m]? = some u ∧ u.kill = some [k] ∧ OnlyWrites s k) := by
    intro n
    induction n with
    | zero =>
      intro _
      refine ⟨by simp, fun j s hs => ⟨false, ?_, by simp⟩⟩
      have := (List.getElem?_eq_some_iff.mp hs).1
      simp [List.getElem?_replicate, this]
    | succ n ih =>
      intro hn
      obtain ⟨h1, h2⟩ := ih (by omega)
      rw [List.range_succ, List.foldl_append]
      simp only [List.foldl_cons, List.foldl_nil]
      obtain ⟨h3, h4⟩ := markStep_spec ps _ h1 n (by omega)
      refine ⟨h3, fun j s hs => ?_⟩
      obtain ⟨d, hd, e⟩ := h2 j s hs
      obtain ⟨d', hd', e'⟩ := h4 j s d hs hd
      refine ⟨d', hd', ?_⟩
      rw [e', e]
      constructor
      · rintro ((⟨a, b⟩ | ⟨m, hm, r⟩) | ⟨a, b⟩ | r)
        · exact .inl ⟨by omega, b⟩
        · exact .inr ⟨m, by omega, r⟩
        · exact .inl ⟨by omega, b⟩
        · exact .inr ⟨n, by omega, r⟩
      · rintro (⟨a, b⟩ | ⟨m, hm, r⟩)
        · rcases Nat.lt_succ_iff_lt_or_eq.mp a with a | a
          · exact .inl (.inl ⟨a, b⟩)
          · exact .inr (.inl ⟨a, b⟩)
        · rcases Nat.lt_succ_iff_lt_or_eq.mp hm with hm | rfl
          · exact .inl (.inr ⟨m, hm, r⟩)
          · exact .inr (.inr r)
  obtain ⟨h1, h2⟩ := key ps.length (le_refl _)
  refine ⟨h1, fun j s hs => ?_⟩
  obtain ⟨d, hd, e⟩ := h2 j s hs
  have hj := (List.getElem?_eq_some_iff.mp hs).1
  rw [show markDead ps = (List.range ps.length).foldl (markStep ps) (List.replicate ps.length false) from rfl, hd, Option.some.injEq, e]
  constructor
  · rintro (⟨-, a⟩ | ⟨m, hm, u, k, r1, r2⟩)
    · exact .inl a
    · exact .inr ⟨u, List.mem_of_getElem? r1, k, r2⟩
  · rintro (a | ⟨u, hu, k, r⟩)
    · exact .inl ⟨hj, a⟩
    · obtain ⟨m, hm, rfl⟩ := List.mem_iff_getElem.mp hu
      exact .inr ⟨m, hm, _, k, List.getElem?_eq_getElem hm, r⟩

theorem petLive_sub (ps : List PetStmt) : ∀ s ∈ petLive ps, s ∈ ps := by
  intro s hs
  unfold petLive at hs
  obtain ⟨⟨a, b⟩, h, rfl⟩ := List.mem_map.mp hs
  exact (List.of_mem_zip (List.mem_of_mem_filter h)).1

/-! ### The program -/

theorem computeDeps_some (fo : FlowOps) (o : FlowOpts) (reads writes : List IslAcc) (s : List IslTime) : ∃ d, computeDeps fo o true reads writes s = some d := by
  unfold computeDeps
  simp only [Bool.not_true, Bool.and_false, Bool.false_eq_true, if_false]
  split <;> exact ⟨_, rfl⟩

theorem mapM_forall2' {α β : Type*} {f : α → Option β} {P : α → β → Prop} (l : List α) (h : ∀ a ∈ l, ∃ b, f a = some b ∧ P a b) (r : List β)
    (hr : l.mapM f = some r) : List.Forall₂ P l r := by
  obtain ⟨r', h1, h2⟩ := mapM_forall2 l h
  rw [hr] at h1
  cases h1
  exact h2

/-- The relation between the dependences found by isl and those of the program. -/
theorem petDeps_ok (ops : IslOps) (ho : ops.OK) (fo : FlowOps) (o : FlowOpts) (accs : Bool) (func : BMap → List (List Int)) (npar rows : Nat)
    (ps : List PetStmt) (hok : PetOK npar ps) (hne : accs = true → ∀ s ∈ ps, ∀ a ∈ s.reads ++ s.writes, a.parts ≠ [])
    (d : IslDeps) (hc : computeDeps fo o true (petReads ps) (petWrites ps) (petTimes ps) = some d) (hn : FlowNamesOK npar ps d)
    (nvar : Nat) (deps : List Dep) (hyps : List HypType) :
    ∃ ds, petDeps ops fo o accs ps (ps.map (petStmt ops func npar rows)) = some ds ∧
      List.Forall₂ (fun (d : IslDep) e => Extracted ⟨nvar, npar, ps.map (petStmt ops func npar rows), deps, hyps⟩ d e ∧ AccsOf ps accs d e ∧
        e.dep.bpoly = e.dep.dpoly ∧ Prog.DepFits ⟨nvar, npar, ps.map (petStmt ops func npar rows), deps, hyps⟩ e.dep ∧ e.dep.src < ps.length ∧
        e.dep.dest < ps.length) (d.raw ++ d.war ++ d.waw) ds := by
  have one : ∀ k l, NamedDepsOK npar ps k l → ∀ d ∈ l, NamedDepsOK npar ps k [d] := fun k l h d hd e he => by
    rw [List.mem_singleton] at he
    exact h e (he ▸ hd)
  obtain ⟨a, a1, a2⟩ := mapM_forall2 d.raw (fun x hx => petExtractDep_ok ops ho func npar rows ps hok accs hne .raw _ (.inl ⟨rfl, rfl⟩) nvar deps hyps x (one _ _ hn.1 x hx))
  obtain ⟨b, b1, b2⟩ := mapM_forall2 d.war (fun x hx => petExtractDep_ok ops ho func npar rows ps hok accs hne .war _ (.inr (.inl ⟨rfl, rfl⟩)) nvar deps hyps x (one _ _ hn.2.1 x hx))
  obtain ⟨c, c1, c2⟩ := mapM_forall2 d.waw (fun x hx => petExtractDep_ok ops ho func npar rows ps hok accs hne .waw _ (.inr (.inr ⟨rfl, rfl⟩)) nvar deps hyps x (one _ _ hn.2.2 x hx))
  refine ⟨a ++ b ++ c, ?_, List.rel_append (List.rel_append a2 b2) c2⟩
  unfold petDeps
  simp only [hc, a1, b1, c1, Option.bind_eq_bind, Option.bind_some]
  rfl

/-- C64. The front end always makes a program. It is a valid input of the automatic transformation; its statements are
the statements that are not left out, with the same instances (at least these if the domain has existentially
quantified variables), and with a dependence for every dependence found by isl. -/
theorem C64_program (ops : IslOps) (ho : ops.OK) (fo : FlowOps) (o : FlowOpts) (accs : Bool) (func : BMap → List (List Int)) (npar : Nat)
    (ps : List PetStmt) (hok : PetOK npar (petLive ps)) (hne : accs = true → ∀ s ∈ petLive ps, ∀ a ∈ s.reads ++ s.writes, a.parts ≠ [])
    (hn : ∀ d, computeDeps fo o true (petReads (petLive ps)) (petWrites (petLive ps)) (petTimes (petLive ps)) = some d → FlowNamesOK npar (petLive ps) d) :
    ∃ p ds, petToProg ops fo o accs func npar ps = some (p, ds) ∧ p.InputOK ∧ p.npar = npar ∧ p.deps = ds.map (·.dep) ∧
      p.stmts.length = (petLive ps).length ∧
      ∀ (i : Nat) (s : PetStmt), (petLive ps)[i]? = some s → ∃ st, p.stmts[i]? = some st ∧ st.dim = s.domain.nout ∧ ∀ x q : List Int, x.length = s.domain.nout → q.length = npar →
        (s.domain.Has [] x q → st.domain.Sat (x ++ q)) ∧ (s.domain.ndiv = 0 → st.domain.Sat (x ++ q) → s.domain.Has [] x q) := by
  obtain ⟨d, hc⟩ := computeDeps_some fo o (petReads (petLive ps)) (petWrites (petLive ps)) (petTimes (petLive ps))
  unfold petToProg
  set live := petLive ps with hl
  set rows := (live.map (·.sched.nout)).foldl max 0
  simp only
  set hyps := (if live.map (petStmt ops func npar rows) = [] then [] else
    (List.range ((ps.map (·.sched.nout)).foldl max 0)).map (fun i => if i % 2 = 1 then HypType.loop else .scalar))
  obtain ⟨ds, k1, k2⟩ := petDeps_ok ops ho fo o accs func npar rows live hok hne d hc (hn d hc) ((ps.map (·.domain.nout)).foldl max 0) [] hyps
  rw [k1]
  refine ⟨_, _, rfl, ⟨fun st hst => ?_, fun e he => ?_⟩, rfl, rfl, by simp, fun i s hs => ?_⟩
  · obtain ⟨s, hs, rfl⟩ := List.mem_map.mp hst
    obtain ⟨w1, w2, -⟩ := petStmt_dom ops ho func npar rows s (hok.domain s hs)
    refine ⟨rfl, ?_, rfl, w1, w2⟩
    exact le_foldl_max _ 0 _ (List.mem_map_of_mem (f := fun s : PetStmt => s.domain.nout) (petLive_sub ps s hs))
  · obtain ⟨e', he', rfl⟩ := List.mem_map.mp he
    obtain ⟨j, hj, rfl⟩ := List.mem_iff_getElem.mp he'
    obtain ⟨hlen, hall⟩ := List.forall₂_iff_get.mp k2
    obtain ⟨-, -, f1, f2, f3, f4⟩ := hall j (by omega) hj
    simp only [List.get_eq_getElem] at f1 f2 f3 f4
    refine ⟨by simpa using f3, by simpa using f4, ⟨f2.wf, f2.cols⟩, by rw [f1]; exact f2.wf, by rw [f1]; exact f2.cols⟩
  · have hsm := List.mem_of_getElem? hs
    refine ⟨petStmt ops func npar rows s, by rw [List.getElem?_map, hs]; rfl, rfl, ?_⟩
    exact (petStmt_dom ops ho func npar rows s (hok.domain s hsm)).2.2

/-- The same relation, for the program returned. -/
theorem petToProg_deps (ops : IslOps) (ho : ops.OK) (fo : FlowOps) (o : FlowOpts) (accs : Bool) (func : BMap → List (List Int)) (npar : Nat)
    (ps : List PetStmt) (hok : PetOK npar (petLive ps)) (hne : accs = true → ∀ s ∈ petLive ps, ∀ a ∈ s.reads ++ s.writes, a.parts ≠ [])
    (d : IslDeps) (hc : computeDeps fo o true (petReads (petLive ps)) (petWrites (petLive ps)) (petTimes (petLive ps)) = some d)
    (hn : FlowNamesOK npar (petLive ps) d) (p : Prog) (ds : List PetDep) (h : petToProg ops fo o accs func npar ps = some (p, ds)) :
    p.deps = ds.map (·.dep) ∧ List.Forall₂ (fun (d : IslDep) e => Extracted p d e ∧ AccsOf (petLive ps) accs d e) (d.raw ++ d.war ++ d.waw) ds := by
  unfold petToProg at h
  set live := petLive ps with hl
  set rows := (live.map (·.sched.nout)).foldl max 0
  simp only at h
  set hyps := (if live.map (petStmt ops func npar rows) = [] then [] else
    (List.range ((ps.map (·.sched.nout)).foldl max 0)).map (fun i => if i % 2 = 1 then HypType.loop else .scalar))
  obtain ⟨ds', k1, -⟩ := petDeps_ok ops ho fo o accs func npar rows live hok hne d hc hn ((ps.map (·.domain.nout)).foldl max 0) [] hyps
  obtain ⟨ds'', k1', k2⟩ := petDeps_ok ops ho fo o accs func npar rows live hok hne d hc hn ((ps.map (·.domain.nout)).foldl max 0) (ds'.map (·.dep)) hyps
  rw [k1] at h k1'
  cases k1'
  simp only [Option.bind_eq_bind, Option.bind_some, Option.pure_def, Option.some.injEq, Prod.mk.injEq] at h
  obtain ⟨rfl, rfl⟩ := h
  exact ⟨rfl, by refine List.Forall₂.imp ?_ k2; exact fun _ _ h => ⟨h.1, h.2.1⟩⟩

/-- Only finitely many named writes for finitely many instances. -/
theorem petWrites_finite {npar : Nat} {ps : List PetStmt} (hok : PetOK npar ps) (q : List Int) (hfin : {a | PetRuns ps q a}.Finite) (e : Pt) :
    {a | Touches (petWrites ps) q a e}.Finite := by
  have hK : ∀ s ∈ ps, s.writes.length ≤ (ps.map (·.writes.length)).foldl max 0 := fun s hs =>
    le_foldl_max _ 0 _ (List.mem_map_of_mem (f := fun s : PetStmt => s.writes.length) hs)
  refine ((hfin.prod (Set.finite_lt_nat ((ps.map (·.writes.length)).foldl max 0))).image (fun z => (accCode z.1.1 true z.2, z.1.2))).subset ?_
  intro a ha
  obtain ⟨i, k, s, c, h1, h2, h3, h4, b, hb, h5⟩ := touches_petWrites.mp ha
  have hsm := List.mem_of_getElem? h2
  have hk := (List.getElem?_eq_some_iff.mp h3).1
  refine ⟨((i, a.2), k), ⟨⟨s, h2, ?_⟩, lt_of_lt_of_le hk (hK s hsm)⟩, ?_⟩
  · exact hok.accs s hsm c (List.mem_append_right _ (List.mem_of_getElem? h3)) b hb _ _ _ h5
  · exact Prod.ext h1.symm rfl

/-- A related pair is a pair of named accesses to an element, in order. -/
theorem related_pet {npar : Nat} {ps : List PetStmt} (hok : PetOK npar ps) (fo : FlowOps) (o : FlowOpts) (hfo : fo.OK (petReads ps) (petWrites ps) (petTimes ps))
    (d : IslDeps) (hc : computeDeps fo o true (petReads ps) (petWrites ps) (petTimes ps) = some d) (q : List Int) (i j : Nat) (wi wj : Bool) (ki kj : Nat)
    (x y : List Int)
    (hr : Related d.raw q (accCode i wi ki, x) (accCode j wj kj, y) ∨ Related d.war q (accCode i wi ki, x) (accCode j wj kj, y) ∨
      Related d.waw q (accCode i wi ki, x) (accCode j wj kj, y)) :
    PetBefore ps q (i, x) (j, y) ∧ (wi = true ∨ wj = true) ∧ ∃ e : Pt, ∃ (s t : PetStmt) (a c : PetAcc) (b b' : BMap), ps[i]? = some s ∧ ps[j]? = some t ∧
      (if wi then s.writes else s.reads)[ki]? = some a ∧ (if wj then t.writes else t.reads)[kj]? = some c ∧ a.arr = e.1 ∧ c.arr = e.1 ∧
      b ∈ a.parts ∧ b' ∈ c.parts ∧ b.Has x e.2 q ∧ b'.Has y e.2 q := by
  have hw : ∀ (i : Nat) (w : Bool) (k : Nat) (x : List Int) (e : Pt), Touches (petWrites ps) q (accCode i w k, x) e → w = true ∧ ∃ (s : PetStmt) (a : PetAcc) (b : BMap),
      ps[i]? = some s ∧ s.writes[k]? = some a ∧ a.arr = e.1 ∧ b ∈ a.parts ∧ b.Has x e.2 q := by
    intro i w k x e h
    obtain ⟨i', k', s, a, h1, h2, h3, h4, b, hb, h5⟩ := touches_petWrites.mp h
    obtain ⟨rfl, rfl, rfl⟩ := accCode_inj h1
    exact ⟨rfl, s, a, b, h2, h3, h4, hb, h5⟩
  have hr' : ∀ (i : Nat) (w : Bool) (k : Nat) (x : List Int) (e : Pt), Touches (petReads ps) q (accCode i w k, x) e → w = false ∧ ∃ (s : PetStmt) (a : PetAcc) (b : BMap),
      ps[i]? = some s ∧ s.reads[k]? = some a ∧ a.arr = e.1 ∧ b ∈ a.parts ∧ b.Has x e.2 q := by
    intro i w k x e h
    obtain ⟨i', k', s, a, h1, h2, h3, h4, b, hb, h5⟩ := touches_petReads.mp h
    obtain ⟨rfl, rfl, rfl⟩ := accCode_inj h1
    exact ⟨rfl, s, a, b, h2, h3, h4, hb, h5⟩
  rcases C61_sound fo o true _ _ _ hfo d hc q _ _ hr with ⟨e, h1, h2, h3⟩ | ⟨e, h1, h2, h3⟩ | ⟨e, h1, h2, h3⟩
  · obtain ⟨rfl, s, a, b, g1, g2, g3, g4, g5⟩ := hw _ _ _ _ _ h1
    obtain ⟨rfl, t, c, b', f1, f2, f3, f4, f5⟩ := hr' _ _ _ _ _ h2
    exact ⟨before_named h3, .inl rfl, e, s, t, a, c, b, b', g1, f1, g2, f2, g3, f3, g4, f4, g5, f5⟩
  · obtain ⟨rfl, s, a, b, g1, g2, g3, g4, g5⟩ := hr' _ _ _ _ _ h1
    obtain ⟨rfl, t, c, b', f1, f2, f3, f4, f5⟩ := hw _ _ _ _ _ h2
    exact ⟨before_named h3, .inr rfl, e, s, t, a, c, b, b', g1, f1, g2, f2, g3, f3, g4, f4, g5, f5⟩
  · obtain ⟨rfl, s, a, b, g1, g2, g3, g4, g5⟩ := hw _ _ _ _ _ h1
    obtain ⟨rfl, t, c, b', f1, f2, f3, f4, f5⟩ := hw _ _ _ _ _ h2
    exact ⟨before_named h3, .inl rfl, e, s, t, a, c, b, b', g1, f1, g2, f2, g3, f3, g4, f4, g5, f5⟩

/-- C64. No conflict is lost: if an instance writes an element and another one reads or writes it, or the other way
round, then the later one depends on the earlier one through a chain of dependences of the program. -/
theorem C64_complete (ops : IslOps) (ho : ops.OK) (fo : FlowOps) (o : FlowOpts) (accs : Bool) (func : BMap → List (List Int)) (npar : Nat)
    (ps : List PetStmt) (hok : PetOK npar (petLive ps)) (hne : accs = true → ∀ s ∈ petLive ps, ∀ a ∈ s.reads ++ s.writes, a.parts ≠ [])
    (hfo : fo.OK (petReads (petLive ps)) (petWrites (petLive ps)) (petTimes (petLive ps)))
    (hn : ∀ d, computeDeps fo o true (petReads (petLive ps)) (petWrites (petLive ps)) (petTimes (petLive ps)) = some d → FlowNamesOK npar (petLive ps) d)
    (p : Prog) (ds : List PetDep) (h : petToProg ops fo o accs func npar ps = some (p, ds)) (q : List Int) (hfin : {a | PetRuns (petLive ps) q a}.Finite)
    (a b : Pt) (hb : PetBefore (petLive ps) q a b) (hc : PetConflict (petLive ps) q a b) : PetChain (petLive ps) p q a b := by
  obtain ⟨d, hcd⟩ := computeDeps_some fo o (petReads (petLive ps)) (petWrites (petLive ps)) (petTimes (petLive ps))
  obtain ⟨e1, e2⟩ := petToProg_deps ops ho fo o accs func npar ps hok hne d hcd (hn d hcd) p ds h
  set live := petLive ps
  -- the conflict between named accesses
  obtain ⟨wa, ka, wb, kb, hC⟩ : ∃ wa ka wb kb, Conflict (petWrites live) (petReads live) (petTimes live) q (accCode a.1 wa ka, a.2) (accCode b.1 wb kb, b.2) ∨
      Conflict (petReads live) (petWrites live) (petTimes live) q (accCode a.1 wa ka, a.2) (accCode b.1 wb kb, b.2) ∨
      Conflict (petWrites live) (petWrites live) (petTimes live) q (accCode a.1 wa ka, a.2) (accCode b.1 wb kb, b.2) := by
    obtain ⟨e, ⟨h1, h2 | h2⟩ | ⟨h1, h2⟩⟩ := hc
    · obtain ⟨k, s, g1, g2, g3⟩ := petWritesElem_named h1
      obtain ⟨k', t, f1, f2, f3⟩ := petReadsElem_named h2
      exact ⟨true, k, false, k', .inl ⟨e, g3, f3, named_before hb g1 f1 (by simpa using g2) (by simpa using f2)⟩⟩
    · obtain ⟨k, s, g1, g2, g3⟩ := petWritesElem_named h1
      obtain ⟨k', t, f1, f2, f3⟩ := petWritesElem_named h2
      exact ⟨true, k, true, k', .inr (.inr ⟨e, g3, f3, named_before hb g1 f1 (by simpa using g2) (by simpa using f2)⟩)⟩
    · obtain ⟨k, s, g1, g2, g3⟩ := petReadsElem_named h1
      obtain ⟨k', t, f1, f2, f3⟩ := petWritesElem_named h2
      exact ⟨false, k, true, k', .inr (.inl ⟨e, g3, f3, named_before hb g1 f1 (by simpa using g2) (by simpa using f2)⟩)⟩
  have hch := C61_complete fo o true _ _ _ hfo d hcd q (fun p t t' => petTimes_unique hok q p t t') (petWrites_finite hok q hfin) _ _ hC
  -- links between named accesses are links between instances
  have key : ∀ x y, Relation.TransGen (fun a b => Related d.raw q a b ∨ Related d.war q a b ∨ Related d.waw q a b) x y →
      PetChain live p q ((Nat.unpair x.1).1, x.2) ((Nat.unpair y.1).1, y.2) := by
    intro x y hxy
    have link : ∀ x y, (Related d.raw q x y ∨ Related d.war q x y ∨ Related d.waw q x y) →
        PetRuns live q ((Nat.unpair x.1).1, x.2) ∧ PetRuns live q ((Nat.unpair y.1).1, y.2) ∧
        ∃ e ∈ p.deps, e.rar = false ∧ e.src = (Nat.unpair x.1).1 ∧ e.dest = (Nat.unpair y.1).1 ∧ p.Inst e x.2 y.2 q := by
      intro x y hr
      obtain ⟨m, hm, m1, m2, m3⟩ : ∃ m ∈ d.raw ++ d.war ++ d.waw, m.src = x.1 ∧ m.dest = y.1 ∧ m.rel.Has x.2 y.2 q := by
        rcases hr with ⟨m, hm, r⟩ | ⟨m, hm, r⟩ | ⟨m, hm, r⟩
        · exact ⟨m, by simp [hm], r⟩
        · exact ⟨m, by simp [hm], r⟩
        · exact ⟨m, by simp [hm], r⟩
      obtain ⟨i, j, wi, wj, ki, kj, c1, c2⟩ : ∃ i j wi wj ki kj, m.src = accCode i wi ki ∧ m.dest = accCode j wj kj := by
        obtain ⟨n1, n2, n3⟩ := hn d hcd
        rcases List.mem_append.mp hm with hm | hm
        · rcases List.mem_append.mp hm with hm | hm
          · obtain ⟨-, -, i, j, wi, wj, ki, kj, s, t, c1, c2, -⟩ := n1 m hm
            exact ⟨i, j, wi, wj, ki, kj, c1, c2⟩
          · obtain ⟨-, -, i, j, wi, wj, ki, kj, s, t, c1, c2, -⟩ := n2 m hm
            exact ⟨i, j, wi, wj, ki, kj, c1, c2⟩
        · obtain ⟨-, -, i, j, wi, wj, ki, kj, s, t, c1, c2, -⟩ := n3 m hm
          exact ⟨i, j, wi, wj, ki, kj, c1, c2⟩
      obtain ⟨n, hn', rfl⟩ := List.mem_iff_getElem.mp hm
      obtain ⟨hlen, hall⟩ := List.forall₂_iff_get.mp e2
      obtain ⟨ex, -⟩ := hall n hn' (by omega)
      simp only [List.get_eq_getElem] at ex
      have hb' : PetBefore live q ((Nat.unpair x.1).1, x.2) ((Nat.unpair y.1).1, y.2) := by
        have hr' := hr
        rw [show x = (accCode i wi ki, x.2) from Prod.ext (m1.symm.trans c1) rfl, show y = (accCode j wj kj, y.2) from Prod.ext (m2.symm.trans c2) rfl] at hr'
        have := (related_pet hok fo o hfo d hcd q i j wi wj ki kj x.2 y.2 hr').1
        rw [← m1, ← m2, c1, c2, accCode_unpair, accCode_unpair]
        exact this
      obtain ⟨S, T, u, v, b1, b2, b3, b4, -⟩ := hb'
      refine ⟨⟨S, b1, (hok.sched S (List.mem_of_getElem? b1) _ _ _ b3).1⟩, ⟨T, b2, (hok.sched T (List.mem_of_getElem? b2) _ _ _ b4).1⟩, ?_⟩
      refine ⟨ds[n].dep, by rw [e1]; exact List.mem_map_of_mem (List.getElem_mem _), ex.rar, ?_, ?_, ex.inst _ _ _ m3⟩
      · rw [ex.src, ← m1, c1, codeName_accCode, nameStmt_accName, accCode_unpair]
      · rw [ex.dest, ← m2, c2, codeName_accCode, nameStmt_accName, accCode_unpair]
    induction hxy with
    | single hr => exact .single (link _ _ hr)
    | tail _ hr ih => exact .tail ih (link _ _ hr)
  have := key _ _ hch
  simpa [accCode_unpair] using this

/-- C64. Nothing is added: a dependence of the program, if isl describes it without existentially quantified variables,
relates only instances of which one writes what the other reads or writes, in the order in which they run. -/
theorem C64_sound (ops : IslOps) (ho : ops.OK) (fo : FlowOps) (o : FlowOpts) (accs : Bool) (func : BMap → List (List Int)) (npar : Nat)
    (ps : List PetStmt) (hok : PetOK npar (petLive ps)) (hne : accs = true → ∀ s ∈ petLive ps, ∀ a ∈ s.reads ++ s.writes, a.parts ≠ [])
    (hfo : fo.OK (petReads (petLive ps)) (petWrites (petLive ps)) (petTimes (petLive ps)))
    (hn : ∀ d, computeDeps fo o true (petReads (petLive ps)) (petWrites (petLive ps)) (petTimes (petLive ps)) = some d → FlowNamesOK npar (petLive ps) d)
    (hdiv : ∀ d, computeDeps fo o true (petReads (petLive ps)) (petWrites (petLive ps)) (petTimes (petLive ps)) = some d →
      ∀ m ∈ d.raw ++ d.war ++ d.waw, m.rel.ndiv = 0)
    (p : Prog) (ds : List PetDep) (h : petToProg ops fo o accs func npar ps = some (p, ds)) (e : PetDep) (he : e ∈ ds) (s t q : List Int)
    (hi : p.Inst e.dep s t q) :
    PetBefore (petLive ps) q (e.dep.src, s) (e.dep.dest, t) ∧ PetConflict (petLive ps) q (e.dep.src, s) (e.dep.dest, t) ∧
    (accs = true → (∀ s ∈ petLive ps, ∀ a ∈ s.reads ++ s.writes, a.parts.length = 1) →
      ∃ (S T : PetStmt) (arr : Nat) (b b' : BMap) (x : List Int), (petLive ps)[e.dep.src]? = some S ∧ (petLive ps)[e.dep.dest]? = some T ∧
        e.srcAcc = some (arr, b) ∧ e.destAcc = some (arr, b') ∧ b.Has s x q ∧ b'.Has t x q ∧
        (e.type = .raw ∧ (arr, b) ∈ stmtWrites S ∧ (arr, b') ∈ stmtReads T ∨ e.type = .war ∧ (arr, b) ∈ stmtReads S ∧ (arr, b') ∈ stmtWrites T ∨
          e.type = .waw ∧ (arr, b) ∈ stmtWrites S ∧ (arr, b') ∈ stmtWrites T)) := by
  obtain ⟨d, hcd⟩ := computeDeps_some fo o (petReads (petLive ps)) (petWrites (petLive ps)) (petTimes (petLive ps))
  obtain ⟨e1, e2⟩ := petToProg_deps ops ho fo o accs func npar ps hok hne d hcd (hn d hcd) p ds h
  set live := petLive ps
  obtain ⟨n, hn', rfl⟩ := List.mem_iff_getElem.mp he
  obtain ⟨hlen, hall⟩ := List.forall₂_iff_get.mp e2
  obtain ⟨ex, ac⟩ := hall n (by omega) hn'
  simp only [List.get_eq_getElem] at ex ac
  have hm : (d.raw ++ d.war ++ d.waw)[n]'(by omega) ∈ d.raw ++ d.war ++ d.waw := List.getElem_mem _
  generalize (d.raw ++ d.war ++ d.waw)[n]'(by omega) = m at ex ac hm
  generalize ds[n] = e at ex ac hi ⊢
  have hh := ex.exact (hdiv d hcd m hm) s t q hi
  obtain ⟨i, j, wi, wj, ki, kj, c1, c2⟩ : ∃ i j wi wj ki kj, m.src = accCode i wi ki ∧ m.dest = accCode j wj kj := by
    obtain ⟨n1, n2, n3⟩ := hn d hcd
    rcases List.mem_append.mp hm with hm | hm
    · rcases List.mem_append.mp hm with hm | hm
      · obtain ⟨-, -, i, j, wi, wj, ki, kj, s, t, c1, c2, -⟩ := n1 m hm
        exact ⟨i, j, wi, wj, ki, kj, c1, c2⟩
      · obtain ⟨-, -, i, j, wi, wj, ki, kj, s, t, c1, c2, -⟩ := n2 m hm
        exact ⟨i, j, wi, wj, ki, kj, c1, c2⟩
    · obtain ⟨-, -, i, j, wi, wj, ki, kj, s, t, c1, c2, -⟩ := n3 m hm
      exact ⟨i, j, wi, wj, ki, kj, c1, c2⟩
  have hsrc : e.dep.src = i := by rw [ex.src, c1, codeName_accCode, nameStmt_accName]
  have hdest : e.dep.dest = j := by rw [ex.dest, c2, codeName_accCode, nameStmt_accName]
  have hrel : Related d.raw q (accCode i wi ki, s) (accCode j wj kj, t) ∨ Related d.war q (accCode i wi ki, s) (accCode j wj kj, t) ∨
      Related d.waw q (accCode i wi ki, s) (accCode j wj kj, t) := by
    rcases List.mem_append.mp hm with hm | hm
    · rcases List.mem_append.mp hm with hm | hm
      · exact .inl ⟨m, hm, c1, c2, hh⟩
      · exact .inr (.inl ⟨m, hm, c1, c2, hh⟩)
    · exact .inr (.inr ⟨m, hm, c1, c2, hh⟩)
  obtain ⟨hbef, hkind, el, S, T, a, c, b, b', g1, g2, g3, g4, g5, g6, g7, g8, g9, g10⟩ := related_pet hok fo o hfo d hcd q i j wi wj ki kj s t hrel
  rw [hsrc, hdest]
  refine ⟨hbef, ?_, fun hacc h1 => ?_⟩
  · have ha := List.mem_of_getElem? g3
    have hc' := List.mem_of_getElem? g4
    refine ⟨el, ?_⟩
    cases wi with
    | true =>
      refine .inl ⟨⟨S, g1, a, ha, g5, b, g7, g9⟩, ?_⟩
      cases wj with
      | true => exact .inr ⟨T, g2, c, hc', g6, b', g8, g10⟩
      | false => exact .inl ⟨T, g2, c, hc', g6, b', g8, g10⟩
    | false =>
      obtain rfl : wj = true := by simpa using hkind
      exact .inr ⟨⟨S, g1, a, ha, g5, b, g7, g9⟩, ⟨T, g2, c, hc', g6, b', g8, g10⟩⟩
  · obtain ⟨t1, t2, t3⟩ := ac.acc hacc i j wi wj ki kj S T c1 c2 g1 g2
    have hS := List.mem_of_getElem? g1
    have hT := List.mem_of_getElem? g2
    have f1 : (if wi then stmtWrites S else stmtReads S)[ki]? = some (a.arr, b) := by
      cases wi with
      | true => exact flat_single _ (fun x hx => h1 S hS x (List.mem_append_right _ hx)) ki a b g3 g7
      | false => exact flat_single _ (fun x hx => h1 S hS x (List.mem_append_left _ hx)) ki a b g3 g7
    have f2 : (if wj then stmtWrites T else stmtReads T)[kj]? = some (c.arr, b') := by
      cases wj with
      | true => exact flat_single _ (fun x hx => h1 T hT x (List.mem_append_right _ hx)) kj c b' g4 g8
      | false => exact flat_single _ (fun x hx => h1 T hT x (List.mem_append_left _ hx)) kj c b' g4 g8
    refine ⟨S, T, el.1, b, b', el.2, g1, g2, by rw [t1, f1, g5], by rw [t2, f2, g6], g9, g10, ?_⟩
    have m1 := List.mem_of_getElem? f1
    have m2 := List.mem_of_getElem? f2
    rw [g5] at m1
    rw [g6] at m2
    cases wi with
    | true =>
      cases wj with
      | true => exact .inr (.inr ⟨t3, m1, m2⟩)
      | false => exact .inl ⟨t3, m1, m2⟩
    | false =>
      obtain rfl : wj = true := by simpa using hkind
      exact .inr (.inl ⟨t3, m1, m2⟩)

end Pluto
