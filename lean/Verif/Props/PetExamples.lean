import Verif.Props.ParallelRun
import Verif.Props.FlowSchedule

/-! C64: where the program made from a scop differs from it; C64 and C65 on an example. -/

namespace Pluto

/-! ### Loops with strides -/

/-- `for (i = 0; i <= 2; i += 2) A[i] = 0;`: the domain is `{ [i] : 0 <= i <= 2 and exists e: i = 2 e }`. -/
def strideStmt : PetStmt :=
  ⟨⟨0, 1, 1, 0, [[1, -2, 0]], [[1, 0, 0], [-1, 0, 2]]⟩, ⟨1, 1, 1, 0, [[1, 0, -2, 0], [1, -1, 0, 0]], [[1, 0, 0, 0], [-1, 0, 0, 2]]⟩, [],
    [⟨0, [⟨1, 1, 1, 0, [[1, 0, -2, 0], [1, -1, 0, 0]], [[1, 0, 0, 0], [-1, 0, 0, 2]]⟩]⟩], none⟩

theorem stride_has (x : List Int) (q : List Int) : strideStmt.domain.Has [] x q ↔ q = [] ∧ (x = [0] ∨ x = [2]) := by
  unfold strideStmt BMap.Has
  simp only
  constructor
  · rintro ⟨-, h2, h3, z, h4, h5, h6⟩
    obtain ⟨i, rfl⟩ := List.length_eq_one_iff.mp h2
    obtain rfl := List.length_eq_zero_iff.mp h3
    obtain ⟨e, rfl⟩ := List.length_eq_one_iff.mp h4
    simp [aff, dot] at h5 h6
    refine ⟨rfl, ?_⟩
    have : i = 0 ∨ i = 2 := by omega
    rcases this with rfl | rfl <;> simp
  · rintro ⟨rfl, rfl | rfl⟩
    · exact ⟨rfl, rfl, rfl, [0], rfl, by decide, by decide⟩
    · exact ⟨rfl, rfl, rfl, [1], rfl, by decide, by decide⟩

theorem stride_time (x t q : List Int) : strideStmt.sched.Has x t q ↔ strideStmt.domain.Has [] x q ∧ t = x := by
  unfold strideStmt BMap.Has
  simp only
  constructor
  · rintro ⟨h1, h2, h3, z, h4, h5, h6⟩
    obtain ⟨i, rfl⟩ := List.length_eq_one_iff.mp h1
    obtain ⟨j, rfl⟩ := List.length_eq_one_iff.mp h2
    obtain rfl := List.length_eq_zero_iff.mp h3
    obtain ⟨e, rfl⟩ := List.length_eq_one_iff.mp h4
    simp [aff, dot] at h5 h6
    refine ⟨⟨rfl, rfl, rfl, [e], rfl, ?_, ?_⟩, by congr 1; omega⟩ <;> simp [aff, dot] <;> omega
  · rintro ⟨⟨-, h2, h3, z, h4, h5, h6⟩, rfl⟩
    obtain ⟨i, rfl⟩ := List.length_eq_one_iff.mp h2
    obtain rfl := List.length_eq_zero_iff.mp h3
    obtain ⟨e, rfl⟩ := List.length_eq_one_iff.mp h4
    simp [aff, dot] at h5 h6
    refine ⟨rfl, rfl, rfl, [e], rfl, ?_, ?_⟩ <;> simp [aff, dot] <;> omega

theorem stride_ok : PetOK 0 (petLive [strideStmt]) := by
  have e : petLive [strideStmt] = [strideStmt] := by decide
  rw [e]
  refine ⟨fun s hs => ?_, fun s hs x q t h => ?_, fun s hs x q h => ?_, fun s hs a ha b hb x e q h => ?_⟩ <;> obtain rfl := List.mem_singleton.mp hs
  · exact ⟨⟨by decide, by decide⟩, rfl, rfl⟩
  · exact ⟨((stride_time _ _ _).mp h).1, fun u hu => ((stride_time _ _ _).mp hu).2.trans ((stride_time _ _ _).mp h).2.symm⟩
  · exact ⟨x, (stride_time _ _ _).mpr ⟨h, rfl⟩⟩
  · have hb' : b = strideStmt.sched := by
      simp [strideStmt] at ha
      subst ha
      simp at hb
      exact hb
    subst hb'
    exact ((stride_time _ _ _).mp h).1

/-- C64 is violated for loops with strides: the statement of the program also has the instance 1, which is not an
instance of the source statement. (The domain is stored without the existentially quantified variable, so it
contains all integers between two of its points, whatever `isl_basic_set_remove_divs` does.) -/
theorem C64_violated_stride : ∃ (ps : List PetStmt), PetOK 0 (petLive ps) ∧ ∀ (ops : IslOps), ops.OK → ∀ fo o accs func p ds,
    petToProg ops fo o accs func 0 ps = some (p, ds) →
      ∃ st, p.stmts[0]? = some st ∧ st.dim = 1 ∧ st.domain.Sat [(1 : Int)] ∧ ¬ PetRuns (petLive ps) [] (0, [1]) := by
  refine ⟨[strideStmt], stride_ok, fun ops ho fo o accs func p ds h => ?_⟩
  have e : petLive [strideStmt] = [strideStmt] := by decide
  unfold petToProg at h
  simp only [e, Option.bind_eq_bind, Option.bind_eq_some_iff, pure, Option.some.injEq, Prod.mk.injEq] at h
  obtain ⟨ds', -, rfl, rfl⟩ := h
  refine ⟨_, rfl, rfl, ?_, ?_⟩
  · obtain ⟨w1, w2, w3⟩ := petStmt_dom ops ho func 0 (([strideStmt].map (·.sched.nout)).foldl max 0) strideStmt
      (stride_ok.domain _ (by rw [e]; simp))
    have s0 := (w3 [0] [] rfl rfl).1 ((stride_has _ _).mpr ⟨rfl, .inl rfl⟩)
    have s2 := (w3 [2] [] rfl rfl).1 ((stride_has _ _).mpr ⟨rfl, .inr rfl⟩)
    intro r hr
    have r0 := s0 r hr
    have r2 := s2 r hr
    have hl : r.val.length = 2 := (w1.2 r hr).trans w2
    obtain ⟨a, b, hab⟩ := List.length_eq_two.mp hl
    unfold Row.Sat at r0 r2 ⊢
    rw [hab] at r0 r2 ⊢
    simp only [aff, dot, List.append_nil, List.cons_append, List.nil_append] at r0 r2 ⊢
    split_ifs at r0 r2 ⊢ <;> simp at r0 r2 ⊢ <;> omega
  · rw [e]
    rintro ⟨s, hs, hx⟩
    cases hs
    have := ((stride_has _ _).mp hx).2
    simp at this

/-! ### Dead code -/

/-- `{ int t; t = A; B = t; }` as pet gives it, with a statement that kills `t` (array 0; 1 is `A`, 2 is `B`). -/
def deadScop : List PetStmt :=
  [⟨⟨0, 0, 0, 0, [], []⟩, ⟨0, 1, 0, 0, [[1, 0]], []⟩, [], [], some [0]⟩,
   ⟨⟨0, 0, 0, 0, [], []⟩, ⟨0, 1, 0, 0, [[1, -1]], []⟩, [⟨1, [⟨0, 0, 0, 0, [], []⟩]⟩], [⟨0, [⟨0, 0, 0, 0, [], []⟩]⟩], none⟩,
   ⟨⟨0, 0, 0, 0, [], []⟩, ⟨0, 1, 0, 0, [[1, -2]], []⟩, [⟨0, [⟨0, 0, 0, 0, [], []⟩]⟩], [⟨2, [⟨0, 0, 0, 0, [], []⟩]⟩], none⟩]

theorem unit_has (x y q : List Int) : (⟨0, 0, 0, 0, [], []⟩ : BMap).Has x y q ↔ x = [] ∧ y = [] ∧ q = [] := by
  unfold BMap.Has
  simp only [List.length_eq_zero_iff]
  constructor
  · rintro ⟨a, b, c, -⟩; exact ⟨a, b, c⟩
  · rintro ⟨a, b, c⟩; exact ⟨a, b, c, [], rfl, by simp, by simp⟩

theorem const_has (k : Int) (x t q : List Int) : (⟨0, 1, 0, 0, [[1, -k]], []⟩ : BMap).Has x t q ↔ x = [] ∧ t = [k] ∧ q = [] := by
  unfold BMap.Has
  simp only [List.length_eq_zero_iff]
  constructor
  · rintro ⟨rfl, b, rfl, z, rfl, h, -⟩
    obtain ⟨i, rfl⟩ := List.length_eq_one_iff.mp b
    simp [aff, dot] at h
    exact ⟨rfl, by congr 1; omega, rfl⟩
  · rintro ⟨rfl, rfl, rfl⟩; exact ⟨rfl, rfl, rfl, [], rfl, by simp [aff, dot], by simp⟩

theorem dead_ok : PetOK 0 deadScop := by
  refine ⟨fun s hs => ?_, fun s hs x q t h => ?_, fun s hs x q h => ?_, fun s hs a ha b hb x e q h => ?_⟩ <;>
    simp only [deadScop, List.mem_cons, List.not_mem_nil, or_false] at hs
  · rcases hs with rfl | rfl | rfl <;> exact ⟨⟨by decide, by decide⟩, rfl, rfl⟩
  · rcases hs with rfl | rfl | rfl
    · have := (const_has 0 x t q).mp h
      exact ⟨(unit_has _ _ _).mpr ⟨rfl, this.1, this.2.2⟩, fun u hu => ((const_has 0 x u q).mp hu).2.1.trans this.2.1.symm⟩
    · have := (const_has 1 x t q).mp h
      exact ⟨(unit_has _ _ _).mpr ⟨rfl, this.1, this.2.2⟩, fun u hu => ((const_has 1 x u q).mp hu).2.1.trans this.2.1.symm⟩
    · have := (const_has 2 x t q).mp h
      exact ⟨(unit_has _ _ _).mpr ⟨rfl, this.1, this.2.2⟩, fun u hu => ((const_has 2 x u q).mp hu).2.1.trans this.2.1.symm⟩
  · rcases hs with rfl | rfl | rfl
    · obtain ⟨-, rfl, rfl⟩ := (unit_has _ _ _).mp h
      exact ⟨[0], (const_has 0 _ _ _).mpr ⟨rfl, rfl, rfl⟩⟩
    · obtain ⟨-, rfl, rfl⟩ := (unit_has _ _ _).mp h
      exact ⟨[1], (const_has 1 _ _ _).mpr ⟨rfl, rfl, rfl⟩⟩
    · obtain ⟨-, rfl, rfl⟩ := (unit_has _ _ _).mp h
      exact ⟨[2], (const_has 2 _ _ _).mpr ⟨rfl, rfl, rfl⟩⟩
  · have hb' : b = ⟨0, 0, 0, 0, [], []⟩ := by
      rcases hs with rfl | rfl | rfl
      · simp at ha
      · simp at ha
        rcases ha with rfl | rfl <;> simpa using hb
      · simp at ha
        rcases ha with rfl | rfl <;> simpa using hb
    subst hb'
    obtain ⟨rfl, -, rfl⟩ := (unit_has _ _ _).mp h
    rcases hs with rfl | rfl | rfl <;> exact (unit_has _ _ _).mpr ⟨rfl, rfl, rfl⟩

/-- C64 is violated by the removal of dead code: a statement that writes a local variable is removed although a later
statement, which is kept, reads the value it writes. The program has a statement that reads the variable, and
none that writes it. -/
theorem C64_violated_dead : ∃ (ps : List PetStmt) (e : Pt), PetOK 0 ps ∧
    (∃ s t, ps[1]? = some s ∧ ps[2]? = some t ∧ s.kill = none ∧ petLive ps = [t]) ∧
    PetWritesElem ps [] (1, []) e ∧ PetReadsElem ps [] (2, []) e ∧ PetBefore ps [] (1, []) (2, []) ∧
    PetReadsElem (petLive ps) [] (0, []) e ∧ ∀ q a, ¬ PetWritesElem (petLive ps) q a e := by
  have hu := (unit_has [] [] []).mpr ⟨rfl, rfl, rfl⟩
  refine ⟨deadScop, (0, []), dead_ok, ⟨_, _, rfl, rfl, rfl, by decide⟩, ⟨_, rfl, _, List.mem_singleton.mpr rfl, rfl, _, List.mem_singleton.mpr rfl, hu⟩,
    ⟨_, rfl, _, List.mem_singleton.mpr rfl, rfl, _, List.mem_singleton.mpr rfl, hu⟩,
    ⟨_, _, [1], [2], rfl, rfl, (const_has 1 _ _ _).mpr ⟨rfl, rfl, rfl⟩, (const_has 2 _ _ _).mpr ⟨rfl, rfl, rfl⟩, 0, 1, 2, rfl, rfl, by decide, by simp⟩, ?_, ?_⟩
  · have e : petLive deadScop = [deadScop[2]] := by decide
    rw [e]
    exact ⟨_, rfl, _, List.mem_singleton.mpr rfl, rfl, _, List.mem_singleton.mpr rfl, hu⟩
  · have e : petLive deadScop = [deadScop[2]] := by decide
    rw [e]
    rintro q a ⟨s, hs, w, hw, hwa, -⟩
    have := List.mem_singleton.mp (List.mem_of_getElem? hs)
    subst this
    have := List.mem_singleton.mp hw
    subst this
    exact absurd hwa (by decide)

/-! ### Numbers of accesses -/

/-- `B[i] = A[i - 1] + A[i + 1] + B[i]` (array 0 is `A`, 1 is `B`), one loop with one parameter. The reads of `A`
are one map with two basic maps. -/
def accStmt : PetStmt :=
  ⟨⟨0, 1, 0, 1, [], [[1, 0, 0], [-1, 1, -1]]⟩, ⟨1, 1, 0, 1, [[1, -1, 0, 0]], [[1, 0, 0, 0], [-1, 0, 1, -1]]⟩,
    [⟨0, [⟨1, 1, 0, 1, [[1, -1, 0, -1]], [[1, 0, 0, 0], [-1, 0, 1, -1]]⟩, ⟨1, 1, 0, 1, [[1, -1, 0, 1]], [[1, 0, 0, 0], [-1, 0, 1, -1]]⟩]⟩,
     ⟨1, [⟨1, 1, 0, 1, [[1, -1, 0, 0]], [[1, 0, 0, 0], [-1, 0, 1, -1]]⟩]⟩],
    [⟨1, [⟨1, 1, 0, 1, [[1, -1, 0, 0]], [[1, 0, 0, 0], [-1, 0, 1, -1]]⟩]⟩], none⟩

/-- C64: the accesses recorded for a dependence can be wrong: for the dependence from the write of `B` to the read of
`B` (number 1 among the maps of reads) the target access is one of `A`. -/
theorem C64_violated_access : ∃ (ps : List PetStmt) (stmts : List Stmt) (d : IslDep) (e : PetDep),
    ps.length = 1 ∧ d.src = accCode 0 true 0 ∧ d.dest = accCode 0 false 1 ∧ (∃ s ∈ ps, s.reads[1]?.map (·.arr) = some 1 ∧ s.writes[0]?.map (·.arr) = some 1) ∧
    petExtractDep simpleOps true ps stmts .raw d = some e ∧ e.srcAcc.map (·.1) = some 1 ∧ e.destAcc.map (·.1) = some 0 := by
  have h : (petExtractDep simpleOps true [accStmt] [petStmt simpleOps (fun _ => []) 1 0 accStmt] .raw
      ⟨accCode 0 true 0, accCode 0 false 1, ⟨1, 1, 0, 1, [[1, -1, 0, 0]], []⟩⟩).map (fun e => (e.srcAcc.map (·.1), e.destAcc.map (·.1))) = some (some 1, some 0) := by
    decide +kernel
  obtain ⟨e, he, hee⟩ := Option.map_eq_some_iff.mp h
  simp only [Prod.mk.injEq] at hee
  exact ⟨[accStmt], _, _, e, rfl, rfl, rfl, ⟨accStmt, by simp, rfl, rfl⟩, he, hee.1, hee.2⟩

/-! ### The context of code generation -/

/-- C64. With the option `codegen-context` code is generated for parameters that are at least as large as given (for
-1, the default, for all parameters). -/
theorem C64_context (npar : Nat) (c : Int) (q : List Int) (hq : q.length = npar) :
    (codegenContext npar c).WF ∧ (codegenContext npar c).ncols = npar + 1 ∧ ((codegenContext npar c).Sat q ↔ c = -1 ∨ ∀ v ∈ q, c ≤ v) := by
  have key : ∀ (n : Nat) (i : Nat) (q : List Int), q.length = n → i < n → dot ((List.replicate n (0 : Int)).set i 1) q = q[i]?.getD 0 := by
    intro n
    induction n with
    | zero => intro i q _ h; omega
    | succ n ih =>
      intro i q hq hi
      match q, hq with
      | v :: q, hq =>
        cases i with
        | zero =>
          have : dot (List.replicate n (0 : Int)) q = 0 := by rw [← zrow, dot_zrow]
          simp [List.replicate_succ, dot, this]
        | succ i =>
          have := ih i q (by simpa using hq) (by omega)
          simpa [List.replicate_succ, dot] using this
  unfold codegenContext
  by_cases hc : c = -1
  · rw [if_pos hc]
    exact ⟨⟨by simp, by simp⟩, rfl, by simp [hc, Cst.Sat]⟩
  · rw [if_neg hc]
    refine ⟨⟨by simp, fun r hr => ?_⟩, rfl, ?_⟩
    · obtain ⟨i, -, rfl⟩ := List.mem_map.mp hr
      simp
    · have row : ∀ i, i < npar → (Row.Sat ⟨false, (List.replicate npar 0).set i 1 ++ [-c]⟩ q ↔ c ≤ q[i]?.getD 0) := by
        intro i hi
        unfold Row.Sat aff
        simp only [Bool.false_eq_true, if_false]
        rw [dot_append _ _ _ _ (by simp [hq]), key npar i q hq hi]
        simp [dot]
      constructor
      · intro h
        refine .inr fun v hv => ?_
        obtain ⟨i, hi, rfl⟩ := List.mem_iff_getElem.mp hv
        have := (row i (by omega)).mp (h _ (List.mem_map.mpr ⟨i, by simp; omega, rfl⟩))
        simpa [hi] using this
      · rintro (h | h)
        · exact absurd h hc
        · intro r hr
          obtain ⟨i, hi, rfl⟩ := List.mem_map.mp hr
          have hi : i < npar := by simpa using hi
          refine (row i hi).mpr ?_
          have hi' : i < q.length := by omega
          simpa [hi'] using h _ (List.getElem_mem hi')

/-! ### Example: `for (i = 0; i < N; i++) A[i + 1] = A[i];` -/

def chainStmt : PetStmt :=
  ⟨⟨0, 1, 0, 1, [], [[1, 0, 0], [-1, 1, -1]]⟩, ⟨1, 1, 0, 1, [[-1, 1, 0, 0]], [[1, 0, 0, 0], [-1, 0, 1, -1]]⟩,
    [⟨0, [⟨1, 1, 0, 1, [[-1, 1, 0, 0]], [[1, 0, 0, 0], [-1, 0, 1, -1]]⟩]⟩],
    [⟨0, [⟨1, 1, 0, 1, [[-1, 1, 0, -1]], [[1, 0, 0, 0], [-1, 0, 1, -1]]⟩]⟩], none⟩

/-- From the write of an iteration to the read of the next. -/
def chainNext : IslDep := ⟨accCode 0 true 0, accCode 0 false 0, ⟨1, 1, 0, 1, [[-1, 1, 0, -1]], [[1, 0, 0, 0], [0, -1, 1, -1]]⟩⟩

/-- Answers of isl for the example. -/
def chainOps : FlowOps where
  flow sink must may _ :=
    if sink = petReads [chainStmt] then
      if must = petWrites [chainStmt] then ([chainNext], []) else if may = petWrites [chainStmt] then ([], [chainNext]) else ([], [])
    else ([], [])
  coalesce ds := ds
  union ds ds' := ds ++ ds'
  domain _ := []
  intersectDomain ms _ := ms

theorem chain_live : petLive [chainStmt] = [chainStmt] := by decide

theorem shift_has (k : Int) (x y q : List Int) : (⟨1, 1, 0, 1, [[-1, 1, 0, -k]], [[1, 0, 0, 0], [-1, 0, 1, -1]]⟩ : BMap).Has x y q ↔
    ∃ i n, q = [n] ∧ x = [i] ∧ y = [i + k] ∧ 0 ≤ i ∧ i < n := by
  unfold BMap.Has
  simp only
  constructor
  · rintro ⟨h1, h2, h3, z, h4, h5, h6⟩
    obtain ⟨i, rfl⟩ := List.length_eq_one_iff.mp h1
    obtain ⟨j, rfl⟩ := List.length_eq_one_iff.mp h2
    obtain ⟨n, rfl⟩ := List.length_eq_one_iff.mp h3
    obtain rfl := List.length_eq_zero_iff.mp h4
    simp [aff, dot] at h5 h6
    exact ⟨i, n, rfl, rfl, by congr 1; omega, by omega, by omega⟩
  · rintro ⟨i, n, rfl, rfl, rfl, h1, h2⟩
    refine ⟨rfl, rfl, rfl, [], rfl, ?_, ?_⟩ <;> simp [aff, dot] <;> omega

theorem chain_dom (x q : List Int) : chainStmt.domain.Has [] x q ↔ ∃ i n, q = [n] ∧ x = [i] ∧ 0 ≤ i ∧ i < n := by
  unfold chainStmt BMap.Has
  simp only
  constructor
  · rintro ⟨-, h2, h3, z, h4, h5, h6⟩
    obtain ⟨i, rfl⟩ := List.length_eq_one_iff.mp h2
    obtain ⟨n, rfl⟩ := List.length_eq_one_iff.mp h3
    obtain rfl := List.length_eq_zero_iff.mp h4
    simp [aff, dot] at h6
    exact ⟨i, n, rfl, rfl, by omega, by omega⟩
  · rintro ⟨i, n, rfl, rfl, h1, h2⟩
    refine ⟨rfl, rfl, rfl, [], rfl, ?_, ?_⟩ <;> simp [aff, dot] <;> omega

theorem chain_sched (x t q : List Int) : chainStmt.sched.Has x t q ↔ ∃ i n, q = [n] ∧ x = [i] ∧ t = [i] ∧ 0 ≤ i ∧ i < n := by
  have := shift_has 0 x t q
  simpa [chainStmt] using this

theorem chain_ok : PetOK 1 [chainStmt] := by
  refine ⟨fun s hs => ?_, fun s hs x q t h => ?_, fun s hs x q h => ?_, fun s hs a ha b hb x e q h => ?_⟩ <;> obtain rfl := List.mem_singleton.mp hs
  · exact ⟨⟨by decide, by decide⟩, rfl, rfl⟩
  · obtain ⟨i, n, rfl, rfl, rfl, h1, h2⟩ := (chain_sched _ _ _).mp h
    refine ⟨(chain_dom _ _).mpr ⟨i, n, rfl, rfl, h1, h2⟩, fun u hu => ?_⟩
    obtain ⟨j, m, -, e, rfl, -⟩ := (chain_sched _ _ _).mp hu
    exact e.symm
  · obtain ⟨i, n, rfl, rfl, h1, h2⟩ := (chain_dom _ _).mp h
    exact ⟨[i], (chain_sched _ _ _).mpr ⟨i, n, rfl, rfl, rfl, h1, h2⟩⟩
  · have hb' : b = ⟨1, 1, 0, 1, [[-1, 1, 0, -0]], [[1, 0, 0, 0], [-1, 0, 1, -1]]⟩ ∨ b = ⟨1, 1, 0, 1, [[-1, 1, 0, -1]], [[1, 0, 0, 0], [-1, 0, 1, -1]]⟩ := by
      simp [chainStmt] at ha
      rcases ha with rfl | rfl
      · simp at hb; exact .inl hb
      · simp at hb; exact .inr hb
    rcases hb' with rfl | rfl <;>
    · obtain ⟨i, n, rfl, rfl, -, h1, h2⟩ := (shift_has _ _ _ _).mp h
      exact (chain_dom _ _).mpr ⟨i, n, rfl, rfl, h1, h2⟩

theorem chain_reads (q : List Int) (p e : Pt) : Touches (petReads [chainStmt]) q p e ↔
    ∃ i n, q = [n] ∧ p = (accCode 0 false 0, [i]) ∧ e = (0, [i]) ∧ 0 ≤ i ∧ i < n := by
  obtain ⟨c, x⟩ := p
  obtain ⟨a, y⟩ := e
  have hr : petReads [chainStmt] = [⟨accCode 0 false 0, 0, ⟨1, 1, 0, 1, [[-1, 1, 0, -0]], [[1, 0, 0, 0], [-1, 0, 1, -1]]⟩⟩] := rfl
  rw [hr]
  unfold Touches
  simp only [List.mem_singleton, exists_eq_left, Prod.mk.injEq, shift_has]
  constructor
  · rintro ⟨rfl, rfl, i, n, rfl, rfl, rfl, h1, h2⟩
    exact ⟨i, n, rfl, ⟨rfl, rfl⟩, ⟨rfl, by simp⟩, h1, h2⟩
  · rintro ⟨i, n, rfl, ⟨rfl, rfl⟩, ⟨rfl, rfl⟩, h1, h2⟩
    exact ⟨rfl, rfl, i, n, rfl, rfl, by simp, h1, h2⟩

theorem chain_writes (q : List Int) (p e : Pt) : Touches (petWrites [chainStmt]) q p e ↔
    ∃ i n, q = [n] ∧ p = (accCode 0 true 0, [i]) ∧ e = (0, [i + 1]) ∧ 0 ≤ i ∧ i < n := by
  obtain ⟨c, x⟩ := p
  obtain ⟨a, y⟩ := e
  have hr : petWrites [chainStmt] = [⟨accCode 0 true 0, 0, ⟨1, 1, 0, 1, [[-1, 1, 0, -1]], [[1, 0, 0, 0], [-1, 0, 1, -1]]⟩⟩] := rfl
  rw [hr]
  unfold Touches
  simp only [List.mem_singleton, exists_eq_left, Prod.mk.injEq, shift_has]
  constructor
  · rintro ⟨rfl, rfl, i, n, rfl, rfl, rfl, h1, h2⟩
    exact ⟨i, n, rfl, ⟨rfl, rfl⟩, ⟨rfl, rfl⟩, h1, h2⟩
  · rintro ⟨i, n, rfl, ⟨rfl, rfl⟩, ⟨rfl, rfl⟩, h1, h2⟩
    exact ⟨rfl, rfl, i, n, rfl, rfl, rfl, h1, h2⟩

theorem chain_at (q : List Int) (c : Nat) (x t : List Int) : AtTime (petTimes [chainStmt]) q (c, x) t ↔
    (c = accCode 0 false 0 ∨ c = accCode 0 true 0) ∧ ∃ i n, q = [n] ∧ x = [i] ∧ t = [i] ∧ 0 ≤ i ∧ i < n := by
  have hr : petTimes [chainStmt] = [⟨accCode 0 false 0, chainStmt.sched⟩, ⟨accCode 0 true 0, chainStmt.sched⟩] := rfl
  rw [hr]
  unfold AtTime
  simp only [List.mem_cons, List.not_mem_nil, or_false, ← chain_sched]
  constructor
  · rintro ⟨m, rfl | rfl, h1, h2⟩
    · exact ⟨.inl h1.symm, h2⟩
    · exact ⟨.inr h1.symm, h2⟩
  · rintro ⟨rfl | rfl, h⟩
    · exact ⟨_, .inl rfl, rfl, h⟩
    · exact ⟨_, .inr rfl, rfl, h⟩

theorem chain_earlier (q : List Int) (c c' : Nat) (i j : Int) (h : Earlier (petTimes [chainStmt]) q (c, [i]) (c', [j])) : i < j := by
  obtain ⟨t, u, h1, h2, l, x, y, g1, g2, g3, -⟩ := h
  obtain ⟨-, a, n, -, e1, rfl, -⟩ := (chain_at _ _ _ _).mp h1
  obtain ⟨-, b, m, -, e2, rfl, -⟩ := (chain_at _ _ _ _).mp h2
  simp only [List.cons.injEq, and_true] at e1 e2
  cases l with
  | succ l => simp at g1
  | zero => simp at g1 g2; omega

theorem chain_before (n i j : Int) (c c' : Nat) (hc : c = accCode 0 false 0 ∨ c = accCode 0 true 0) (hc' : c' = accCode 0 false 0 ∨ c' = accCode 0 true 0)
    (h0 : 0 ≤ i) (hij : i < j) (hn : j < n) : Earlier (petTimes [chainStmt]) [n] (c, [i]) (c', [j]) :=
  ⟨[i], [j], (chain_at _ _ _ _).mpr ⟨hc, i, n, rfl, rfl, rfl, h0, by omega⟩, (chain_at _ _ _ _).mpr ⟨hc', j, n, rfl, rfl, rfl, by omega, hn⟩,
    0, i, j, rfl, rfl, hij, by simp⟩

theorem chain_next (q : List Int) (a b : Pt) : Related [chainNext] q a b ↔
    ∃ i n, q = [n] ∧ a = (accCode 0 true 0, [i]) ∧ b = (accCode 0 false 0, [i + 1]) ∧ 0 ≤ i ∧ i + 1 < n := by
  obtain ⟨k, x⟩ := a
  obtain ⟨k', y⟩ := b
  unfold Related chainNext
  simp only [List.mem_singleton, exists_eq_left, BMap.Has, Prod.mk.injEq]
  constructor
  · rintro ⟨rfl, rfl, h1, h2, h3, z, h4, h5, h6⟩
    obtain ⟨i, rfl⟩ := List.length_eq_one_iff.mp h1
    obtain ⟨j, rfl⟩ := List.length_eq_one_iff.mp h2
    obtain ⟨n, rfl⟩ := List.length_eq_one_iff.mp h3
    obtain rfl := List.length_eq_zero_iff.mp h4
    simp [aff, dot] at h5 h6
    exact ⟨i, n, rfl, ⟨rfl, rfl⟩, ⟨rfl, by congr 1; omega⟩, by omega, by omega⟩
  · rintro ⟨i, n, rfl, ⟨rfl, rfl⟩, ⟨rfl, rfl⟩, h1, h2⟩
    refine ⟨rfl, rfl, rfl, rfl, rfl, [], rfl, ?_, ?_⟩ <;> simp [aff, dot] <;> omega

theorem chain_ne : petReads [chainStmt] ≠ petWrites [chainStmt] ∧ petReads [chainStmt] ≠ [] ∧ petWrites [chainStmt] ≠ [] := by decide +kernel

/-- Two accesses conflict only if a write comes before the read of the next iteration. -/
theorem chain_conflict {la sink : List IslAcc} {q : List Int} {a b e : Pt}
    (hla : Touches la q a e → Touches (petReads [chainStmt]) q a e ∨ Touches (petWrites [chainStmt]) q a e)
    (hs : sink ∈ [petReads [chainStmt], petWrites [chainStmt]])
    (h1 : Touches la q a e) (h2 : Touches sink q b e) (h3 : Earlier (petTimes [chainStmt]) q a b) :
    sink = petReads [chainStmt] ∧ Touches (petWrites [chainStmt]) q a e ∧
    ∃ i n, q = [n] ∧ a = (accCode 0 true 0, [i]) ∧ b = (accCode 0 false 0, [i + 1]) ∧ 0 ≤ i ∧ i + 1 < n := by
  simp only [List.mem_cons, List.not_mem_nil, or_false] at hs
  rcases hla h1 with h1 | h1
  · obtain ⟨i, n, rfl, rfl, rfl, g1, g2⟩ := (chain_reads _ _ _).mp h1
    rcases hs with rfl | rfl
    · obtain ⟨j, m, -, rfl, e2, -⟩ := (chain_reads _ _ _).mp h2
      simp at e2
      have := chain_earlier _ _ _ _ _ h3
      omega
    · obtain ⟨j, m, -, rfl, e2, -⟩ := (chain_writes _ _ _).mp h2
      simp at e2
      have := chain_earlier _ _ _ _ _ h3
      omega
  · obtain ⟨i, n, rfl, rfl, rfl, g1, g2⟩ := (chain_writes _ _ _).mp h1
    rcases hs with rfl | rfl
    · obtain ⟨j, m, e1, rfl, e2, -, g4⟩ := (chain_reads _ _ _).mp h2
      simp at e2 e1
      subst e2; subst e1
      exact ⟨rfl, h1, i, n, rfl, rfl, rfl, g1, g4⟩
    · obtain ⟨j, m, -, rfl, e2, -⟩ := (chain_writes _ _ _).mp h2
      simp at e2
      have := chain_earlier _ _ _ _ _ h3
      omega

theorem chainOps_ok : chainOps.OK (petReads [chainStmt]) (petWrites [chainStmt]) (petTimes [chainStmt]) where
  coalesce _ _ _ _ := Iff.rfl
  union ds ds' q a b := by
    unfold Related chainOps
    simp only [List.mem_append]
    constructor
    · rintro ⟨d, h | h, h2⟩
      · exact .inl ⟨d, h, h2⟩
      · exact .inr ⟨d, h, h2⟩
    · rintro (⟨d, h, h2⟩ | ⟨d, h, h2⟩)
      · exact ⟨d, .inl h, h2⟩
      · exact ⟨d, .inr h, h2⟩
  flow sink must may h1 h2 h3 := by
    obtain ⟨n1, n2, n3⟩ := chain_ne
    have hnil : ∀ q a b, ¬ Related [] q a b := by rintro q a b ⟨d, hd, -⟩; simp at hd
    have hsub : ∀ l ∈ [[], petReads [chainStmt], petWrites [chainStmt]], ∀ q a e, Touches l q a e →
        Touches (petReads [chainStmt]) q a e ∨ Touches (petWrites [chainStmt]) q a e := by
      intro l hl q a e h
      simp only [List.mem_cons, List.not_mem_nil, or_false] at hl
      rcases hl with rfl | rfl | rfl
      · exact absurd h touches_nil
      · exact .inl h
      · exact .inr h
    have happ : ∀ q a e, Touches (must ++ may) q a e → Touches (petReads [chainStmt]) q a e ∨ Touches (petWrites [chainStmt]) q a e := by
      intro q a e h
      rcases touches_append.mp h with h | h
      · exact hsub must h2 q a e h
      · exact hsub may h3 q a e h
    -- the only dependences there can be
    have key : ∀ q a b, LastConflict must (must ++ may) sink (petTimes [chainStmt]) q a b ↔
        (sink = petReads [chainStmt] ∧ (must = petWrites [chainStmt] ∨ may = petWrites [chainStmt])) ∧ Related [chainNext] q a b := by
      intro q a b
      rw [chain_next]
      constructor
      · rintro ⟨e, t1, t2, t3, -⟩
        obtain ⟨r1, r2, r3⟩ := chain_conflict (happ q a e) h1 t1 t2 t3
        refine ⟨⟨r1, ?_⟩, r3⟩
        have : ∀ l ∈ [[], petReads [chainStmt], petWrites [chainStmt]], Touches l q a e → l = petWrites [chainStmt] := by
          intro l hl h
          simp only [List.mem_cons, List.not_mem_nil, or_false] at hl
          rcases hl with rfl | rfl | rfl
          · exact absurd h touches_nil
          · obtain ⟨i, n, -, rfl, -⟩ := (chain_reads _ _ _).mp h
            obtain ⟨j, m, -, e, -⟩ := (chain_writes _ _ _).mp r2
            have : accCode 0 false 0 = accCode 0 true 0 := congrArg Prod.fst e
            exact absurd this (by decide)
          · rfl
        rcases touches_append.mp t1 with h | h
        · exact .inl (this must h2 h)
        · exact .inr (this may h3 h)
      · rintro ⟨⟨rfl, hw⟩, i, n, rfl, rfl, rfl, g1, g2⟩
        have hwr : Touches (petWrites [chainStmt]) [n] (accCode 0 true 0, [i]) (0, [i + 1]) := (chain_writes _ _ _).mpr ⟨i, n, rfl, rfl, rfl, g1, by omega⟩
        refine ⟨(0, [i + 1]), touches_append.mpr (hw.imp (fun h => h ▸ hwr) (fun h => h ▸ hwr)),
          (chain_reads _ _ _).mpr ⟨i + 1, n, rfl, rfl, rfl, by omega, g2⟩, chain_before _ _ _ _ _ (.inr rfl) (.inl rfl) g1 (by omega) g2, ?_⟩
        rintro ⟨c, c1, c2, c3⟩
        rcases hsub must h2 _ _ _ c1 with h | h
        · obtain ⟨j, m, -, rfl, e, -⟩ := (chain_reads _ _ _).mp h
          simp at e
          have := chain_earlier _ _ _ _ _ c3
          omega
        · obtain ⟨j, m, -, rfl, e, -⟩ := (chain_writes _ _ _).mp h
          simp at e
          have := chain_earlier _ _ _ _ _ c2
          omega
    unfold FlowRight
    simp only [key, chainOps]
    by_cases hs : sink = petReads [chainStmt]
    · rw [if_pos hs]
      by_cases hm : must = petWrites [chainStmt]
      · rw [if_pos hm]
        exact ⟨fun q a b => by simp [hs, hm, hnil], fun _ q a b => hnil q a b, fun h => absurd (hm.symm.trans h) n3⟩
      · rw [if_neg hm]
        by_cases hy : may = petWrites [chainStmt]
        · rw [if_pos hy]
          exact ⟨fun q a b => by simp [hs, hy, hnil], fun h => absurd (hy.symm.trans h) n3, fun _ q a b => hnil q a b⟩
        · rw [if_neg hy]
          exact ⟨fun q a b => by simp [hm, hy, hnil], fun _ q a b => hnil q a b, fun _ q a b => hnil q a b⟩
    · rw [if_neg hs]
      exact ⟨fun q a b => by simp [hs, hnil], fun _ q a b => hnil q a b, fun _ q a b => hnil q a b⟩

/-- `A[i + 1] = A[i]` on a memory of integers. -/
noncomputable def chainAct (a : Pt) : Action Pt Int :=
  open Classical in
  { run := fun m e => if e = (0, [a.2.headD 0 + 1]) ∧ PetWritesElem [chainStmt] [3] a e then m (0, [a.2.headD 0]) else m e
    reads := PetReadsElem [chainStmt] [3] a
    writes := PetWritesElem [chainStmt] [3] a
    keeps := fun m e h => if_neg fun h' => h h'.2
    depends := fun m m' h e he => by
      by_cases c : e = (0, [a.2.headD 0 + 1]) ∧ PetWritesElem [chainStmt] [3] a e
      · rw [if_pos c, if_pos c]
        refine h _ (.inl ?_)
        obtain ⟨s, g1, w, g2, g3, b, g4, g5⟩ := he
        have g1' := List.mem_singleton.mp (List.mem_of_getElem? g1)
        subst g1'
        obtain ⟨k, x⟩ := a
        have g2' := List.mem_singleton.mp g2
        subst g2'
        have g4' := List.mem_singleton.mp g4
        subst g4'
        obtain ⟨i, n, f1, rfl, f3, f4, f5⟩ := (shift_has 1 _ _ _).mp g5
        exact ⟨_, g1, _, List.mem_singleton.mpr rfl, rfl, _, List.mem_singleton.mpr rfl, (shift_has 0 _ _ _).mpr ⟨i, n, f1, rfl, by simp, f4, f5⟩⟩
      · rw [if_neg c, if_neg c]
        exact h e (.inr he) }

theorem chainAct_acts : ActsAs [chainStmt] [3] chainAct := fun _ _ => ⟨id, id⟩

/-- The program made from the example. -/
def chainProg : Prog where
  nvar := 1
  npar := 1
  stmts := [⟨1, 1, ⟨3, [⟨false, [1, 0, 0]⟩, ⟨false, [-1, 1, -1]⟩]⟩, [true], [[1, 0, 0]], [.loop]⟩]
  deps := [⟨0, 0, false, sumCst, sumCst, false, -1, [], []⟩]
  hProps := [.scalar]

theorem chain_source : SourceRun [chainStmt] [3] [(0, [0]), (0, [1]), (0, [2])] := by
  refine ⟨by decide, fun a => ?_, ?_⟩
  · obtain ⟨i, x⟩ := a
    unfold PetRuns
    constructor
    · intro h
      simp only [List.mem_cons, List.not_mem_nil, or_false, Prod.mk.injEq] at h
      rcases h with ⟨rfl, rfl⟩ | ⟨rfl, rfl⟩ | ⟨rfl, rfl⟩ <;>
        exact ⟨_, rfl, (chain_dom _ _).mpr ⟨_, _, rfl, rfl, by omega, by omega⟩⟩
    · rintro ⟨s, hs, hx⟩
      have h1 := List.mem_singleton.mp (List.mem_of_getElem? hs)
      subst h1
      obtain ⟨k, n, e1, rfl, h1, h2⟩ := (chain_dom _ _).mp hx
      have hi : i < 1 := (List.getElem?_eq_some_iff.mp hs).1
      simp only [List.cons.injEq, and_true] at e1
      have : k = 0 ∨ k = 1 ∨ k = 2 := by omega
      have hi : i = 0 := by omega
      subst hi
      rcases this with rfl | rfl | rfl <;> simp
  · have hb : ∀ i j : Int, 0 ≤ i → i < j → j < 3 → PetBefore [chainStmt] [3] (0, [i]) (0, [j]) := fun i j h1 h2 h3 =>
      ⟨_, _, [i], [j], rfl, rfl, (chain_sched _ _ _).mpr ⟨i, 3, rfl, rfl, rfl, h1, by omega⟩, (chain_sched _ _ _).mpr ⟨j, 3, rfl, rfl, rfl, by omega, h3⟩,
        0, i, j, rfl, rfl, h2, by simp⟩
    refine List.Pairwise.cons ?_ (List.Pairwise.cons ?_ (List.Pairwise.cons (by simp) List.Pairwise.nil))
    · intro a ha
      simp only [List.mem_cons, List.not_mem_nil, or_false] at ha
      rcases ha with rfl | rfl <;> exact hb _ _ (by omega) (by omega) (by omega)
    · intro a ha
      simp only [List.mem_cons, List.not_mem_nil, or_false] at ha
      subst ha
      exact hb _ _ (by omega) (by omega) (by omega)

/-- The hypotheses of C64 and C65 are met by the example, with accesses recorded and with tiling. Its instances read
and write; `A[3]` is computed from `A[0]` through all three of them. -/
example : simpleOps.OK ∧ PetOK 1 (petLive [chainStmt]) ∧
    chainOps.OK (petReads (petLive [chainStmt])) (petWrites (petLive [chainStmt])) (petTimes (petLive [chainStmt])) ∧
    (∀ s ∈ petLive [chainStmt], ∀ a ∈ s.reads ++ s.writes, a.parts ≠ []) ∧
    (∀ d, computeDeps chainOps ⟨true, false, false⟩ true (petReads (petLive [chainStmt])) (petWrites (petLive [chainStmt])) (petTimes (petLive [chainStmt])) = some d →
      FlowNamesOK 1 (petLive [chainStmt]) d) ∧
    (∀ s ∈ petLive [chainStmt], s.domain.ndiv = 0) ∧
    (∃ ds, petToProg simpleOps chainOps ⟨true, false, false⟩ true (fun _ => [[1, 0, 0]]) 1 [chainStmt] = some (chainProg, ds)) ∧
    EmptyOracle sumLibs.isEmpty ∧ FeasibleOracle sumLibs.solve ∧ EagerAuto exAutoOpts sumLibs noDiamond 10 exDfs chainProg ∧
    (∃ p, autoTransform exAutoOpts sumLibs noDiamond 10 exDfs chainProg = some (.success p) ∧
      Uniform p 0 p.hProps.length (List.range p.stmts.length) ∧
      ∀ p1 bands, recompute sumLibs.isEmpty p = some p1 → tileBands p1 = some bands → LoopBands p1 bands) ∧
    SourceRun (petLive [chainStmt]) [3] [(0, [0]), (0, [1]), (0, [2])] ∧ ActsAs (petLive [chainStmt]) [3] chainAct ∧
    PetConflict (petLive [chainStmt]) [3] (0, [0]) (0, [1]) := by
  rw [chain_live]
  refine ⟨simpleOps_ok, chain_ok, chainOps_ok, by decide, fun d hd => ?_, by decide, ?_, sumTab_ok, listSolver_ok _, eagerAutoCheck_ok (by decide +kernel), ?_,
    chain_source, chainAct_acts, ?_⟩
  · have e : computeDeps chainOps ⟨true, false, false⟩ true (petReads [chainStmt]) (petWrites [chainStmt]) (petTimes [chainStmt]) =
        some ⟨[chainNext], [], [], none, some [], some []⟩ := by decide +kernel
    rw [e] at hd
    cases hd
    refine ⟨fun d hd => ?_, fun d hd => by simp at hd, fun d hd => by simp at hd⟩
    obtain rfl := List.mem_singleton.mp hd
    exact ⟨⟨by decide, by decide⟩, rfl, 0, 0, true, false, 0, 0, chainStmt, chainStmt, rfl, rfl, rfl, rfl, rfl, rfl, by decide, by decide, rfl⟩
  · have h : (petToProg simpleOps chainOps ⟨true, false, false⟩ true (fun _ => [[1, 0, 0]]) 1 [chainStmt]).map (·.1) = some chainProg := by decide +kernel
    obtain ⟨⟨p, ds⟩, h1, h2⟩ := Option.map_eq_some_iff.mp h
    simp only at h2
    subst h2
    exact ⟨ds, h1⟩
  · have h : Outcome.holds (fun p => decide (Uniform p 0 p.hProps.length (List.range p.stmts.length)) && match recompute sumLibs.isEmpty p with
          | some p1 => (match tileBands p1 with | some bands => loopBandsCheck p1 bands | none => false)
          | none => false)
        (autoTransform exAutoOpts sumLibs noDiamond 10 exDfs chainProg) = true := by decide +kernel
    generalize autoTransform exAutoOpts sumLibs noDiamond 10 exDfs chainProg = r at h
    match r, h with
    | some (.success p), h =>
      simp only [Outcome.holds, Bool.and_eq_true, decide_eq_true_eq] at h
      refine ⟨p, rfl, h.1, fun p1 bands h1 h2 => ?_⟩
      have := h.2
      simp only [h1, h2] at this
      exact loopBandsCheck_ok this
  · refine ⟨(0, [1]), .inl ⟨⟨_, rfl, _, List.mem_singleton.mpr rfl, rfl, _, List.mem_singleton.mpr rfl, (shift_has 1 _ _ _).mpr ⟨0, 3, rfl, rfl, rfl, by omega, by omega⟩⟩,
      .inl ⟨_, rfl, _, List.mem_singleton.mpr rfl, rfl, _, List.mem_singleton.mpr rfl, (shift_has 0 _ _ _).mpr ⟨1, 3, rfl, rfl, rfl, by omega, by omega⟩⟩⟩⟩

end Pluto
