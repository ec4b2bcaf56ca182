import Verif.Spec.IslLibAccs
import Verif.Props.IslAffExamples
import Verif.Lemmas.LpScale

/-! C60: the accesses of the statements extracted by the library interface. -/

namespace Pluto

theorem nameStmt_tuple (i : Nat) : atoi ((stmtTupleName i).drop 2) = i := by
  have := atoi_repr i [] (by simp)
  simpa [stmtTupleName] using this

theorem mem_stmtFilter (P : PwOps) (npar : Nat) (stmts : List Stmt) (l : List NamedAcc) (h : AccsOK P npar stmts l) (i : Nat) (p : PetAcc) :
    p ∈ stmtFilter i l ↔ ∃ a ∈ l, a.name = stmtTupleName i ∧ a.acc = p := by
  unfold stmtFilter
  constructor
  · intro hp
    obtain ⟨a, ha, rfl⟩ := List.mem_map.mp hp
    obtain ⟨ha, hn⟩ := List.mem_filter.mp ha
    obtain ⟨j, st, -, hj, -⟩ := h a ha
    have hn := of_decide_eq_true hn
    rw [hj, nameStmt_tuple] at hn
    exact ⟨a, ha, hn ▸ hj, rfl⟩
  · rintro ⟨a, ha, hn, rfl⟩
    exact List.mem_map_of_mem (List.mem_filter.mpr ⟨ha, decide_eq_true (by rw [hn, nameStmt_tuple])⟩)

theorem stmtAccs_cols (P : PwOps) (n : Nat) (l : List PetAcc)
    (hl : ∀ a ∈ l, ∀ b ∈ a.parts, P.OKFor b ∧ (∀ i < b.nout, P.AffineDim b i) ∧ (∃ x y q, b.Has x y q) ∧ b.nin + b.npar + 1 = n)
    (accs : List (Nat × List (List Int))) (h : stmtAccs P l = some accs) : ∀ a ∈ accs, ∀ r ∈ a.2, r.length = n := by
  unfold stmtAccs at h
  intro a ha
  obtain ⟨z, hz, hza⟩ : ∃ z ∈ l.flatMap (fun a => a.parts.map (fun b => (a.arr, b))), (accRows P z.2).map (fun rows => (z.1, rows)) = some a := by
    exact mapM_mem _ _ _ h a ha
  obtain ⟨p, hp, hz'⟩ := List.mem_flatMap.mp hz
  obtain ⟨b, hb, rfl⟩ := List.mem_map.mp hz'
  obtain ⟨k1, k2, k3, k4⟩ := hl p hp b hb
  obtain ⟨rows, r1, -, -, r2, -⟩ := C74_access_partial P b k1 k2 k3
  rw [r1, Option.map_some, Option.some.injEq] at hza
  subst hza
  intro r hr
  rw [r2 r hr, k4]

theorem checkedAccs_ok (P : PwOps) (npar : Nat) (stmts : List Stmt) (l : List NamedAcc) (h : AccsOK P npar stmts l) (i : Nat) (st : Stmt)
    (hst : stmts[i]? = some st) :
    ∃ accs, checkedAccs P st.dim npar (stmtFilter i l) = some accs ∧ (∀ arr x y q, MayAccess l i arr x y q → Recorded accs arr x y q) ∧
      FromUnion l i accs := by
  have hl : ∀ a ∈ stmtFilter i l, ∀ b ∈ a.parts, P.OKFor b ∧ (∀ i < b.nout, P.AffineDim b i) ∧ (∃ x y q, b.Has x y q) ∧
      b.nin + b.npar + 1 = st.dim + npar + 1 := by
    intro p hp b hb
    obtain ⟨a, ha, hn, rfl⟩ := (mem_stmtFilter P npar stmts l h i p).mp hp
    obtain ⟨j, st', hj, hn', hall⟩ := h a ha
    have : i = j := by rw [← nameStmt_tuple i, ← hn, hn', nameStmt_tuple]
    subst this
    rw [hst, Option.some.injEq] at hj
    subst hj
    obtain ⟨e1, e2, e3, e4, e5⟩ := hall b hb
    exact ⟨e3, e4, e5, by rw [e1, e2]⟩
  obtain ⟨accs, h1, h2, h3⟩ := C74_stmt_partial P (stmtFilter i l) (fun a ha b hb => ⟨(hl a ha b hb).1, (hl a ha b hb).2.1, (hl a ha b hb).2.2.1⟩)
  have hc := stmtAccs_cols P _ _ hl accs h1
  refine ⟨accs, ?_, ?_, ?_⟩
  · unfold checkedAccs
    rw [h1]
    have : accs.all (fun a => a.2.all (fun r => r.length == st.dim + npar + 1)) = true := by
      rw [List.all_eq_true]
      intro a ha
      rw [List.all_eq_true]
      intro r hr
      exact beq_iff_eq.mpr (hc a ha r hr)
    simp [this]
  · rintro arr x y q ⟨a, ha, hn, harr, b, hb, hh⟩
    exact h2 x q arr y ⟨a.acc, (mem_stmtFilter P npar stmts l h i _).mpr ⟨a, ha, hn, rfl⟩, harr, b, hb, hh⟩
  · intro z hz
    obtain ⟨p, hp, e1, b, hb, e2⟩ := h3 z hz
    obtain ⟨a, ha, hn, rfl⟩ := (mem_stmtFilter P npar stmts l h i p).mp hp
    exact ⟨a, ha, hn, e1, b, hb, e2⟩

/-- C60. With reads and writes given, the program made by the library has, for every statement, matrices for exactly
the array elements that the relations named after the statement give: every element read (written) is given by one of
the matrices of its reads (writes), and every matrix comes from one of these relations. No assertion fails. -/
theorem C60_accesses (P : PwOps) (npar : Nat) (stmts : List Stmt) (r w : List NamedAcc) (hr : AccsOK P npar stmts r) (hw : AccsOK P npar stmts w) :
    ∃ res, islAccesses P npar stmts (some r) (some w) = some res ∧ res.length = stmts.length ∧
      ∀ (i : Nat) z, res[i]? = some z →
        (∀ arr x y q, MayAccess r i arr x y q → Recorded z.1 arr x y q) ∧ FromUnion r i z.1 ∧
        (∀ arr x y q, MayAccess w i arr x y q → Recorded z.2 arr x y q) ∧ FromUnion w i z.2 := by
  let f : Nat × Stmt → Option (List (Nat × List (List Int)) × List (Nat × List (List Int))) := fun x => do
    return (← checkedAccs P x.2.dim npar (stmtFilter x.1 r), ← checkedAccs P x.2.dim npar (stmtFilter x.1 w))
  have key : ∀ m : List (Nat × Stmt), (∀ z ∈ m, stmts[z.1]? = some z.2) → ∃ res, m.mapM f = some res ∧ List.Forall₂ (fun x z =>
        (∀ arr x' y q, MayAccess r x.1 arr x' y q → Recorded z.1 arr x' y q) ∧ FromUnion r x.1 z.1 ∧
        (∀ arr x' y q, MayAccess w x.1 arr x' y q → Recorded z.2 arr x' y q) ∧ FromUnion w x.1 z.2) m res := by
    intro m hm
    induction m with
    | nil => exact ⟨[], rfl, .nil⟩
    | cons z m ih =>
      obtain ⟨res, e1, e2⟩ := ih (fun z' hz => hm z' (by simp [hz]))
      obtain ⟨a, a1, a2, a3⟩ := checkedAccs_ok P npar stmts r hr z.1 z.2 (hm z (by simp))
      obtain ⟨b, b1, b2, b3⟩ := checkedAccs_ok P npar stmts w hw z.1 z.2 (hm z (by simp))
      refine ⟨(a, b) :: res, ?_, .cons ⟨a2, a3, b2, b3⟩ e2⟩
      have hf : f z = some (a, b) := by
        simp only [f, a1, b1]
        rfl
      rw [List.mapM_cons, hf, e1]
      rfl
  obtain ⟨res, e1, e2⟩ := key (stmts.mapIdx (fun i st => (i, st))) (by
    intro z hz
    obtain ⟨i, hi, rfl⟩ := List.mem_mapIdx.mp hz
    simp)
  refine ⟨res, e1, ?_, ?_⟩
  · rw [← e2.length_eq, List.length_mapIdx]
  · intro i z hz
    have hi : i < res.length := (List.getElem?_eq_some_iff.mp hz).1
    have h2 := List.forall₂_iff_get.mp e2
    have h3 := h2.2 i (by rw [h2.1]; exact hi) hi
    have ez : res.get ⟨i, hi⟩ = z := by simpa using (List.getElem?_eq_some_iff.mp hz).2
    rw [ez] at h3
    simpa using h3

instance instDecEqAccList : DecidableEq (List (Nat × List (List Int))) := inferInstance

/-- C60, a case for `C60_accesses`: two statements, the second with a read `A[2 i + 1][i]` and no writes. -/
example : ∃ st : Stmt, st.dim = 1 ∧ AccsOK affOps 0 [st, st] [⟨stmtTupleName 1, ⟨7, [affMap]⟩⟩] ∧ AccsOK affOps 0 [st, st] [] ∧
    islAccesses affOps 0 [st, st] (some [⟨stmtTupleName 1, ⟨7, [affMap]⟩⟩]) (some []) = some [([], []), ([(7, [[2, 1], [1, 0]])], [])] := by
  refine ⟨⟨1, 1, ⟨2, []⟩, [true], [], []⟩, rfl, ?_, by simp [AccsOK], by decide +kernel⟩
  intro a ha
  obtain rfl := List.mem_singleton.mp ha
  refine ⟨1, _, rfl, rfl, fun b hb => ?_⟩
  obtain rfl := List.mem_singleton.mp hb
  refine ⟨rfl, rfl, affOps_ok, ?_, [0], [1, 0], [], (affMap_has _ _ _).mpr ⟨0, rfl, by simp, rfl⟩⟩
  intro k hk
  have hk : k < 2 := hk
  interval_cases k <;> exact ⟨rfl, _, rfl, rfl, rfl, by decide⟩

end Pluto
