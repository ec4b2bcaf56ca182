import Verif.Spec.IslAff
import Verif.Props.Pet
import Verif.Lemmas.Permute
import Verif.Lemmas.Lex

/-! C74: matrices extracted from isl maps. -/

namespace Pluto

theorem dot_num (c : List Rat) (v : List Int) (h : ∀ r ∈ c, r.den = 1) :
    ((dot (c.map (·.num)) v : Int) : Rat) = ldot c (v.map (fun i => (i : Rat))) := by
  induction c generalizing v with
  | nil => simp [dot, ldot]
  | cons a c ih =>
    cases v with
    | nil => simp [dot, ldot]
    | cons b v =>
      have ha : (a.num : Rat) = a := Rat.coe_int_num_of_den_eq_one (h a (by simp))
      have := ih v (fun r hr => h r (by simp [hr]))
      simp only [List.map_cons, dot, ldot] at this ⊢
      push_cast
      rw [this, ha]
      simp

/-- An integral expression is its row. -/
theorem affRow_value {a : IslAff} (h : a.Integral) (x q : List Int) : ((dot (affRow a) (x ++ q ++ [1]) : Int) : Rat) = a.value x q := by
  obtain ⟨h1, h2, h3⟩ := h
  unfold affRow IslAff.value
  rw [h1, h2]
  simp only [dot_num _ _ h3]
  simp [ldot]

/-- One row of the matrix: the row of the last piece gives the value on the set of that piece. -/
theorem pwRow_value {P : PwOps} {b : BMap} (hP : P.OKFor b) {i : Nat} (hi : i < b.nout) (hs : P.single b i = true) {pc : IslPiece}
    (hl : (P.pieces b i).getLast? = some pc) (hint : pc.aff.Integral) {x y q : List Int} (h : b.Has x y q) (hc : pc.Covers x q) :
    y[i]? = some (dot (affRow pc.aff) (x ++ q ++ [1])) := by
  obtain ⟨v, h1, h2⟩ := hP.value i hi hs pc (List.mem_of_getLast? hl) x y q h hc
  rw [← affRow_value hint] at h2
  rw [h1]
  congr 1
  exact_mod_cast h2

theorem affRow_length {P : PwOps} {b : BMap} (hP : P.OKFor b) {i : Nat} (hi : i < b.nout) {pc : IslPiece} (hpc : pc ∈ P.pieces b i) :
    (affRow pc.aff).length = b.nin + b.npar + 1 := by
  obtain ⟨h1, h2, h3⟩ := hP.shape i hi pc hpc
  unfold affRow
  split
  · split
    · simp [zrow, h1, h2]
    · simpa using h3
  · simpa using h3

theorem foldlM_singles {P : PwOps} {b : BMap} {f : Nat → List Int} : ∀ (l : List Nat) (acc : List (List Int)),
    (∀ i ∈ l, P.single b i = true ∧ pwRow (P.pieces b i) = some (f i)) → l.foldlM (accStep P b) acc = some (acc ++ l.map f)
  | [], acc, _ => by simp
  | i :: l, acc, h => by
    obtain ⟨h1, h2⟩ := h i (by simp)
    rw [List.foldlM_cons]
    unfold accStep
    rw [if_pos h1, h2]
    simp only [Option.map_some, Option.bind_eq_bind, Option.bind_some]
    have := foldlM_singles (P := P) (b := b) (f := f) l (acc ++ [f i]) (fun j hj => h j (by simp [hj]))
    unfold accStep at this
    rw [this]
    simp

theorem mapM_singles {P : PwOps} {b : BMap} {f : Nat → List Int} : ∀ (l : List Nat),
    (∀ i ∈ l, P.single b i = true ∧ pwRow (P.pieces b i) = some (f i)) →
      l.mapM (fun i => if P.single b i then pwRow (P.pieces b i) else none) = some (l.map f)
  | [], _ => rfl
  | i :: l, h => by
    obtain ⟨h1, h2⟩ := h i (by simp)
    rw [List.mapM_cons, if_pos h1, h2, mapM_singles l (fun j hj => h j (by simp [hj]))]
    rfl

theorem rows_value {P : PwOps} {b : BMap} (hP : P.OKFor b) (hs : ∀ i < b.nout, P.single b i = true) {x y q : List Int} (h : b.Has x y q)
    (hl : ∀ i < b.nout, ∃ pc, (P.pieces b i).getLast? = some pc ∧ pc.aff.Integral ∧ pc.Covers x q) (f : Nat → List Int)
    (hf : ∀ i < b.nout, pwRow (P.pieces b i) = some (f i)) :
    ((List.range b.nout).map f).map (fun r => dot r (x ++ q ++ [1])) = y := by
  apply List.ext_getElem?
  intro i
  by_cases hi : i < b.nout
  · obtain ⟨pc, g1, g2, g3⟩ := hl i hi
    rw [pwRow_value hP hi (hs i hi) g1 g2 h g3]
    have := hf i hi
    unfold pwRow at this
    rw [g1, Option.map_some, Option.some.injEq] at this
    simp [hi, this]
  · rw [List.getElem?_eq_none (by simp; omega), List.getElem?_eq_none (by rw [h.2.1]; omega)]

/-- C74. The access matrix made from an access relation, all of whose dimensions are single-valued, and the matrix
made from a schedule map, are the same and are defined; on the points that the last piece of each dimension covers,
if its coefficients are integers, they give the element (the time). -/
theorem C74_last_piece_partial (P : PwOps) (b : BMap) (hP : P.OKFor b) (hs : ∀ i < b.nout, P.single b i = true) (hne : ∃ x y q, b.Has x y q) :
    ∃ rows, accRows P b = some rows ∧ mapFunc P b = some rows ∧ rows.length = b.nout ∧ (∀ r ∈ rows, r.length = b.nin + b.npar + 1) ∧
      ∀ x y q, b.Has x y q → (∀ i < b.nout, ∃ pc, (P.pieces b i).getLast? = some pc ∧ pc.aff.Integral ∧ pc.Covers x q) →
        rows.map (fun r => dot r (x ++ q ++ [1])) = y := by
  have hpc : ∀ i < b.nout, ∃ pc, (P.pieces b i).getLast? = some pc := by
    intro i hi
    obtain ⟨x, y, q, h⟩ := hne
    obtain ⟨pc, hpc, -⟩ := hP.cover i hi (hs i hi) x y q h
    cases hg : (P.pieces b i).getLast? with
    | none => rw [List.getLast?_eq_none_iff.mp hg] at hpc; simp at hpc
    | some pc => exact ⟨pc, rfl⟩
  have hf : ∀ i < b.nout, pwRow (P.pieces b i) = some ((pwRow (P.pieces b i)).getD []) := by
    intro i hi
    obtain ⟨pc, h⟩ := hpc i hi
    simp [pwRow, h]
  refine ⟨(List.range b.nout).map (fun i => (pwRow (P.pieces b i)).getD []), ?_, ?_, by simp, ?_, ?_⟩
  · have := foldlM_singles (P := P) (b := b) (f := fun i => (pwRow (P.pieces b i)).getD []) (List.range b.nout) []
      (fun i hi => ⟨hs i (List.mem_range.mp hi), hf i (List.mem_range.mp hi)⟩)
    simpa [accRows] using this
  · exact mapM_singles _ (fun i hi => ⟨hs i (List.mem_range.mp hi), hf i (List.mem_range.mp hi)⟩)
  · intro r hr
    obtain ⟨i, hi, rfl⟩ := List.mem_map.mp hr
    obtain ⟨pc, h⟩ := hpc i (List.mem_range.mp hi)
    simp only [pwRow, h, Option.map_some, Option.getD_some]
    exact affRow_length hP (List.mem_range.mp hi) (List.mem_of_getLast? h)
  · intro x y q h hl
    exact rows_value hP hs h hl _ hf

/-- C74. If every dimension of an access relation is one affine expression with integer coefficients, the access
matrix gives exactly the element accessed, at every iteration. Missing for the full claim: relations where a dimension
is not affine, has rational coefficients, several pieces or several values (see the violations). -/
theorem C74_access_partial (P : PwOps) (b : BMap) (hP : P.OKFor b) (ha : ∀ i < b.nout, P.AffineDim b i) (hne : ∃ x y q, b.Has x y q) :
    ∃ rows, accRows P b = some rows ∧ mapFunc P b = some rows ∧ rows.length = b.nout ∧ (∀ r ∈ rows, r.length = b.nin + b.npar + 1) ∧
      ∀ x y q, b.Has x y q → rows.map (fun r => dot r (x ++ q ++ [1])) = y := by
  obtain ⟨rows, h1, h2, h3, h4, h5⟩ := C74_last_piece_partial P b hP (fun i hi => (ha i hi).1) hne
  refine ⟨rows, h1, h2, h3, h4, fun x y q h => h5 x y q h (fun i hi => ?_)⟩
  obtain ⟨hs, pc, hpc, hint⟩ := ha i hi
  obtain ⟨pc', hm, hc⟩ := hP.cover i hi hs x y q h
  rw [hpc] at hm
  obtain rfl := List.mem_singleton.mp hm
  exact ⟨pc', by simp [hpc], hint, hc⟩

/-- C74. The accesses of a statement: every array element that an iteration may access is given by one of its access
matrices, with the right array, and every matrix gives the elements of one of the access relations. -/
theorem C74_stmt_partial (P : PwOps) (l : List PetAcc)
    (hl : ∀ a ∈ l, ∀ b ∈ a.parts, P.OKFor b ∧ (∀ i < b.nout, P.AffineDim b i) ∧ ∃ x y q, b.Has x y q) :
    ∃ accs, stmtAccs P l = some accs ∧ (∀ (x q : List Int) (arr : Nat) (y : List Int),
      (∃ a ∈ l, a.arr = arr ∧ ∃ b ∈ a.parts, b.Has x y q) →
        ∃ rows, (arr, rows) ∈ accs ∧ rows.map (fun r => dot r (x ++ q ++ [1])) = y) ∧
      ∀ z ∈ accs, ∃ a ∈ l, a.arr = z.1 ∧ ∃ b ∈ a.parts, ∀ x y q, b.Has x y q → z.2.map (fun r => dot r (x ++ q ++ [1])) = y := by
  have key : ∀ m : List (Nat × BMap), (∀ z ∈ m, P.OKFor z.2 ∧ (∀ i < z.2.nout, P.AffineDim z.2 i) ∧ ∃ x y q, z.2.Has x y q) →
      ∃ accs, m.mapM (fun z => (accRows P z.2).map (fun rows => (z.1, rows))) = some accs ∧
        (∀ z ∈ m, ∀ x y q, z.2.Has x y q → ∃ rows, (z.1, rows) ∈ accs ∧ rows.map (fun r => dot r (x ++ q ++ [1])) = y) ∧
        ∀ w ∈ accs, ∃ z ∈ m, z.1 = w.1 ∧ ∀ x y q, z.2.Has x y q → w.2.map (fun r => dot r (x ++ q ++ [1])) = y := by
    intro m hm
    induction m with
    | nil => exact ⟨[], rfl, by simp, by simp⟩
    | cons z m ih =>
      obtain ⟨accs, h1, h2, h3⟩ := ih (fun w hw => hm w (by simp [hw]))
      obtain ⟨k1, k2, k3⟩ := hm z (by simp)
      obtain ⟨rows, r1, -, -, -, r2⟩ := C74_access_partial P z.2 k1 k2 k3
      refine ⟨(z.1, rows) :: accs, by rw [List.mapM_cons, h1, r1]; rfl, ?_, ?_⟩
      · intro w hw x y q h
        rcases List.mem_cons.mp hw with rfl | hw
        · exact ⟨rows, by simp, r2 x y q h⟩
        · obtain ⟨rows', g1, g2⟩ := h2 w hw x y q h
          exact ⟨rows', by simp [g1], g2⟩
      · intro w hw
        rcases List.mem_cons.mp hw with rfl | hw
        · exact ⟨z, by simp, rfl, r2⟩
        · obtain ⟨z', g1, g2, g3⟩ := h3 w hw
          exact ⟨z', by simp [g1], g2, g3⟩
  obtain ⟨accs, h1, h2, h3⟩ := key (l.flatMap (fun a => a.parts.map (fun b => (a.arr, b)))) (by
    intro z hz
    obtain ⟨a, ha, hz⟩ := List.mem_flatMap.mp hz
    obtain ⟨b, hb, rfl⟩ := List.mem_map.mp hz
    exact hl a ha b hb)
  refine ⟨accs, h1, ?_, ?_⟩
  · rintro x q arr y ⟨a, ha, rfl, b, hb, h⟩
    exact h2 (a.arr, b) (List.mem_flatMap.mpr ⟨a, ha, List.mem_map_of_mem hb⟩) x y q h
  · intro w hw
    obtain ⟨z, hz, hz1, hz2⟩ := h3 w hw
    obtain ⟨a, ha, hz⟩ := List.mem_flatMap.mp hz
    obtain ⟨b, hb, rfl⟩ := List.mem_map.mp hz
    exact ⟨a, ha, hz1, b, hb, hz2⟩

/-- C74. The program made from a scop by `pet_to_pluto_prog` runs its instances in the order of the scop before it is
transformed: if the schedules are affine with integer coefficients, the times are those of the scop (with zeros added
so that all have the same number of components). -/
theorem C74_times_partial (P : PwOps) (ops : IslOps) (ho : ops.OK) (fo : FlowOps) (o : FlowOpts) (accs : Bool) (func : BMap → List (List Int)) (npar : Nat)
    (ps : List PetStmt) (hok : PetOK npar (petLive ps)) (hfunc : ∀ s ∈ petLive ps, mapFunc P s.sched = some (func s.sched))
    (hP : ∀ s ∈ petLive ps, P.OKFor s.sched ∧ (∀ i < s.sched.nout, P.AffineDim s.sched i) ∧ ∃ x t q, s.sched.Has x t q)
    (hne : accs = true → ∀ s ∈ petLive ps, ∀ a ∈ s.reads ++ s.writes, a.parts ≠ [])
    (hn : ∀ d, computeDeps fo o true (petReads (petLive ps)) (petWrites (petLive ps)) (petTimes (petLive ps)) = some d → FlowNamesOK npar (petLive ps) d)
    (p : Prog) (ds : List PetDep) (h : petToProg ops fo o accs func npar ps = some (p, ds)) :
    ∃ n, ∀ (i : Nat) (s : PetStmt) (x t q : List Int), (petLive ps)[i]? = some s → s.sched.Has x t q →
      p.timestamp i x q = t ++ List.replicate (n - t.length) 0 := by
  have hst : ∃ rows, p.stmts = (petLive ps).map (petStmt ops func npar rows) := by
    unfold petToProg at h
    simp only [Option.bind_eq_bind, Option.bind_eq_some_iff] at h
    obtain ⟨ds', -, h⟩ := h
    obtain rfl := (Prod.mk.injEq .. ▸ Option.some.inj h).1
    exact ⟨_, rfl⟩
  obtain ⟨rows, hst⟩ := hst
  refine ⟨rows, fun i s x t q hs ht => ?_⟩
  have hsm := List.mem_of_getElem? hs
  obtain ⟨k1, k2, k3⟩ := hP s hsm
  obtain ⟨R, -, r1, r2, r3, r4⟩ := C74_access_partial P s.sched k1 k2 k3
  obtain rfl := Option.some.inj (r1.symm.trans (hfunc s hsm))
  have hx : x.length = s.domain.nout := (hok.sched s hsm x q t ht).1.2.1
  have hq : q.length = npar := by rw [(hok.sched s hsm x q t ht).1.2.2.1, (hok.domain s hsm).2.2]
  simp only [Prog.timestamp, hst, List.getElem?_map, hs, Option.map_some, Option.getD_some, petStmt, List.map_append, List.map_replicate]
  have e := r4 x t q ht
  have hz : aff (List.replicate (s.domain.nout + npar + 1) 0) (x ++ q) = (0 : Int) := by
    unfold aff
    have : ∀ (m : Nat) (v : List Int), dot (List.replicate m 0) v = (0 : Int) := by
      intro m
      induction m with
      | zero => intro v; simp [dot]
      | succ m ih => intro v; cases v <;> simp [List.replicate_succ, dot, ih]
    exact this _ _
  rw [hz]
  have hl : (func s.sched).length = t.length := by rw [← e]; simp
  rw [hl]
  congr 1

/-- C74. Hence the program is legal before it is transformed, if the dependences are described without existentially
quantified variables. -/
theorem C74_initial_legal_partial (P : PwOps) (ops : IslOps) (ho : ops.OK) (fo : FlowOps) (o : FlowOpts) (accs : Bool) (func : BMap → List (List Int)) (npar : Nat)
    (ps : List PetStmt) (hok : PetOK npar (petLive ps)) (hfunc : ∀ s ∈ petLive ps, mapFunc P s.sched = some (func s.sched))
    (hP : ∀ s ∈ petLive ps, P.OKFor s.sched ∧ (∀ i < s.sched.nout, P.AffineDim s.sched i) ∧ ∃ x t q, s.sched.Has x t q)
    (hne : accs = true → ∀ s ∈ petLive ps, ∀ a ∈ s.reads ++ s.writes, a.parts ≠ [])
    (hfo : fo.OK (petReads (petLive ps)) (petWrites (petLive ps)) (petTimes (petLive ps)))
    (hn : ∀ d, computeDeps fo o true (petReads (petLive ps)) (petWrites (petLive ps)) (petTimes (petLive ps)) = some d → FlowNamesOK npar (petLive ps) d)
    (hdiv : ∀ d, computeDeps fo o true (petReads (petLive ps)) (petWrites (petLive ps)) (petTimes (petLive ps)) = some d →
      ∀ m ∈ d.raw ++ d.war ++ d.waw, m.rel.ndiv = 0)
    (p : Prog) (ds : List PetDep) (h : petToProg ops fo o accs func npar ps = some (p, ds)) : p.Legal := by
  obtain ⟨n, ht⟩ := C74_times_partial P ops ho fo o accs func npar ps hok hfunc hP hne hn p ds h
  have hd : p.deps = ds.map (·.dep) := by
    obtain ⟨p', ds', h', -, -, hdd, -⟩ := C64_program ops ho fo o accs func npar ps hok hne hn
    obtain ⟨rfl, rfl⟩ := Prod.mk.injEq .. ▸ Option.some.inj (h.symm.trans h')
    exact hdd
  intro d hdm hr s t q hs ht' hq hsat
  rw [hd] at hdm
  obtain ⟨e, he, rfl⟩ := List.mem_map.mp hdm
  obtain ⟨⟨S, T, u, v, h1, h2, h3, h4, h5⟩, -⟩ := C64_sound ops ho fo o accs func npar ps hok hne hfo hn hdiv p ds h e he s t q ⟨hs, ht', hq, hsat⟩
  rw [ht _ S s u q h1 h3, ht _ T t v q h2 h4]
  exact lex_append h5 _ _

end Pluto
