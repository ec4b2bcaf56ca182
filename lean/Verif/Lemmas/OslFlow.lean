import Verif.Lemmas.OslMap
import Verif.Lemmas.FlowNames
import Verif.Lemmas.PetExtract

/-! What isl is given for a scop: reads, writes and times of the instances. -/

namespace Pluto

theorem oslCodeStmt_code (accs : Bool) (i : Nat) (w : Bool) (k : Nat) : oslCodeStmt accs (oslCode accs i w k) = i := by
  unfold oslCodeStmt oslCode
  cases accs
  · rfl
  · simp only [if_true]
    rw [codeName_accCode, nameStmt_accName]

theorem mem_oslNamed {accs : Bool} {i : Nat} {w : Bool} {l : List PetAcc} {m : IslAcc} :
    m ∈ oslNamed accs i w l ↔ ∃ (k : Nat) (a : PetAcc), l[k]? = some a ∧ m.stmt = oslCode accs i w k ∧ m.arr = a.arr ∧ m.rel ∈ a.parts := by
  unfold oslNamed
  simp only [List.mem_flatten, List.mem_mapIdx]
  constructor
  · rintro ⟨_, ⟨k, hk, rfl⟩, h⟩
    obtain ⟨b, hb, rfl⟩ := List.mem_map.mp h
    exact ⟨k, l[k], List.getElem?_eq_getElem hk, rfl, rfl, hb⟩
  · rintro ⟨k, a, h1, h2, h3, h4⟩
    obtain ⟨hk, rfl⟩ := List.getElem?_eq_some_iff.mp h1
    refine ⟨_, ⟨k, hk, rfl⟩, List.mem_map.mpr ⟨m.rel, h4, ?_⟩⟩
    cases m
    simp_all

/-- The accesses of a kind. -/
def OslIsl.accs (s : OslIsl) (w : Bool) : List PetAcc := if w then s.writes else s.reads

/-- The isl maps of a kind. -/
def oslMaps (accs w : Bool) (l : List OslIsl) : List IslAcc := (l.mapIdx (fun i s => oslNamed accs i w (s.accs w))).flatten

theorem oslReads_maps (accs : Bool) (l : List OslIsl) : oslReads accs l = oslMaps accs false l := rfl
theorem oslWrites_maps (accs : Bool) (l : List OslIsl) : oslWrites accs l = oslMaps accs true l := rfl

theorem touches_oslMaps {accs w : Bool} {l : List OslIsl} {q : List Int} {p e : Pt} :
    Touches (oslMaps accs w l) q p e ↔ ∃ (i k : Nat) (s : OslIsl) (a : PetAcc), p.1 = oslCode accs i w k ∧ l[i]? = some s ∧ (s.accs w)[k]? = some a ∧
      a.arr = e.1 ∧ ∃ b ∈ a.parts, b.Has p.2 e.2 q := by
  unfold Touches oslMaps
  simp only [List.mem_flatten, List.mem_mapIdx]
  constructor
  · rintro ⟨m, ⟨_, ⟨i, hi, rfl⟩, hm⟩, h1, h2, h3⟩
    obtain ⟨k, a, g1, g2, g3, g4⟩ := mem_oslNamed.mp hm
    exact ⟨i, k, l[i], a, by rw [← h1, g2], List.getElem?_eq_getElem hi, g1, by rw [← g3, h2], m.rel, g4, h3⟩
  · rintro ⟨i, k, s, a, h1, h2, h3, h4, b, hb, h5⟩
    obtain ⟨hi, rfl⟩ := List.getElem?_eq_some_iff.mp h2
    exact ⟨⟨oslCode accs i w k, a.arr, b⟩, ⟨_, ⟨i, hi, rfl⟩, mem_oslNamed.mpr ⟨k, a, h3, rfl, rfl, hb⟩⟩, h1.symm, h4, h5⟩

theorem atTime_oslTimes {accs : Bool} {l : List OslIsl} {q : List Int} {p : Pt} {t : List Int} :
    AtTime (oslTimes accs l) q p t ↔ ∃ (i : Nat) (w : Bool) (k : Nat) (s : OslIsl), p.1 = oslCode accs i w k ∧ l[i]? = some s ∧
      (accs = true → k < (s.accs w).length) ∧ s.sched.Has p.2 t q := by
  unfold AtTime oslTimes
  simp only [List.mem_flatten, List.mem_mapIdx]
  constructor
  · rintro ⟨m, ⟨_, ⟨i, hi, rfl⟩, hm⟩, h1, h2⟩
    cases accs with
    | true =>
      simp only [if_true] at hm
      rcases List.mem_append.mp hm with hm | hm
      · obtain ⟨k, hk, rfl⟩ := List.mem_mapIdx.mp hm
        exact ⟨i, false, k, l[i], h1.symm, List.getElem?_eq_getElem hi, fun _ => hk, h2⟩
      · obtain ⟨k, hk, rfl⟩ := List.mem_mapIdx.mp hm
        exact ⟨i, true, k, l[i], h1.symm, List.getElem?_eq_getElem hi, fun _ => hk, h2⟩
    | false =>
      simp only [Bool.false_eq_true, if_false, List.mem_singleton] at hm
      subst hm
      exact ⟨i, true, 0, l[i], h1.symm, List.getElem?_eq_getElem hi, by simp, h2⟩
  · rintro ⟨i, w, k, s, h1, h2, h3, h4⟩
    obtain ⟨hi, rfl⟩ := List.getElem?_eq_some_iff.mp h2
    refine ⟨⟨oslCode accs i w k, l[i].sched⟩, ⟨_, ⟨i, hi, rfl⟩, ?_⟩, h1.symm, h4⟩
    cases accs with
    | true =>
      simp only [if_true, List.mem_append]
      cases w with
      | false => exact .inl (List.mem_mapIdx.mpr ⟨k, h3 rfl, rfl⟩)
      | true => exact .inr (List.mem_mapIdx.mpr ⟨k, h3 rfl, rfl⟩)
    | false => simp [oslCode]

/-- The element as isl sees it. -/
def islElem (e : Pt) : Pt := (e.1 - 1, islIdx e.2)

/-- The accesses of a kind. -/
def OslStmt.rels (s : OslStmt) (w : Bool) : List OslRel := if w then s.writes else s.reads

/-- Instance `p` accesses element `e` of isl with access `k` of the kind. -/
def OslAccAt (sc : OslScop) (q : List Int) (w : Bool) (k : Nat) (p e : Pt) : Prop :=
  OslRuns sc q p ∧ ∃ s r y, sc.stmts[p.1]? = some s ∧ (s.rels w)[k]? = some r ∧ r.Has ((oslArrayId r : Int) :: y) p.2 q ∧ e.1 + 1 = oslArrayId r ∧ e.2 = islIdx y

theorem forall2_get? {α β : Type*} {P : α → β → Prop} {l : List α} {r : List β} (h : List.Forall₂ P l r) {k : Nat} {b : β} (hb : r[k]? = some b) :
    ∃ a, l[k]? = some a ∧ P a b := by
  obtain ⟨hl, ha⟩ := List.forall₂_iff_get.mp h
  obtain ⟨hk, rfl⟩ := List.getElem?_eq_some_iff.mp hb
  exact ⟨l[k]'(by omega), List.getElem?_eq_getElem _, ha k (by omega) hk⟩

theorem forall2_get?' {α β : Type*} {P : α → β → Prop} {l : List α} {r : List β} (h : List.Forall₂ P l r) {k : Nat} {a : α} (hb : l[k]? = some a) :
    ∃ b, r[k]? = some b ∧ P a b := by
  obtain ⟨hl, ha⟩ := List.forall₂_iff_get.mp h
  obtain ⟨hk, rfl⟩ := List.getElem?_eq_some_iff.mp hb
  exact ⟨r[k]'(by omega), List.getElem?_eq_getElem _, ha k hk (by omega)⟩

theorem StmtRight.kind {ctx : OslRel} {s : OslStmt} {i : OslIsl} (h : StmtRight ctx s i) (w : Bool) :
    ∃ d, s.domain = [d] ∧ List.Forall₂ (AccRight ctx d) (s.rels w) (i.accs w) := by
  obtain ⟨d, h1, h2, h3⟩ := h.accs
  refine ⟨d, h1, ?_⟩
  cases w with
  | false => exact h2
  | true => exact h3

theorem touches_osl {sc : OslScop} {isl : List OslIsl} (h : List.Forall₂ (StmtRight sc.context) sc.stmts isl) {accs w : Bool} {q : List Int} {p e : Pt} :
    Touches (oslMaps accs w isl) q p e ↔ ∃ i k, p.1 = oslCode accs i w k ∧ OslAccAt sc q w k (i, p.2) e := by
  rw [touches_oslMaps]
  constructor
  · rintro ⟨i, k, s', a, h1, h2, h3, h4, b, hb, h5⟩
    obtain ⟨s, hs, hr⟩ := forall2_get? h h2
    obtain ⟨d, hd, ha⟩ := hr.kind w
    obtain ⟨r, hr', e1, b', e2, e3⟩ := forall2_get? ha h3
    rw [e2, List.mem_singleton] at hb
    subst hb
    obtain ⟨⟨g1, g2⟩, y, g3, g4⟩ := (e3 _ _ _).mp h5
    exact ⟨i, k, h1, ⟨g1, s, hs, d, by simp [hd], g2⟩, s, r, y, hs, hr', g4, by rw [← h4, e1], g3⟩
  · rintro ⟨i, k, h1, ⟨g1, s, hs, d, hd, g2⟩, s', r, y, hs', h3, h4, h5, h6⟩
    rw [hs] at hs'
    cases hs'
    obtain ⟨s', hs', hr⟩ := forall2_get?' h hs
    obtain ⟨d', hd', ha⟩ := hr.kind w
    rw [hd', List.mem_singleton] at hd
    subst hd
    obtain ⟨a, ha', e1, b, e2, e3⟩ := forall2_get?' ha h3
    refine ⟨i, k, s', a, h1, hs', ha', by omega, b, by simp [e2], (e3 _ _ _).mpr ⟨⟨g1, g2⟩, y, h6, h4⟩⟩

theorem atTime_osl {sc : OslScop} {isl : List OslIsl} (h : List.Forall₂ (StmtRight sc.context) sc.stmts isl) {accs : Bool} {q : List Int} {p : Pt} {t : List Int} :
    AtTime (oslTimes accs isl) q p t ↔ ∃ (i : Nat) (w : Bool) (k : Nat) (s : OslStmt), p.1 = oslCode accs i w k ∧ sc.stmts[i]? = some s ∧
      (accs = true → k < (s.rels w).length) ∧ s.scat.Has t p.2 q := by
  rw [atTime_oslTimes]
  constructor
  · rintro ⟨i, w, k, s', h1, h2, h3, h4⟩
    obtain ⟨s, hs, hr⟩ := forall2_get? h h2
    obtain ⟨d, hd, ha⟩ := hr.kind w
    exact ⟨i, w, k, s, h1, hs, fun ha' => by rw [ha.length_eq]; exact h3 ha', (hr.sched _ _ _).mp h4⟩
  · rintro ⟨i, w, k, s, h1, h2, h3, h4⟩
    obtain ⟨s', hs', hr⟩ := forall2_get?' h h2
    obtain ⟨d, hd, ha⟩ := hr.kind w
    exact ⟨i, w, k, s', h1, hs', fun ha' => by rw [← ha.length_eq]; exact h3 ha', (hr.sched _ _ _).mpr h4⟩

/-- The instance has the time. -/
def OslAt (sc : OslScop) (q : List Int) (p : Pt) (t : List Int) : Prop := ∃ s, sc.stmts[p.1]? = some s ∧ s.scat.Has t p.2 q

theorem osl_names {sc : OslScop} (hok : sc.OK) {isl : List OslIsl} (h : List.Forall₂ (StmtRight sc.context) sc.stmts isl) (accs : Bool) (q : List Int) :
    NamesRight (oslCodeStmt accs) (fun p e => ∃ k, OslAccAt sc q false k p e) (fun p e => ∃ k, OslAccAt sc q true k p e) (OslAt sc q)
      (oslReads accs isl) (oslWrites accs isl) (oslTimes accs isl) q := by
  rw [oslReads_maps, oslWrites_maps]
  have one : ∀ w p e, Touches (oslMaps accs w isl) q p e → ∃ k, OslAccAt sc q w k (decPt (oslCodeStmt accs) p) e := by
    intro w p e ht
    obtain ⟨i, k, h1, h2⟩ := (touches_osl h).mp ht
    refine ⟨k, ?_⟩
    rw [show decPt (oslCodeStmt accs) p = (i, p.2) by unfold decPt; rw [h1, oslCodeStmt_code]]
    exact h2
  have two : ∀ w (a e : Pt), (∃ k, OslAccAt sc q w k a e) → ∃ c, oslCodeStmt accs c = a.1 ∧ Touches (oslMaps accs w isl) q (c, a.2) e := by
    rintro w a e ⟨k, hk⟩
    exact ⟨oslCode accs a.1 w k, oslCodeStmt_code _ _ _ _, (touches_osl h).mpr ⟨a.1, k, rfl, hk⟩⟩
  have three : ∀ (w : Bool) (p : Pt) (t : List Int) (e : Pt), Touches (oslMaps accs w isl) q p e → OslAt sc q (decPt (oslCodeStmt accs) p) t → AtTime (oslTimes accs isl) q p t := by
    rintro w p t e ht ⟨s, hs, hh⟩
    obtain ⟨i, k, h1, -, s', r, y, h2, h3, -⟩ := (touches_osl h).mp ht
    rw [show decPt (oslCodeStmt accs) p = (i, p.2) by unfold decPt; rw [h1, oslCodeStmt_code]] at hs hh
    rw [hs] at h2
    cases h2
    exact (atTime_osl h).mpr ⟨i, w, k, s, h1, hs, fun _ => (List.getElem?_eq_some_iff.mp h3).1, hh⟩
  refine ⟨one false, two false, one true, two true, ?_, ?_, ?_⟩
  · intro p t ht
    obtain ⟨i, w, k, s, h1, h2, -, h3⟩ := (atTime_osl h).mp ht
    rw [show decPt (oslCodeStmt accs) p = (i, p.2) by unfold decPt; rw [h1, oslCodeStmt_code]]
    exact ⟨s, h2, h3⟩
  · rintro p t e (ht | ht) hat
    · exact three _ p t e ht hat
    · exact three _ p t e ht hat
  · rintro a t t' ⟨s, hs, h1⟩ ⟨s', hs', h2⟩
    rw [hs] at hs'
    cases hs'
    obtain ⟨w, -, f, hf⟩ := (hok.stmts s (List.mem_of_getElem? hs)).scat
    rw [((hf.has w.noLocal _ _ _).mp h1).2.2, ((hf.has w.noLocal _ _ _).mp h2).2.2]

/-- An element read or written, as isl sees it. -/
theorem oslReadsElem_iff {sc : OslScop} (hok : sc.OK) {q : List Int} {p e' : Pt} :
    (∃ k, OslAccAt sc q false k p e') ↔ ∃ e, OslReadsElem sc q p e ∧ e' = islElem e := by
  constructor
  · rintro ⟨k, hr, s, r, y, h1, h2, h3, h4, h5⟩
    refine ⟨(oslArrayId r, y), ⟨hr, s, h1, (.read, r), OslStmt.reads_mem.mp (List.mem_of_getElem? h2), rfl, h3⟩, ?_⟩
    exact Prod.ext (by simp only [islElem]; omega) h5
  · rintro ⟨e, ⟨hr, s, h1, a, ha, h2, h3⟩, rfl⟩
    obtain ⟨k, hk⟩ := List.mem_iff_getElem?.mp (OslStmt.reads_mem.mpr (show (OslType.read, a.2) ∈ s.accs by rw [← h2]; exact ha))
    obtain ⟨w, -, id, f, hf⟩ := (hok.stmts s (List.mem_of_getElem? h1)).accs a ha
    obtain ⟨-, -, g1, -⟩ := (hf.has w.noLocal _ _ _ _).mp h3
    have := hf.1
    refine ⟨k, hr, s, a.2, e.2, h1, hk, by rw [hf.arrayId, ← g1]; exact h3, ?_, rfl⟩
    rw [hf.arrayId, ← g1]; simp only [islElem]; omega

theorem oslWritesElem_iff {sc : OslScop} (hok : sc.OK) {q : List Int} {p e' : Pt} :
    (∃ k, OslAccAt sc q true k p e') ↔ ∃ e, OslWritesElem sc q p e ∧ e' = islElem e := by
  constructor
  · rintro ⟨k, hr, s, r, y, h1, h2, h3, h4, h5⟩
    obtain ⟨a, ha, h6, rfl⟩ := OslStmt.writes_mem.mp (List.mem_of_getElem? h2)
    refine ⟨(oslArrayId a.2, y), ⟨hr, s, h1, a, ha, h6, h3⟩, ?_⟩
    exact Prod.ext (by simp only [islElem]; omega) h5
  · rintro ⟨e, ⟨hr, s, h1, a, ha, h2, h3⟩, rfl⟩
    obtain ⟨k, hk⟩ := List.mem_iff_getElem?.mp (OslStmt.writes_mem.mpr ⟨a, ha, h2, rfl⟩)
    obtain ⟨w, -, id, f, hf⟩ := (hok.stmts s (List.mem_of_getElem? h1)).accs a ha
    obtain ⟨-, -, g1, -⟩ := (hf.has w.noLocal _ _ _ _).mp h3
    have := hf.1
    refine ⟨k, hr, s, a.2, e.2, h1, hk, by rw [hf.arrayId, ← g1]; exact h3, ?_, rfl⟩
    rw [hf.arrayId, ← g1]; simp only [islElem]; omega

/-- Finitely many named writes for finitely many instances. -/
theorem oslWrites_finite {sc : OslScop} {isl : List OslIsl} (h : List.Forall₂ (StmtRight sc.context) sc.stmts isl) (accs : Bool) (q : List Int)
    (hfin : {a | OslRuns sc q a}.Finite) (e : Pt) : {a | Touches (oslWrites accs isl) q a e}.Finite := by
  have hK : ∀ s ∈ sc.stmts, s.writes.length ≤ (sc.stmts.map (·.writes.length)).foldl max 0 := fun s hs =>
    le_foldl_max _ 0 _ (List.mem_map_of_mem (f := fun s : OslStmt => s.writes.length) hs)
  refine ((hfin.prod (Set.finite_lt_nat ((sc.stmts.map (·.writes.length)).foldl max 0))).image (fun z => (oslCode accs z.1.1 true z.2, z.1.2))).subset ?_
  intro a ha
  rw [Set.mem_setOf_eq, oslWrites_maps] at ha
  obtain ⟨i, k, h1, hr, s, r, y, h2, h3, -⟩ := (touches_osl h).mp ha
  exact ⟨((i, a.2), k), ⟨hr, lt_of_lt_of_le (List.getElem?_eq_some_iff.mp h3).1 (hK s (List.mem_of_getElem? h2))⟩, Prod.ext h1.symm rfl⟩

end Pluto
