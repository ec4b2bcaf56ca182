import Verif.Spec.Polylib
import Verif.Props.CstList

/-! C88: set operations through PolyLib. -/

namespace Pluto

variable {P : Type} {B : PolyLib P} {dim : P → Nat} {mem : P → List Int → Prop}

theorem polyCopyList_eq (dest src : List Cst) (h : src ≠ []) : polyCopyList dest src = src := by
  induction src generalizing dest with
  | nil => exact absurd rfl h
  | cons s ss ih =>
    cases ss with
    | nil => unfold polyCopyList; cases dest <;> rfl
    | cons s1 ss =>
      unfold polyCopyList
      split
      · rename_i h1; cases h1
      · rename_i h1; cases h1
      · rename_i h1; cases h1; rw [ih _ (by simp)]
      · rename_i h1; cases h1; rw [ih _ (by simp)]
      · rename_i h1; cases h1; rw [ih _ (by simp)]

theorem toPolylib_dim (hB : B.OK dim mem) {w : Nat} {l : List Cst} (hl : UnionOf w l) :
    toPolylib B l ≠ [] ∧ ∀ q ∈ toPolylib B l, dim q = w := by
  refine ⟨by simpa [toPolylib] using hl.1, fun q hq => ?_⟩
  obtain ⟨c, hc, rfl⟩ := List.mem_map.mp hq
  rw [(hl.2 c hc).2]
  exact hB.ofDim _ _

theorem toPolylib_mem (hB : B.OK dim mem) {w : Nat} {l : List Cst} (hl : UnionOf w l) {x : List Int} (hx : x.length = w) :
    (∃ q ∈ toPolylib B l, mem q x) ↔ SatUnion l x := by
  have h1 : ∀ c ∈ l, (mem (B.ofRows (c.ncols + 1) (toMatrix c)) x ↔ c.Sat x) := by
    intro c hc
    obtain ⟨hwf, hn⟩ := hl.2 c hc
    rw [hn, hB.ofMem w _ x ?_ hx]
    · unfold toMatrix Cst.Sat
      constructor
      · intro h r hr
        have := h _ (List.mem_map_of_mem hr)
        unfold PolyRowSat at this
        unfold Row.Sat
        cases he : r.eq <;> simp [he] at this ⊢ <;> exact this
      · intro h r hr
        obtain ⟨r, hr', rfl⟩ := List.mem_map.mp hr
        have := h r hr'
        unfold PolyRowSat
        unfold Row.Sat at this
        cases he : r.eq <;> simp [he] at this ⊢ <;> exact this
    · intro r hr
      obtain ⟨r, hr', rfl⟩ := List.mem_map.mp hr
      have := hwf.2 r hr'
      simp only [List.length_cons]
      omega
  unfold toPolylib SatUnion
  constructor
  · rintro ⟨q, hq, hm⟩
    obtain ⟨c, hc, rfl⟩ := List.mem_map.mp hq
    exact ⟨c, hc, (h1 c hc).mp hm⟩
  · rintro ⟨c, hc, hm⟩
    exact ⟨_, List.mem_map_of_mem hc, (h1 c hc).mpr hm⟩

theorem ofPolylib_union (hB : B.OK dim mem) {w : Nat} {l : List P} (hne : l ≠ []) (hl : ∀ q ∈ l, dim q = w) : UnionOf w (ofPolylib B l) := by
  refine ⟨by simpa [ofPolylib] using hne, fun c hc => ?_⟩
  obtain ⟨q, hq, rfl⟩ := List.mem_map.mp hc
  obtain ⟨d1, d2⟩ := hB.toDim q
  have h1 : (ofPolyRows (B.toRows q)).ncols = w + 1 := by
    show (B.toRows q).1 - 1 = _
    rw [d1, hl q hq]; omega
  refine ⟨⟨by rw [h1]; omega, fun r hr => ?_⟩, h1⟩
  rw [h1]
  obtain ⟨r, hr', rfl⟩ := List.mem_map.mp hr
  simp only [List.length_drop, d2 r hr', hl q hq]
  omega

theorem ofPolylib_mem (hB : B.OK dim mem) {w : Nat} {l : List P} (hl : ∀ q ∈ l, dim q = w) {x : List Int} (hx : x.length = w) :
    SatUnion (ofPolylib B l) x ↔ ∃ q ∈ l, mem q x := by
  have h1 : ∀ q ∈ l, ((ofPolyRows (B.toRows q)).Sat x ↔ mem q x) := by
    intro q hq
    rw [hB.toMem q x (by rw [hl q hq, hx])]
    unfold Cst.Sat ofPolyRows
    constructor
    · intro h r hr
      have := h _ (List.mem_map_of_mem hr)
      unfold Row.Sat at this
      unfold PolyRowSat
      simpa using this
    · intro h r hr
      obtain ⟨r, hr', rfl⟩ := List.mem_map.mp hr
      have := h r hr'
      unfold PolyRowSat at this
      unfold Row.Sat
      simpa using this
  unfold ofPolylib SatUnion
  constructor
  · rintro ⟨c, hc, hm⟩
    obtain ⟨q, hq, rfl⟩ := List.mem_map.mp hc
    exact ⟨q, hq, (h1 q hq).mp hm⟩
  · rintro ⟨q, hq, hm⟩
    exact ⟨_, List.mem_map_of_mem hq, (h1 q hq).mpr hm⟩

/-- C88: `pluto_constraints_union` returns the union, and `pluto_constraints_unionize` puts it in place of its first
argument, for unions of any number of systems. -/
theorem C88_union (hB : B.OK dim mem) (w : Nat) (l1 l2 : List Cst) (h1 : UnionOf w l1) (h2 : UnionOf w l2) :
    polyUnionize B l1 l2 = polyUnion B l1 l2 ∧ UnionOf w (polyUnion B l1 l2) ∧
      ∀ x : List Int, x.length = w → (SatUnion (polyUnion B l1 l2) x ↔ SatUnion l1 x ∨ SatUnion l2 x) := by
  obtain ⟨a1, a2⟩ := toPolylib_dim hB h1
  obtain ⟨b1, b2⟩ := toPolylib_dim hB h2
  obtain ⟨c1, c2⟩ := hB.opDim B.union (by simp) w _ _ a1 b1 a2 b2
  have hu := ofPolylib_union hB c1 c2
  refine ⟨polyCopyList_eq _ _ hu.1, hu, fun x hx => ?_⟩
  unfold polyUnion
  rw [ofPolylib_mem hB c2 hx, hB.union w _ _ a2 b2 x hx, toPolylib_mem hB h1 hx, toPolylib_mem hB h2 hx]

/-- C88: `pluto_constraints_intersection` and `pluto_constraints_intersect`. -/
theorem C88_intersection (hB : B.OK dim mem) (w : Nat) (l1 l2 : List Cst) (h1 : UnionOf w l1) (h2 : UnionOf w l2) :
    polyIntersect B l1 l2 = polyIntersection B l1 l2 ∧ UnionOf w (polyIntersection B l1 l2) ∧
      ∀ x : List Int, x.length = w → (SatUnion (polyIntersection B l1 l2) x ↔ SatUnion l1 x ∧ SatUnion l2 x) := by
  obtain ⟨a1, a2⟩ := toPolylib_dim hB h1
  obtain ⟨b1, b2⟩ := toPolylib_dim hB h2
  obtain ⟨c1, c2⟩ := hB.opDim B.inter (by simp) w _ _ a1 b1 a2 b2
  have hu := ofPolylib_union hB c1 c2
  refine ⟨polyCopyList_eq _ _ hu.1, hu, fun x hx => ?_⟩
  unfold polyIntersection
  rw [ofPolylib_mem hB c2 hx, hB.inter w _ _ a2 b2 x hx, toPolylib_mem hB h1 hx, toPolylib_mem hB h2 hx]

/-- C88: `pluto_constraints_difference` and `pluto_constraints_subtract`. -/
theorem C88_difference (hB : B.OK dim mem) (w : Nat) (l1 l2 : List Cst) (h1 : UnionOf w l1) (h2 : UnionOf w l2) :
    ∃ l, polyDifference B l1 l2 = some l ∧ polySubtract B l1 l2 = some l ∧ UnionOf w l ∧
      ∀ x : List Int, x.length = w → (SatUnion l x ↔ SatUnion l1 x ∧ ¬ SatUnion l2 x) := by
  obtain ⟨a1, a2⟩ := toPolylib_dim hB h1
  obtain ⟨b1, b2⟩ := toPolylib_dim hB h2
  obtain ⟨c1, c2⟩ := hB.opDim B.diff (by simp) w _ _ a1 b1 a2 b2
  have hu := ofPolylib_union hB c1 c2
  have hd : polyDifference B l1 l2 = some (ofPolylib B (B.diff (toPolylib B l1) (toPolylib B l2))) := by
    unfold polyDifference
    rw [if_pos]
    cases l1 with
    | nil => exact absurd rfl h1.1
    | cons c cs =>
      cases l2 with
      | nil => exact absurd rfl h2.1
      | cons d ds =>
        simp only [List.head?_cons, Option.map_some]
        rw [(h1.2 c (by simp)).2, (h2.2 d (by simp)).2]
  refine ⟨_, hd, ?_, hu, fun x hx => ?_⟩
  · unfold polySubtract
    rw [hd, Option.map_some, polyCopyList_eq _ _ hu.1]
  · rw [ofPolylib_mem hB c2 hx, hB.diff w _ _ a2 b2 x hx, toPolylib_mem hB h1 hx, toPolylib_mem hB h2 hx]

/-- C88: with `islsolve`, emptiness is asked of the whole union, and the answer is right. -/
theorem C88_is_empty_isl (setEmpty : List Cst → Bool) (w : Nat)
    (hS : ∀ l, UnionOf w l → (setEmpty l = true ↔ ¬ ∃ x : List Int, x.length = w ∧ SatUnion l x)) (l : List Cst) (hl : UnionOf w l) :
    isEmptyIsl setEmpty l = true ↔ ¬ ∃ x : List Int, x.length = w ∧ SatUnion l x := by
  induction l with
  | nil => exact absurd rfl hl.1
  | cons c cs ih =>
    rw [← hS _ hl]
    unfold isEmptyIsl
    split_ifs with h1 h2
    · simp [h1]
    · simp only [h1, iff_true]
      refine (ih ⟨h2, fun d hd => hl.2 d (by simp [hd])⟩).mpr ?_
      rintro ⟨x, hx, d, hd, hs⟩
      exact (hS _ hl).mp h1 ⟨x, hx, d, by simp [hd], hs⟩
    · simp [h1]

/-- C88: `pluto_constraints_are_equal` answers 1 exactly if the two unions have the same integer points. -/
theorem C88_are_equal (hB : B.OK dim mem) (w : Nat) (empty : List Cst → Bool)
    (hS : ∀ l, UnionOf w l → (empty l = true ↔ ¬ ∃ x : List Int, x.length = w ∧ SatUnion l x)) (l1 l2 : List Cst)
    (h1 : UnionOf w l1) (h2 : UnionOf w l2) :
    ∃ b, areEqual B empty l1 l2 = some b ∧ (b = true ↔ ∀ x : List Int, x.length = w → (SatUnion l1 x ↔ SatUnion l2 x)) := by
  obtain ⟨d1, e1, _, u1, m1⟩ := C88_difference hB w l1 l2 h1 h2
  obtain ⟨d2, e2, _, u2, m2⟩ := C88_difference hB w l2 l1 h2 h1
  unfold areEqual
  simp only [e1, e2, Option.bind_eq_bind, Option.bind_some, Option.pure_def]
  have f1 : empty d1 = true ↔ ∀ x : List Int, x.length = w → SatUnion l1 x → SatUnion l2 x := by
    rw [hS _ u1]
    constructor
    · intro h x hx hs
      by_contra hn
      exact h ⟨x, hx, (m1 x hx).mpr ⟨hs, hn⟩⟩
    · rintro h ⟨x, hx, hs⟩
      exact ((m1 x hx).mp hs).2 (h x hx ((m1 x hx).mp hs).1)
  have f2 : empty d2 = true ↔ ∀ x : List Int, x.length = w → SatUnion l2 x → SatUnion l1 x := by
    rw [hS _ u2]
    constructor
    · intro h x hx hs
      by_contra hn
      exact h ⟨x, hx, (m2 x hx).mpr ⟨hs, hn⟩⟩
    · rintro h ⟨x, hx, hs⟩
      exact ((m2 x hx).mp hs).2 (h x hx ((m2 x hx).mp hs).1)
  split_ifs with hc
  · exact ⟨_, rfl, by rw [f2]; exact ⟨fun h x hx => ⟨f1.mp hc x hx, h x hx⟩, fun h x hx => (h x hx).mpr⟩⟩
  · refine ⟨false, rfl, ?_⟩
    simp only [Bool.false_eq_true, false_iff]
    exact fun h => hc (f1.mpr (fun x hx => (h x hx).mp))

end Pluto
