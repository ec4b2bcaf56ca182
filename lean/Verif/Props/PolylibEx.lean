import Verif.Props.Polylib
import Verif.Lemmas.Extent
import Verif.Lemmas.Dims
import Verif.Lemmas.Satisfaction

/-! C88: a library that does what is expected from PolyLib, so that the hypotheses of C88 can be met. -/

namespace Pluto

/-- A polyhedron kept as its matrix. -/
def ExPoly : Type := { q : Nat × List (List Int) // ∀ r ∈ q.2, r.length = q.1 + 2 }

def ExPoly.mk (n : Nat) (rows : List (List Int)) : ExPoly :=
  ⟨(n, rows.filter (fun r => decide (r.length = n + 2))), by
    intro r hr
    simpa using (List.mem_filter.mp hr).2⟩

def ExPoly.dim (q : ExPoly) : Nat := q.1.1

def ExPoly.mem (q : ExPoly) (x : List Int) : Prop := ∀ r ∈ q.1.2, PolyRowSat r x

theorem ExPoly.mem_mk {n : Nat} {rows : List (List Int)} (h : ∀ r ∈ rows, r.length = n + 2) (x : List Int) :
    (ExPoly.mk n rows).mem x ↔ ∀ r ∈ rows, PolyRowSat r x := by
  unfold ExPoly.mem ExPoly.mk
  simp only [List.mem_filter, decide_eq_true_eq]
  exact ⟨fun hh r hr => hh r ⟨hr, h r hr⟩, fun hh r hr => hh r hr.1⟩

/-- The rows one of which holds exactly where `r` does not. -/
def exNegRows (r : List Int) : List (List Int) :=
  if r.headD 0 = 0 then [1 :: addLast (r.drop 1) (-1), 1 :: addLast ((r.drop 1).map (- ·)) (-1)]
  else [1 :: addLast ((r.drop 1).map (- ·)) (-1)]

theorem exNegRows_len {n : Nat} {r : List Int} (h : r.length = n + 2) : ∀ s ∈ exNegRows r, s.length = n + 2 := by
  intro s hs
  unfold exNegRows at hs
  split_ifs at hs
  · simp only [List.mem_cons, List.not_mem_nil, or_false] at hs
    rcases hs with rfl | rfl <;> simp [addLast_length, h]
  · simp only [List.mem_cons, List.not_mem_nil, or_false] at hs
    subst hs
    simp [addLast_length, h]

theorem exNegRows_sat {n : Nat} {r x : List Int} (h : r.length = n + 2) (hx : x.length = n) :
    (∃ s ∈ exNegRows r, PolyRowSat s x) ↔ ¬ PolyRowSat r x := by
  have h1 : aff (addLast (r.drop 1) (-1)) x = aff (r.drop 1) x + -1 := aff_addLast _ _ _ (by simp [h, hx])
  have h2 : aff (addLast ((r.drop 1).map (- ·)) (-1)) x = -aff (r.drop 1) x + -1 := by
    rw [aff_addLast _ _ _ (by simp [h, hx]), aff_neg_row]
  unfold exNegRows
  split_ifs with hz
  · simp only [List.mem_cons, List.not_mem_nil, or_false, exists_eq_or_imp, exists_eq_left]
    unfold PolyRowSat
    simp only [List.headD_cons, one_ne_zero, if_false, List.drop_succ_cons, List.drop_zero, h1, h2, hz, if_true]
    omega
  · simp only [List.mem_cons, List.not_mem_nil, or_false, exists_eq_left]
    unfold PolyRowSat
    simp only [List.headD_cons, one_ne_zero, if_false, List.drop_succ_cons, List.drop_zero, h2, hz]
    omega

/-- One polyhedron minus another. -/
def exMinus (p q : ExPoly) : List ExPoly := (q.1.2.flatMap exNegRows).map (fun r => ExPoly.mk p.dim (r :: p.1.2))

theorem exMinus_dim {p q : ExPoly} : ∀ r ∈ exMinus p q, r.dim = p.dim := by
  intro r hr
  obtain ⟨s, _, rfl⟩ := List.mem_map.mp hr
  rfl

theorem exMinus_mem {w : Nat} {p q : ExPoly} (hp : p.dim = w) (hq : q.dim = w) {x : List Int} (hx : x.length = w) :
    (∃ r ∈ exMinus p q, r.mem x) ↔ p.mem x ∧ ¬ q.mem x := by
  have hql : ∀ r ∈ q.1.2, r.length = w + 2 := by rw [← hq]; exact q.2
  have hpl : ∀ r ∈ p.1.2, r.length = w + 2 := by rw [← hp]; exact p.2
  have hmk : ∀ s : List Int, s.length = w + 2 → ((ExPoly.mk p.dim (s :: p.1.2)).mem x ↔ PolyRowSat s x ∧ p.mem x) := by
    intro s hs
    rw [hp, ExPoly.mem_mk (by
      intro r hr
      rcases List.mem_cons.mp hr with rfl | hr
      · exact hs
      · exact hpl r hr)]
    simp only [List.forall_mem_cons]
    rfl
  constructor
  · rintro ⟨r, hr, hm⟩
    obtain ⟨s, hs, rfl⟩ := List.mem_map.mp hr
    obtain ⟨t, ht, hs⟩ := List.mem_flatMap.mp hs
    obtain ⟨a, b⟩ := (hmk s (exNegRows_len (hql t ht) s hs)).mp hm
    refine ⟨b, fun hh => ?_⟩
    exact (exNegRows_sat (hql t ht) hx).mp ⟨s, hs, a⟩ (hh t ht)
  · rintro ⟨a, b⟩
    unfold ExPoly.mem at b
    push Not at b
    obtain ⟨t, ht, b⟩ := b
    obtain ⟨s, hs, hc⟩ := (exNegRows_sat (hql t ht) hx).mpr b
    exact ⟨_, List.mem_map_of_mem (List.mem_flatMap.mpr ⟨t, ht, hs⟩), (hmk s (exNegRows_len (hql t ht) s hs)).mpr ⟨hc, a⟩⟩

/-- A polyhedron without points. -/
def exNone (n : Nat) : ExPoly := ExPoly.mk n [1 :: (zrow n ++ [-1])]

theorem exNone_mem {n : Nat} {x : List Int} (hx : x.length = n) : ¬ (exNone n).mem x := by
  unfold exNone
  rw [ExPoly.mem_mk (by simp [zrow])]
  intro h
  have := h _ (List.mem_singleton_self _)
  unfold PolyRowSat at this
  simp only [List.headD_cons, one_ne_zero, if_false, List.drop_succ_cons, List.drop_zero] at this
  have h2 := aff_zrow_append n [-1] x [] hx
  rw [List.append_nil] at h2
  rw [h2] at this
  simp [aff, dot] at this

def exDiff : List ExPoly → List ExPoly → List ExPoly
  | [], _ => []
  | p :: l1, l2 => exNone p.dim :: l2.foldl (fun acc q => acc.flatMap (fun p => exMinus p q)) (p :: l1)

theorem exDiff_fold {w : Nat} {x : List Int} (hx : x.length = w) (l2 : List ExPoly) (h2 : ∀ q ∈ l2, q.dim = w) :
    ∀ l1 : List ExPoly, (∀ q ∈ l1, q.dim = w) →
      (∀ q ∈ l2.foldl (fun acc q => acc.flatMap (fun p => exMinus p q)) l1, q.dim = w) ∧
      ((∃ q ∈ l2.foldl (fun acc q => acc.flatMap (fun p => exMinus p q)) l1, q.mem x) ↔ (∃ q ∈ l1, q.mem x) ∧ ¬ ∃ q ∈ l2, q.mem x) := by
  induction l2 with
  | nil => intro l1 h1; exact ⟨h1, by simp⟩
  | cons q l2 ih =>
    intro l1 h1
    have hq := h2 q (by simp)
    obtain ⟨a, b⟩ := ih (fun r hr => h2 r (by simp [hr])) (l1.flatMap (fun p => exMinus p q)) (by
      intro r hr
      obtain ⟨p, hp, hr⟩ := List.mem_flatMap.mp hr
      rw [exMinus_dim r hr, h1 p hp])
    refine ⟨a, ?_⟩
    rw [List.foldl_cons, b]
    constructor
    · rintro ⟨⟨r, hr, hm⟩, hn⟩
      obtain ⟨p, hp, hr⟩ := List.mem_flatMap.mp hr
      obtain ⟨c, d⟩ := (exMinus_mem (h1 p hp) hq hx).mp ⟨r, hr, hm⟩
      refine ⟨⟨p, hp, c⟩, ?_⟩
      rintro ⟨s, hs, hm⟩
      rcases List.mem_cons.mp hs with rfl | hs
      · exact d hm
      · exact hn ⟨s, hs, hm⟩
    · rintro ⟨⟨p, hp, hm⟩, hn⟩
      obtain ⟨r, hr, hrm⟩ := (exMinus_mem (h1 p hp) hq hx).mpr ⟨hm, fun hh => hn ⟨q, by simp, hh⟩⟩
      exact ⟨⟨r, List.mem_flatMap.mpr ⟨p, hp, hr⟩, hrm⟩, fun ⟨s, hs, hm⟩ => hn ⟨s, by simp [hs], hm⟩⟩

def exPolyLib : PolyLib ExPoly where
  ofRows n rows := ExPoly.mk (n - 2) rows
  toRows q := (q.1.1 + 2, q.1.2)
  union l1 l2 := l1 ++ l2
  diff := exDiff
  inter l1 l2 := l1.flatMap (fun p => l2.map (fun q => ExPoly.mk p.dim (p.1.2 ++ q.1.2)))

/-- C88: the hypothesis on PolyLib can be met. -/
theorem exPolyLib_ok : exPolyLib.OK ExPoly.dim ExPoly.mem where
  ofDim := fun w rows => rfl
  ofMem := fun w rows x h hx => ExPoly.mem_mk h x
  toDim := fun q => ⟨rfl, q.2⟩
  toMem := fun q x hx => Iff.rfl
  opDim := by
    intro op hop w l1 l2 n1 n2 d1 d2
    simp only [List.mem_cons, List.not_mem_nil, or_false] at hop
    rcases hop with rfl | rfl | rfl
    · refine ⟨by simp [exPolyLib, n1], fun q hq => ?_⟩
      rcases List.mem_append.mp hq with hq | hq
      · exact d1 q hq
      · exact d2 q hq
    · obtain ⟨p, l1, rfl⟩ := List.exists_cons_of_ne_nil n1
      refine ⟨by simp [exPolyLib, exDiff], fun q hq => ?_⟩
      rcases List.mem_cons.mp hq with rfl | hq
      · exact d1 p (by simp)
      · exact (exDiff_fold (x := List.replicate w 0) (by simp) l2 d2 (p :: l1) d1).1 q hq
    · refine ⟨?_, fun q hq => ?_⟩
      · obtain ⟨p, l1, rfl⟩ := List.exists_cons_of_ne_nil n1
        obtain ⟨q, l2, rfl⟩ := List.exists_cons_of_ne_nil n2
        simp [exPolyLib]
      · obtain ⟨p, hp, hq⟩ := List.mem_flatMap.mp hq
        obtain ⟨r, hr, rfl⟩ := List.mem_map.mp hq
        exact d1 p hp
  union := by
    intro w l1 l2 _ _ x _
    simp only [exPolyLib, List.mem_append, or_and_right, exists_or]
  diff := by
    intro w l1 l2 d1 d2 x hx
    have h := (exDiff_fold hx l2 d2 l1 d1).2
    show (∃ q ∈ exDiff l1 l2, q.mem x) ↔ _
    cases l1 with
    | nil => simp [exDiff]
    | cons p l1 =>
      have hp : p.dim = w := d1 p (by simp)
      rw [← h]
      simp only [exDiff, hp]
      constructor
      · rintro ⟨q, hq, hm⟩
        rcases List.mem_cons.mp hq with rfl | hq
        · exact absurd hm (exNone_mem hx)
        · exact ⟨q, hq, hm⟩
      · rintro ⟨q, hq, hm⟩
        exact ⟨q, by simp [hq], hm⟩
  inter := by
    intro w l1 l2 d1 d2 x hx
    have hmk : ∀ p ∈ l1, ∀ q ∈ l2, ((ExPoly.mk p.dim (p.1.2 ++ q.1.2)).mem x ↔ p.mem x ∧ q.mem x) := by
      intro p hp q hq
      rw [ExPoly.mem_mk (by
        intro r hr
        rcases List.mem_append.mp hr with hr | hr
        · exact p.2 r hr
        · have := q.2 r hr
          rw [show p.dim = q.dim by rw [d1 p hp, d2 q hq]]
          exact this)]
      unfold ExPoly.mem
      simp only [List.forall_mem_append]
    constructor
    · rintro ⟨r, hr, hm⟩
      obtain ⟨p, hp, hr⟩ := List.mem_flatMap.mp hr
      obtain ⟨q, hq, rfl⟩ := List.mem_map.mp hr
      obtain ⟨a, b⟩ := (hmk p hp q hq).mp hm
      exact ⟨⟨p, hp, a⟩, ⟨q, hq, b⟩⟩
    · rintro ⟨⟨p, hp, a⟩, ⟨q, hq, b⟩⟩
      exact ⟨_, List.mem_flatMap.mpr ⟨p, hp, List.mem_map_of_mem hq⟩, (hmk p hp q hq).mpr ⟨a, b⟩⟩

/-- C88: the hypotheses are met, with a union of two intervals and a point in between. -/
example : exPolyLib.OK ExPoly.dim ExPoly.mem ∧ UnionOf 1 [⟨2, [⟨false, [1, 0]⟩, ⟨false, [-1, 2]⟩]⟩, ⟨2, [⟨false, [1, -5]⟩]⟩] ∧
    UnionOf 1 [⟨2, [⟨true, [1, -1]⟩]⟩] ∧
    (polyDifference exPolyLib [⟨2, [⟨false, [1, 0]⟩, ⟨false, [-1, 2]⟩]⟩] [⟨2, [⟨true, [1, -1]⟩]⟩]) =
      some [⟨2, [⟨false, [0, -1]⟩]⟩, ⟨2, [⟨false, [1, -2]⟩, ⟨false, [1, 0]⟩, ⟨false, [-1, 2]⟩]⟩,
        ⟨2, [⟨false, [-1, 0]⟩, ⟨false, [1, 0]⟩, ⟨false, [-1, 2]⟩]⟩] :=
  ⟨exPolyLib_ok, ⟨by decide, by decide⟩, ⟨by decide, by decide⟩, by decide +kernel⟩

end Pluto
