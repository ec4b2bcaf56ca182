import Verif.Spec.PrintCst
import Verif.Lemmas.Lexmin
import Verif.Props.Stencil

/-! C82: systems given to PIP mean the same as the system. -/

namespace Pluto

/-- The matrix given to PIP has just the points of the system. -/
theorem C82_pip_matrix (c : Cst) (hc : c.WF) (x : List Int) :
    (pipPopulate (toPipMatrix c) c.rows.length (c.ncols + 1)).Sat x ↔ c.Sat x := by
  have hrow : ∀ (rows : List Row), (∀ r ∈ rows, r.val.length = c.ncols) → ∀ i (hi : i < rows.length),
      (((rows.map (fun r => (if r.eq then 0 else 1) :: r.val)).flatMap (fun r : List Int => r.take (c.ncols + 1))).drop (i * (c.ncols + 1))).take
        (c.ncols + 1) = (if rows[i].eq then 0 else 1) :: rows[i].val := by
    intro rows
    induction rows with
    | nil => intro _ i hi; simp at hi
    | cons r rows ih =>
      intro h i hi
      have hr := h r (by simp)
      have e : ((if r.eq then (0 : Int) else 1) :: r.val).take (c.ncols + 1) = (if r.eq then 0 else 1) :: r.val :=
        List.take_of_length_le (by simp [hr])
      have hlen : ((if r.eq then (0 : Int) else 1) :: r.val).length = c.ncols + 1 := by simp [hr]
      rw [List.map_cons, List.flatMap_cons, e]
      cases i with
      | zero =>
        simp only [Nat.zero_mul, List.drop_zero, List.getElem_cons_zero]
        rw [← hlen]
        exact List.take_left
      | succ i =>
        have := ih (fun r hr => h r (by simp [hr])) i (by simpa using hi)
        rw [List.getElem_cons_succ, ← this]
        congr 1
        have : (i + 1) * (c.ncols + 1) = ((if r.eq then (0 : Int) else 1) :: r.val).length + i * (c.ncols + 1) := by rw [hlen]; ring
        rw [this, ← List.drop_drop, List.drop_left]
  have hrow' : ∀ i (hi : i < c.rows.length), (pipPopulate (toPipMatrix c) c.rows.length (c.ncols + 1)).row i =
      (if c.rows[i].eq then 0 else 1) :: c.rows[i].val := by
    intro i hi
    have := hrow c.rows hc.2 i hi
    unfold PipMat.row pipPopulate toPipMatrix
    simp only
    rw [List.take_of_length_le (l := c.rows.map _) (by simp)]
    exact this
  unfold PipMat.Sat Cst.Sat
  constructor
  · intro h r hr
    obtain ⟨i, hi, rfl⟩ := List.mem_iff_getElem.mp hr
    have := h i hi
    rw [hrow' i hi] at this
    unfold Row.Sat
    cases he : c.rows[i].eq <;> simpa [he] using this
  · intro h i hi
    have hi : i < c.rows.length := hi
    have := h c.rows[i] (List.getElem_mem hi)
    rw [hrow' i hi]
    unfold Row.Sat at this
    cases he : c.rows[i].eq <;> simpa [he] using this

/-- With PIP, `pluto_constraints_lexmin_pip` returns the least non-negative point of every system and nothing if there is none: what is proved
about searches with a `LexminOracle` holds for searches with PIP. -/
theorem C82_pip_lexmin (pip : Bool → PipMat → Option (List Int)) (hp : PipOracle pip) : LexminOracle (lexminPip pip false) := by
  intro c hc
  have hs := C82_pip_matrix c hc
  set m := pipPopulate (toPipMatrix c) c.rows.length (c.ncols + 1) with hm
  have hcols : m.ncols = c.ncols + 1 := rfl
  have h2 : 2 ≤ m.ncols := by have := hc.1; omega
  have e : lexminPip pip false c = (pip false m).map (fun l => l.take (c.ncols - 1)) := rfl
  constructor
  · intro x hx
    rw [e] at hx
    obtain ⟨y, hy, rfl⟩ := Option.map_eq_some_iff.mp hx
    obtain ⟨⟨h3, h4, h5⟩, h6⟩ := hp.least m y h2 hy
    rw [List.take_of_length_le (by omega)]
    exact ⟨by omega, h4, (hs y).mp h5, fun z hz hz0 hzs => h6 z (by omega) hz0 ((hs z).mpr hzs)⟩
  · intro hx
    rw [e, Option.map_eq_none_iff] at hx
    rintro ⟨y, h3, h4, h5⟩
    exact hp.noPoint m h2 hx ⟨y, by omega, h4, (hs y).mpr h5⟩

/-- With unknowns of any sign the result is the least point if there is one, and nothing exactly if the system has no points: the test
`pluto_constraints_is_empty` is right with PIP too. -/
theorem C82_pip_signed (pip : Bool → PipMat → Option (List Int)) (hp : PipOracle pip) (c : Cst) (hc : c.WF) :
    (lexminPip pip true c = none ↔ ¬ ∃ x : List Int, x.length + 1 = c.ncols ∧ c.Sat x) ∧
    ∀ x : List Int, x.length + 1 = c.ncols → c.Sat x → (∀ y : List Int, y.length + 1 = c.ncols → c.Sat y → LexLe x y) →
      lexminPip pip true c = some x := by
  have hs := C82_pip_matrix c hc
  set m := pipPopulate (toPipMatrix c) c.rows.length (c.ncols + 1) with hm
  have hcols : m.ncols = c.ncols + 1 := rfl
  have h2 : 2 ≤ m.ncols := by have := hc.1; omega
  have e : lexminPip pip true c = (pip true m).map (fun l => l.take (c.ncols - 1)) := rfl
  constructor
  · rw [e, Option.map_eq_none_iff, hp.ursNone m h2]
    apply not_congr
    constructor
    · rintro ⟨y, h3, h4⟩; exact ⟨y, by omega, (hs y).mp h4⟩
    · rintro ⟨y, h3, h4⟩; exact ⟨y, by omega, (hs y).mpr h4⟩
  · intro x hx h3 h4
    rw [e, hp.ursLeast m x h2 (by omega) ((hs x).mpr h3) (fun y hy hy0 => h4 y (by omega) ((hs y).mp hy0)), Option.map_some,
      List.take_of_length_le (by omega)]

/-- `pluto_constraints_lexmin` returns the least non-negative point with either solver. -/
theorem C82_lexmin (islsolve : Bool) (isl : Bool → Cst → Option (List Int)) (hi : LexminOracle (isl false)) (pip : Bool → PipMat → Option (List Int))
    (hp : PipOracle pip) : LexminOracle (cstLexmin islsolve isl (lexminPip pip) false) := by
  cases islsolve
  · exact C82_pip_lexmin pip hp
  · exact hi

/-- There is such a solver. -/
theorem exists_pipOracle : ∃ pip, PipOracle pip := by
  classical
  refine ⟨fun urs m =>
    if urs then
      if h : ∃ x : List Int, (x.length + 2 = m.ncols ∧ m.Sat x) ∧ ∀ y : List Int, y.length + 2 = m.ncols → m.Sat y → LexLe x y then some h.choose
      else if h : ∃ x : List Int, x.length + 2 = m.ncols ∧ m.Sat x then some h.choose else none
    else if h : ∃ y : List Int, y.length = m.ncols - 2 ∧ NonNeg y ∧ m.Sat y
      then some (exists_lexLeast (m.ncols - 2) (fun y => m.Sat y) h).choose else none, ?_, ?_, ?_, ?_⟩
  · intro m x h2 h
    simp only [Bool.false_eq_true, if_false] at h
    split at h
    · rename_i hy
      simp only [Option.some.injEq] at h
      subst h
      obtain ⟨a1, a2, a3, a4⟩ := (exists_lexLeast (m.ncols - 2) (fun y => m.Sat y) hy).choose_spec
      exact ⟨⟨by omega, a2, a3⟩, fun y hy => a4 y (by omega)⟩
    · cases h
  · intro m h2 h
    simp only [Bool.false_eq_true, if_false] at h
    split at h
    · cases h
    · rename_i hy
      rintro ⟨y, h3, h4⟩
      exact hy ⟨y, by omega, h4⟩
  · intro m h2
    simp only [if_true]
    split
    · rename_i h
      obtain ⟨x, hx, -⟩ := h
      simp only [reduceCtorEq, false_iff, not_not]
      exact ⟨x, hx⟩
    · split
      · rename_i h
        simp only [reduceCtorEq, false_iff, not_not]
        exact h
      · rename_i h
        simpa using h
  · intro m x h2 h3 h4 h5
    have h : ∃ x : List Int, (x.length + 2 = m.ncols ∧ m.Sat x) ∧ ∀ y : List Int, y.length + 2 = m.ncols → m.Sat y → LexLe x y :=
      ⟨x, ⟨h3, h4⟩, h5⟩
    simp only [if_true, dif_pos h, Option.some.injEq]
    obtain ⟨⟨h6, h7⟩, h8⟩ := h.choose_spec
    exact lexLe_antisymm _ _ (by omega) (h8 x h3 h4) (h5 _ h6 h7)

/-- For example the matrix for two rows, and a solver. -/
example : (⟨3, [⟨false, [1, -1, 3]⟩, ⟨true, [-2, 12, 0]⟩]⟩ : Cst).WF ∧ (∃ pip, PipOracle pip) ∧
    pipPopulate (toPipMatrix ⟨3, [⟨false, [1, -1, 3]⟩, ⟨true, [-2, 12, 0]⟩]⟩) 2 4 = ⟨2, 4, [1, 1, -1, 3, 0, -2, 12, 0]⟩ :=
  ⟨by decide, exists_pipOracle, by decide⟩

end Pluto
