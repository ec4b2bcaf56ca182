import Verif.Spec.FcgBuild
import Verif.Spec.Search
import Verif.Lemmas.Lexmin

/-! LP and ILP solvers that evaluate on given systems: solutions and certificates of infeasibility are listed beforehand, and
other systems are answered by definition. They are only used in examples. -/

namespace Pluto

/-- Sum of multiples of rows. -/
def combine (n : Nat) (m : List (Row × Int)) : List Int :=
  m.foldr (fun x acc => List.zipWith (· + ·) (x.1.val.map (x.2 * ·)) acc) (List.replicate n 0)

/-- `m` lists rows of `c` with factors (non-negative ones for inequalities) whose sum is `0 ≥ 1` or so. -/
def refutes (c : Cst) (m : List (Row × Int)) : Bool :=
  m.all (fun x => c.rows.contains x.1 && x.1.val.length == c.ncols && (x.1.eq || decide (0 ≤ x.2))) &&
  ((combine c.ncols m).take (c.ncols - 1)).all (· == 0) && decide ((combine c.ncols m).getD (c.ncols - 1) 0 < 0)

section
variable {R : Type*} [CommRing R] [LinearOrder R] [IsStrictOrderedRing R]

theorem combine_length (n : Nat) : ∀ (m : List (Row × Int)), (∀ x ∈ m, x.1.val.length = n) → (combine n m).length = n
  | [], _ => by simp [combine]
  | x :: m, h => by
    have ih := combine_length n m (fun y hy => h y (List.mem_cons_of_mem _ hy))
    have e : combine n (x :: m) = List.zipWith (· + ·) (x.1.val.map (x.2 * ·)) (combine n m) := rfl
    rw [e, List.length_zipWith, ih, List.length_map, h x (by simp), Nat.min_self]

theorem combine_nonneg (n : Nat) (x : List R) : ∀ (m : List (Row × Int)), (∀ y ∈ m, y.1.val.length = n) →
    (∀ y ∈ m, y.1.Sat x ∧ (y.1.eq = true ∨ 0 ≤ y.2)) → 0 ≤ aff (combine n m) x
  | [], _, _ => by simp [combine, aff, dot_zero]
  | y :: m, h, hs => by
    have ih := combine_nonneg n x m (fun z hz => h z (List.mem_cons_of_mem _ hz)) (fun z hz => hs z (List.mem_cons_of_mem _ hz))
    have hl := combine_length n m (fun z hz => h z (List.mem_cons_of_mem _ hz))
    have e : combine n (y :: m) = List.zipWith (· + ·) (y.1.val.map (y.2 * ·)) (combine n m) := rfl
    rw [e, aff, dot_zipWith_add _ _ _ (by rw [List.length_map, h y (by simp), hl]), dot_map_mul]
    obtain ⟨h1, h2⟩ := hs y (by simp)
    have h3 : 0 ≤ (y.2 : R) * dot y.1.val (x ++ [1]) := by
      unfold Row.Sat aff at h1
      split_ifs at h1 with he
      · rw [h1, mul_zero]
      · exact mul_nonneg (by rcases h2 with h2 | h2; exact absurd h2 he; exact_mod_cast h2) h1
    unfold aff at ih
    linarith

theorem refutes_unsat {c : Cst} {m : List (Row × Int)} (h : refutes c m = true) (x : List R) (hx : x.length + 1 = c.ncols) :
    ¬ c.Sat x := by
  intro hs
  unfold refutes at h
  simp only [Bool.and_eq_true, List.all_eq_true, List.contains_iff_mem, beq_iff_eq, Bool.or_eq_true, decide_eq_true_eq] at h
  obtain ⟨⟨h1, h2⟩, h3⟩ := h
  have hw : ∀ y ∈ m, y.1.val.length = c.ncols := fun y hy => (h1 y hy).1.2
  have hge := combine_nonneg c.ncols x m hw (fun y hy => ⟨hs _ (h1 y hy).1.1, (h1 y hy).2⟩)
  have hl := combine_length c.ncols m hw
  have e : combine c.ncols m = (combine c.ncols m).take (c.ncols - 1) ++ [(combine c.ncols m).getD (c.ncols - 1) 0] := by
    conv_lhs => rw [← List.take_append_drop (c.ncols - 1) (combine c.ncols m)]
    congr 1
    rw [List.drop_eq_getElem_cons (by omega), List.drop_eq_nil_of_le (by omega)]
    simp [List.getD_eq_getElem?_getD, List.getElem?_eq_getElem (show c.ncols - 1 < (combine c.ncols m).length by omega)]
  rw [e, aff, dot_append _ _ _ _ (by rw [List.length_take, hl]; omega), dot_all_zero _ _ h2] at hge
  simp only [dot, mul_one, add_zero, zero_add] at hge
  have : (((combine c.ncols m).getD (c.ncols - 1) 0 : Int) : R) < 0 := by exact_mod_cast h3
  linarith

end

/-- The integer point is a non-negative solution. -/
def isSolution (c : Cst) (x : List Int) : Bool :=
  x.length + 1 == c.ncols && x.all (fun v => decide (0 ≤ v)) && c.rows.all (fun r => if r.eq then aff r.val x == 0 else decide (0 ≤ aff r.val x))

theorem isSolution_sat {c : Cst} {x : List Int} (h : isSolution c x = true) :
    x.length + 1 = c.ncols ∧ (∀ v ∈ x, 0 ≤ v) ∧ c.Sat x := by
  unfold isSolution at h
  simp only [Bool.and_eq_true, beq_iff_eq, List.all_eq_true, decide_eq_true_eq] at h
  refine ⟨h.1.1, h.1.2, fun r hr => ?_⟩
  have := h.2 r hr
  unfold Row.Sat
  split_ifs at this ⊢ <;> simpa using this

open Classical in
/-- An LP solver for evaluating runs. -/
noncomputable def certLp (pts : List (List Int)) (refs : List (List (Row × Int))) (c : Cst) : Bool :=
  if pts.any (isSolution c) then true
  else if refs.any (refutes c) then false
  else decide (∃ x : List ℚ, x.length + 1 = c.ncols ∧ (∀ v ∈ x, 0 ≤ v) ∧ c.Sat x)

theorem certLp_ok (pts : List (List Int)) (refs : List (List (Row × Int))) : LpOracle (certLp pts refs) := by
  intro c _
  unfold certLp
  split_ifs with h1 h2
  · simp only [true_iff]
    obtain ⟨x, _, hx⟩ := List.any_eq_true.mp h1
    obtain ⟨g1, g2, g3⟩ := isSolution_sat hx
    refine ⟨x.map Int.cast, by simpa using g1, ?_, ?_⟩
    · intro v hv
      obtain ⟨u, hu, rfl⟩ := List.mem_map.mp hv
      exact_mod_cast g2 u hu
    · intro r hr
      have := g3 r hr
      unfold Row.Sat at this ⊢
      rw [aff_castInt]
      split_ifs at this ⊢
      · exact_mod_cast this
      · exact_mod_cast this
  · simp only [Bool.false_eq_true, false_iff]
    rintro ⟨x, hx, _, hs⟩
    obtain ⟨m, _, hm⟩ := List.any_eq_true.mp h2
    exact refutes_unsat hm x hx hs
  · simp

/-- An ILP solver for evaluating runs that end because a system has no solution. -/
noncomputable def certSolver (refs : List (List (Row × Int))) (c : Cst) : Option (List Int) :=
  if refs.any (refutes c) then none else Classical.choose exists_lexminOracle c

theorem certSolver_ok (refs : List (List (Row × Int))) : LexminOracle (certSolver refs) := by
  intro c hc
  unfold certSolver
  split_ifs with h
  · refine ⟨nofun, fun _ => ?_⟩
    rintro ⟨y, hy, _, hs⟩
    obtain ⟨m, _, hm⟩ := List.any_eq_true.mp h
    exact refutes_unsat hm y hy hs
  · exact Classical.choose_spec exists_lexminOracle c hc

end Pluto
