import Verif.Lemmas.Elim
import Verif.Model.CstList

/-!
C02 (simplification), C03 (Fourier-Motzkin), C04 (Gaussian elimination), C05 (equalities to
inequalities). Specification: `Cst.Sat`, `SatUnion` of `Verif/Spec/Affine.lean`.
-/

namespace Pluto

variable {R : Type*} [CommRing R] [LinearOrder R] [IsStrictOrderedRing R]
variable {K : Type*} [Field K] [LinearOrder K] [IsStrictOrderedRing K]

/-! ### C02 -/

/-- C02. Simplification keeps the solutions, over any ordered ring (integers, rationals, reals). -/
theorem C02_simplify_sat (c : Cst) (x : List R) : (simplify c).Sat x ↔ c.Sat x :=
  simplify_sat c x

/-- C02. Simplification never increases the number of rows, keeps the number of columns and the
shape of the rows. -/
theorem C02_simplify_shape (c : Cst) :
    (simplify c).rows.length ≤ c.rows.length ∧ (simplify c).ncols = c.ncols ∧
      (c.WF → (simplify c).WF) :=
  ⟨simplify_length c, simplify_ncols c, simplify_wf c⟩

/-- C02. The list version keeps the union, and each element keeps its own solutions. -/
theorem C02_simplify_list (l : List Cst) :
    List.Forall₂ (fun a b : Cst => a.ncols = b.ncols ∧ a.rows.length ≤ b.rows.length ∧
      ∀ x : List R, a.Sat x ↔ b.Sat x) (simplifyList l) l := by
  induction l with
  | nil => exact .nil
  | cons c cs ih =>
    unfold simplifyList
    split
    · exact List.forall₂_same.mpr (fun _ _ => ⟨rfl, le_refl _, fun _ => Iff.rfl⟩)
    · exact .cons ⟨simplify_ncols c, simplify_length c, fun x => simplify_sat c x⟩ ih

theorem C02_simplify_union (l : List Cst) (x : List R) : SatUnion (simplifyList l) x ↔ SatUnion l x := by
  have h := C02_simplify_list (R := R) l
  generalize simplifyList l = l' at h
  unfold SatUnion
  induction h with
  | nil => simp
  | cons hab _ ih => simp only [List.mem_cons, exists_eq_or_imp, hab.2.2 x, ih]

/-- A system with a scaled row, a duplicate and a trivial row loses two rows. -/
example : (simplify ⟨3, [⟨false, [2, 4, 6]⟩, ⟨false, [1, 2, 3]⟩, ⟨false, [0, 0, 0]⟩, ⟨true, [0, 3, -6]⟩]⟩)
    = ⟨3, [⟨false, [0, 0, 0]⟩, ⟨true, [0, 1, -2]⟩, ⟨false, [1, 2, 3]⟩]⟩ := by decide +kernel

/-! ### C03 -/

/-- C03. Fourier-Motzkin elimination computes exactly the rational shadow: `x` satisfies the result
iff some value `v` at position `pos` extends it to a solution. -/
theorem C03_fm_exact (c : Cst) (pos : Nat) (x : List K) (h : c.WF)
    (hx : x.length + 2 = c.ncols) (hp : pos ≤ x.length) :
    (fmEliminate c pos).Sat x ↔ ∃ v : K, c.Sat (x.insertIdx pos v) :=
  ⟨fmEliminate_complete c pos x h hx hp, fun ⟨v, hv⟩ => fmEliminate_sound c pos x v h hx hp hv⟩

/-- C03. Over the integers (any ordered ring) the projection of every solution is kept. -/
theorem C03_fm_sound (c : Cst) (pos : Nat) (x : List R) (v : R) (h : c.WF)
    (hx : x.length + 2 = c.ncols) (hp : pos ≤ x.length) (hs : c.Sat (x.insertIdx pos v)) :
    (fmEliminate c pos).Sat x :=
  fmEliminate_sound c pos x v h hx hp hs

/-- C03. The result is well formed with one column less, so eliminations can be chained. -/
theorem C03_fm_shape (c : Cst) (pos : Nat) (h : c.WF) (hp : pos + 1 < c.ncols) :
    (fmEliminate c pos).WF ∧ (fmEliminate c pos).ncols = c.ncols - 1 :=
  ⟨fmEliminate_wf c pos h hp, fmEliminate_ncols c pos⟩

/-- C03. The same for the `_smart` variant, which uses Gaussian elimination when it can. -/
theorem C03_fm_smart_exact (c : Cst) (pos : Nat) (x : List K) (h : c.WF)
    (hx : x.length + 2 = c.ncols) (hp : pos ≤ x.length) :
    (fmSmart c pos).Sat x ↔ ∃ v : K, c.Sat (x.insertIdx pos v) :=
  ⟨fmSmart_complete c pos x h hx hp, fun ⟨v, hv⟩ => fmSmart_sound c pos x v h hx hp hv⟩

theorem C03_fm_smart_sound (c : Cst) (pos : Nat) (x : List R) (v : R) (h : c.WF)
    (hx : x.length + 2 = c.ncols) (hp : pos ≤ x.length) (hs : c.Sat (x.insertIdx pos v)) :
    (fmSmart c pos).Sat x :=
  fmSmart_sound c pos x v h hx hp hs

/-- C03. On a list, elimination computes the shadow of the union. -/
theorem C03_fm_union (l : List Cst) (pos n : Nat) (x : List K) (hx : x.length = n)
    (h : ∀ c ∈ l, c.WF ∧ c.ncols = n + 2) (hp : pos ≤ n) :
    SatUnion (fmEliminateList l pos) x ↔ ∃ v : K, SatUnion l (x.insertIdx pos v) := by
  unfold SatUnion fmEliminateList
  simp only [List.mem_map, exists_exists_and_eq_and]
  constructor
  · rintro ⟨c, hc, hs⟩
    obtain ⟨v, hv⟩ := (C03_fm_exact c pos x (h c hc).1 (by rw [(h c hc).2, hx]) (by omega)).mp hs
    exact ⟨v, c, hc, hv⟩
  · rintro ⟨v, c, hc, hv⟩
    exact ⟨c, hc, (C03_fm_exact c pos x (h c hc).1 (by rw [(h c hc).2, hx]) (by omega)).mpr ⟨v, hv⟩⟩

/-- C03. A whole sequence of eliminations: eliminating the first `k` variables leaves exactly the
points that extend by `k` leading values. -/
theorem C03_fm_sequence (k : Nat) (c : Cst) (x : List K) (h : c.WF)
    (hx : x.length + k + 1 = c.ncols) :
    (fmEliminateFront c k).Sat x ↔ ∃ y : List K, y.length = k ∧ c.Sat (y ++ x) := by
  induction k generalizing c with
  | zero =>
    simp only [fmEliminateFront]
    constructor
    · intro hs; exact ⟨[], rfl, hs⟩
    · rintro ⟨y, hy, hs⟩
      rw [List.length_eq_zero_iff] at hy; subst hy; exact hs
  | succ k ih =>
    simp only [fmEliminateFront]
    have hsh := C03_fm_shape c 0 h (by omega)
    rw [ih _ hsh.1 (by rw [hsh.2]; omega)]
    constructor
    · rintro ⟨y, hy, hs⟩
      obtain ⟨v, hv⟩ := (C03_fm_exact c 0 (y ++ x) h (by simp; omega) (by simp)).mp hs
      exact ⟨v :: y, by simp [hy], by simpa using hv⟩
    · rintro ⟨y, hy, hs⟩
      cases y with
      | nil => simp at hy
      | cons v y =>
        refine ⟨y, by simpa using hy, ?_⟩
        exact (C03_fm_exact c 0 (y ++ x) h (by simp at hy ⊢; omega) (by simp)).mpr ⟨v, by simpa using hs⟩

/-- 0 ≤ 3i - j, i ≤ N (with an equality for j): eliminating i. -/
example : fmEliminate ⟨4, [⟨false, [3, -1, 0, 0]⟩, ⟨false, [-2, 0, 1, 0]⟩, ⟨true, [0, 1, -1, 0]⟩]⟩ 0 =
    ⟨3, [⟨false, [-2, 3, 0]⟩, ⟨false, [-1, 1, 0]⟩, ⟨false, [1, -1, 0]⟩]⟩ := by decide +kernel

example : (⟨4, [⟨false, [3, -1, 0, 0]⟩, ⟨false, [-2, 0, 1, 0]⟩, ⟨true, [0, 1, -1, 0]⟩]⟩ : Cst).WF := by
  decide

/-- The integer converse of `C03_fm_sound` is false, as the property says: `2x = 1` has the rational
shadow of a point but no integer one. -/
example : (fmEliminate ⟨2, [⟨true, [2, -1]⟩]⟩ 0).Sat ([] : List Int) ∧
    ¬ ∃ v : Int, (⟨2, [⟨true, [2, -1]⟩]⟩ : Cst).Sat (([] : List Int).insertIdx 0 v) := by
  constructor
  · have : fmEliminate ⟨2, [⟨true, [2, -1]⟩]⟩ 0 = ⟨1, [⟨false, [0]⟩]⟩ := by decide +kernel
    rw [this]; simp [Cst.Sat, Row.Sat, aff]
  · rintro ⟨v, hv⟩
    have := hv _ (List.mem_singleton.mpr rfl)
    simp [Row.Sat, aff] at this
    omega

/-! ### C04 -/

/-- C04. Gaussian elimination succeeds exactly when some equality involves the variable. -/
theorem C04_gauss_defined (c : Cst) (pos : Nat) :
    (gaussEliminate c pos).isSome ↔ ∃ r ∈ c.rows, r.eq = true ∧ r.val.getD pos 0 ≠ 0 := by
  constructor
  · intro hs
    obtain ⟨c', hc'⟩ := Option.isSome_iff_exists.mp hs
    obtain ⟨pre, piv, post, hr, he, hc, -⟩ := gaussEliminate_spec c pos c' hc'
    exact ⟨piv, by rw [hr]; simp, he, hc⟩
  · rintro ⟨r, hr, he, hc⟩
    by_contra hn
    rw [Option.not_isSome_iff_eq_none] at hn
    have := gaussEliminate_none c pos hn r hr hc
    rw [he] at this; cases this

/-- C04. Its rational solutions are exactly the projections of the rational solutions. -/
theorem C04_gauss_exact (c c' : Cst) (pos : Nat) (x : List K) (h : c.WF)
    (hx : x.length + 2 = c.ncols) (hp : pos ≤ x.length) (hg : gaussEliminate c pos = some c') :
    c'.Sat x ↔ ∃ v : K, c.Sat (x.insertIdx pos v) :=
  ⟨gaussEliminate_complete c pos c' x h hx hp hg,
    fun ⟨v, hv⟩ => gaussEliminate_sound c pos c' x v h hx hp hg hv⟩

/-- C04. Every projected integer solution is kept. -/
theorem C04_gauss_sound (c c' : Cst) (pos : Nat) (x : List R) (v : R) (h : c.WF)
    (hx : x.length + 2 = c.ncols) (hp : pos ≤ x.length) (hg : gaussEliminate c pos = some c')
    (hs : c.Sat (x.insertIdx pos v)) : c'.Sat x :=
  gaussEliminate_sound c pos c' x v h hx hp hg hs

/-- C04. One row and one column less; the kept rows keep their equality flags and order. -/
theorem C04_gauss_shape (c c' : Cst) (pos : Nat) (h : c.WF) (hp : pos + 1 < c.ncols)
    (hg : gaussEliminate c pos = some c') :
    c'.WF ∧ c'.ncols = c.ncols - 1 ∧ c'.rows.length + 1 = c.rows.length ∧
      ∃ pre piv post, c.rows = pre ++ piv :: post ∧ piv.eq = true ∧
        c'.rows.map (·.eq) = (pre ++ post).map (·.eq) := by
  refine ⟨(gaussEliminate_wf c pos c' h hp hg).1, (gaussEliminate_wf c pos c' h hp hg).2, ?_, ?_⟩
  · obtain ⟨pre, piv, post, hr, he, hc, rfl⟩ := gaussEliminate_spec c pos c' hg
    simp [removeDim, hr]; omega
  · obtain ⟨pre, piv, post, hr, he, hc, rfl⟩ := gaussEliminate_spec c pos c' hg
    exact ⟨pre, piv, post, hr, he, by simp [removeDim, Function.comp_def]⟩

/-- C04 on lists: every element is eliminated exactly. -/
theorem C04_gauss_union (l l' : List Cst) (pos n : Nat) (x : List K) (hx : x.length = n)
    (h : ∀ c ∈ l, c.WF ∧ c.ncols = n + 2) (hp : pos ≤ n) (hg : gaussEliminateList l pos = some l') :
    SatUnion l' x ↔ ∃ v : K, SatUnion l (x.insertIdx pos v) := by
  induction l generalizing l' with
  | nil => simp [gaussEliminateList] at hg; subst hg; simp [SatUnion]
  | cons c cs ih =>
    unfold gaussEliminateList at hg
    split at hg
    · rename_i c' cs' h1 h2
      simp only [Option.some.injEq] at hg; subst hg
      have e := ih cs' (fun c hc => h c (by simp [hc])) h2
      have e1 := C04_gauss_exact c c' pos x (h c (by simp)).1 (by rw [(h c (by simp)).2, hx])
        (by omega) h1
      unfold SatUnion at e ⊢
      simp only [List.mem_cons, exists_eq_or_imp, e1, e, exists_or]
    · cases hg

example : gaussEliminate ⟨3, [⟨false, [3, -1, 0]⟩, ⟨true, [-2, 4, 6]⟩, ⟨false, [-1, 0, 9]⟩]⟩ 0 =
    some ⟨2, [⟨false, [10, 18]⟩, ⟨false, [-4, 12]⟩]⟩ := by decide +kernel

/-! ### C05 -/

/-- C05. No equalities remain and the solutions are the same. -/
theorem C05_pure_ineq (c : Cst) (h : c.WF) :
    (∀ r ∈ (toPureIneq c).rows, r.eq = false) ∧
      ∀ x : List R, (toPureIneq c).Sat x ↔ c.Sat x :=
  ⟨toPureIneq_pure c, toPureIneq_sat c h⟩

example : toPureIneq ⟨3, [⟨true, [1, -1, 0]⟩, ⟨false, [1, 0, 0]⟩, ⟨true, [0, 2, -4]⟩]⟩ =
    ⟨3, [⟨false, [1, -1, 0]⟩, ⟨false, [1, 0, 0]⟩, ⟨false, [0, 2, -4]⟩, ⟨false, [-1, -1, 4]⟩]⟩ := by
  decide

end Pluto
