import Verif.Spec.Affine

/-! Algebra of `dot`. -/

namespace Pluto
variable {R : Type*} [CommRing R]

@[simp] theorem dot_nil_left (x : List R) : dot [] x = 0 := by simp [dot]
@[simp] theorem dot_nil_right (a : List Int) : dot a ([] : List R) = 0 := by cases a <;> simp [dot]
@[simp] theorem dot_cons (a : Int) (as) (x : R) (xs) :
    dot (a :: as) (x :: xs) = (a : R) * x + dot as xs := rfl

@[simp] theorem ldot_nil_left (x : List R) : ldot [] x = 0 := by simp [ldot]
@[simp] theorem ldot_nil_right (a : List R) : ldot a ([] : List R) = 0 := by cases a <;> simp [ldot]
@[simp] theorem ldot_cons (a : R) (as) (x : R) (xs) :
    ldot (a :: as) (x :: xs) = a * x + ldot as xs := rfl

theorem dot_eq_ldot (a : List Int) (x : List R) : dot a x = ldot (a.map (Int.cast)) x := by
  induction a generalizing x with
  | nil => simp
  | cons a as ih => cases x with
    | nil => simp
    | cons y ys => simp [ih]

theorem dot_append (a b : List Int) (x y : List R) (h : a.length = x.length) :
    dot (a ++ b) (x ++ y) = dot a x + dot b y := by
  induction a generalizing x with
  | nil => cases x <;> simp_all
  | cons a as ih => cases x with
    | nil => simp at h
    | cons z zs => simp at h; simp [ih zs h]; ring

theorem ldot_append (a b : List R) (x y : List R) (h : a.length = x.length) :
    ldot (a ++ b) (x ++ y) = ldot a x + ldot b y := by
  induction a generalizing x with
  | nil => cases x <;> simp_all
  | cons a as ih => cases x with
    | nil => simp at h
    | cons z zs => simp at h; simp [ih zs h]; ring

theorem dot_zipWith_lin (m1 m2 : Int) (a b : List Int) (x : List R) (h : a.length = b.length) :
    dot (List.zipWith (fun p q => p * m1 + q * m2) a b) x
      = (m1 : R) * dot a x + (m2 : R) * dot b x := by
  induction a generalizing b x with
  | nil => cases b <;> simp_all
  | cons p ps ih => cases b with
    | nil => simp at h
    | cons q qs => cases x with
      | nil => simp
      | cons y ys => simp at h; simp [ih qs ys h]; ring

theorem dot_map_mul (m : Int) (a : List Int) (x : List R) :
    dot (a.map (fun p => m * p)) x = (m : R) * dot a x := by
  induction a generalizing x with
  | nil => simp
  | cons p ps ih => cases x with
    | nil => simp
    | cons y ys => simp [ih]; ring

theorem dot_map_neg (a : List Int) (x : List R) :
    dot (a.map (fun p => -p)) x = - dot a x := by
  induction a generalizing x with
  | nil => simp
  | cons p ps ih => cases x with
    | nil => simp
    | cons y ys => simp [ih]; ring

theorem dot_zipWith_add (a b : List Int) (x : List R) (h : a.length = b.length) :
    dot (List.zipWith (fun p q => p + q) a b) x = dot a x + dot b x := by
  have := dot_zipWith_lin 1 1 a b x h
  simpa using this

theorem dot_zipWith_sub (a b : List Int) (x : List R) (h : a.length = b.length) :
    dot (List.zipWith (fun p q => p - q) a b) x = dot a x - dot b x := by
  have := dot_zipWith_lin 1 (-1) a b x h
  simp only [mul_one, mul_neg, Int.cast_one, one_mul, Int.cast_neg, neg_mul] at this
  simpa [sub_eq_add_neg] using this

theorem dot_zero (n : Nat) (x : List R) : dot (List.replicate n 0) x = 0 := by
  induction n generalizing x with
  | zero => simp
  | succ n ih => cases x with
    | nil => simp
    | cons y ys => simp [List.replicate_succ, ih]

theorem dot_all_zero (a : List Int) (x : List R) (h : ∀ v ∈ a, v = 0) : dot a x = 0 := by
  induction a generalizing x with
  | nil => simp
  | cons p ps ih => cases x with
    | nil => simp
    | cons y ys =>
      simp only [dot_cons, h p (by simp), Int.cast_zero, zero_mul, zero_add]
      exact ih ys (fun v hv => h v (by simp [hv]))

theorem dot_insertIdx (a : List Int) (x : List R) (pos : Nat) (c : Int) (v : R)
    (h : a.length = x.length) (hp : pos ≤ a.length) :
    dot (a.insertIdx pos c) (x.insertIdx pos v) = (c : R) * v + dot a x := by
  induction pos generalizing a x with
  | zero => simp
  | succ n ih => cases a with
    | nil => simp at hp
    | cons p ps => cases x with
      | nil => simp at h
      | cons y ys =>
        simp at h hp
        simp [ih ps ys h hp]; ring

theorem dot_eraseIdx (a : List Int) (x : List R) (pos : Nat) (v : R)
    (h : a.length = x.length + 1) (hp : pos ≤ x.length) :
    dot a (x.insertIdx pos v) = ((a.getD pos 0 : Int) : R) * v + dot (a.eraseIdx pos) x := by
  induction pos generalizing a x with
  | zero => cases a with
    | nil => simp at h
    | cons p ps => simp
  | succ n ih => cases a with
    | nil => simp at h
    | cons p ps => cases x with
      | nil => simp at hp
      | cons y ys =>
        simp at h hp
        have := ih ps ys h hp
        simp only [List.insertIdx_succ_cons, dot_cons, List.eraseIdx_cons_succ, List.getD_cons_succ,
          this]
        ring

theorem insertIdx_append_one {α} (x : List α) (y : List α) (pos : Nat) (v : α) (h : pos ≤ x.length) :
    (x.insertIdx pos v) ++ y = (x ++ y).insertIdx pos v := by
  induction pos generalizing x with
  | zero => simp
  | succ n ih => cases x with
    | nil => simp at h
    | cons a as => simp at h; simp [ih as h]

/-- Value of an affine form at a point with a coordinate inserted. -/
theorem aff_insertIdx (a : List Int) (x : List R) (pos : Nat) (v : R)
    (h : a.length = x.length + 2) (hp : pos ≤ x.length) :
    aff a (x.insertIdx pos v) = ((a.getD pos 0 : Int) : R) * v + aff (a.eraseIdx pos) x := by
  unfold aff
  rw [insertIdx_append_one _ _ _ _ hp, dot_eraseIdx _ _ _ _ (by simp [h]) (by simp; omega)]

theorem dot_castInt (a : List Int) (x : List Int) :
    dot a (x.map (Int.cast : Int → R)) = ((dot a x : Int) : R) := by
  induction a generalizing x with
  | nil => simp
  | cons p ps ih => cases x with
    | nil => simp
    | cons y ys => simp [ih]

theorem aff_castInt (a : List Int) (x : List Int) :
    aff a (x.map (Int.cast : Int → R)) = ((aff a x : Int) : R) := by
  unfold aff
  rw [← dot_castInt]; simp

end Pluto
