import Verif.Model.Arith

/-! C01: `gcd` and `lcm`. Specification: Mathlib's `Int.gcd`, `Int.lcm`. -/

namespace Pluto

/-- C01. `gcd` returns the greatest common divisor, for all pairs of integers. -/
theorem C01_gcd_correct (a b : Int) : cgcd a b = (Int.gcd a b : Int) := by
  induction a, b using cgcd.induct with
  | case1 a b a' b' h =>
    rw [cgcd]; simp only [a', b', llabs_natAbs] at h ⊢
    rw [if_pos h]
    rcases mul_eq_zero.mp h with h | h
    · have : a = 0 := by omega
      subst this; simp [Int.gcd]
    · have : b = 0 := by omega
      subst this; simp [Int.gcd]
  | case2 a b a' b' h h1 =>
    rw [cgcd]; simp only [a', b', llabs_natAbs] at h h1 ⊢
    rw [if_neg h, if_pos h1]
    have : a.natAbs = b.natAbs := by omega
    simp [Int.gcd, this]
  | case3 a b a' b' h h1 h2 ih =>
    rw [cgcd]; simp only [a', b', llabs_natAbs] at h h1 h2 ih ⊢
    rw [if_neg h, if_neg h1, if_pos h2, ih]
    have : Int.tmod (a.natAbs : Int) (b.natAbs : Int) = ((a.natAbs % b.natAbs : Nat) : Int) := rfl
    rw [this]
    simp only [Int.gcd, Int.natAbs_natCast]
    rw [Nat.gcd_comm a.natAbs, Nat.gcd_rec b.natAbs]
  | case4 a b a' b' h h1 h2 ih =>
    rw [cgcd]; simp only [a', b', llabs_natAbs] at h h1 h2 ih ⊢
    rw [if_neg h, if_neg h1, if_neg h2, ih]
    have : Int.tmod (b.natAbs : Int) (a.natAbs : Int) = ((b.natAbs % a.natAbs : Nat) : Int) := rfl
    rw [this]
    simp only [Int.gcd, Int.natAbs_natCast]
    rw [Nat.gcd_comm, ← Nat.gcd_rec]

example : cgcd 12 (-18) = 6 := by decide +kernel
example : cgcd 0 (-7) = 7 := by decide +kernel

/-- C01. The magnitude of `lcm a b` is the least common multiple. -/
theorem C01_lcm_natAbs (a b : Int) : (clcm a b).natAbs = Int.lcm a b := by
  unfold clcm
  split
  · rename_i h
    rcases mul_eq_zero.mp h with h | h <;> simp [h, Int.lcm]
  · rw [C01_gcd_correct, Int.natAbs_tdiv, Int.natAbs_mul]
    simp [Int.lcm, Nat.lcm, Int.gcd]; rfl

/-- C01. `lcm a b` has the sign of `a * b`; in particular it is 0 iff an argument is 0 and is
non-negative on non-negative arguments. -/
theorem C01_lcm_sign (a b : Int) : (clcm a b).sign = (a * b).sign := by
  unfold clcm
  split
  · rename_i h; simp [h]
  · rename_i h
    have hg : 0 < Int.gcd a b := by
      apply Int.gcd_pos_iff.mpr
      left; intro h0; simp [h0] at h
    have hd : (Int.gcd a b : Int) ∣ a * b := Dvd.dvd.mul_right (Int.gcd_dvd_left ..) _
    rw [C01_gcd_correct]
    obtain ⟨q, hq⟩ := hd
    rw [hq, Int.mul_tdiv_cancel_left _ (by omega), Int.sign_mul]
    rw [Int.sign_eq_one_of_pos (by omega : (0:Int) < (Int.gcd a b : Int)), one_mul]

example : clcm 4 (-6) = -12 := by decide +kernel

/-- C01. For 64-bit arguments the only other outcome is overflow: `gcd` on machine integers gives
the gcd exactly when `|a|`, `|b|` and `|a|*|b|` fit into 63 bits. -/
theorem C01_gcd64 (a b : Int) :
    gcd64 a b = if a.natAbs < 2 ^ 63 ∧ b.natAbs < 2 ^ 63 ∧ a.natAbs * b.natAbs < 2 ^ 63
      then some (Int.gcd a b : Int) else none := by
  have key : ∀ n : Nat, inI64 (n : Int) = decide (n < 2 ^ 63) := by
    intro n; unfold inI64
    have h1 : (-(2 ^ 63) : Int) ≤ n := by omega
    simp only [h1, decide_true, Bool.true_and]
    congr 1; apply propext; constructor <;> intro h <;> omega
  have mono : ∀ x y : Nat, 0 < y → (x % y) * y ≤ x * y := fun x y _ =>
    Nat.mul_le_mul_right _ (Nat.mod_le _ _)
  induction a, b using gcd64.induct with
  | case1 a b a' b' h =>
    rw [gcd64]; simp only [a', b', llabs_natAbs, key] at h ⊢
    rw [if_pos h, if_neg]
    rintro ⟨h1, h2, -⟩; simp at h; omega
  | case2 a b a' b' h h1 =>
    rw [gcd64]; simp only [a', b', llabs_natAbs] at h h1 ⊢
    rw [if_neg h, if_pos h1, if_neg]
    rintro ⟨-, -, h3⟩
    rw [← Nat.cast_mul, key] at h1; simp at h1; omega
  | case3 a b a' b' h h1 h2 =>
    rw [gcd64]; simp only [a', b', llabs_natAbs] at h h1 h2 ⊢
    rw [if_neg h, if_neg h1, if_pos h2]
    rw [← Nat.cast_mul] at h1
    simp only [key, decide_eq_false_iff_not, not_or, not_not] at h h1
    rw [if_pos ⟨h.1, h.2, h1⟩]
    congr 1
    rcases mul_eq_zero.mp h2 with h | h
    · have : a = 0 := by omega
      subst this; simp [Int.gcd]
    · have : b = 0 := by omega
      subst this; simp [Int.gcd]
  | case4 a b a' b' h h1 h2 h3 =>
    rw [gcd64]; simp only [a', b', llabs_natAbs] at h h1 h2 h3 ⊢
    rw [if_neg h, if_neg h1, if_neg h2, if_pos h3]
    rw [← Nat.cast_mul] at h1
    simp only [key, decide_eq_false_iff_not, not_or, not_not] at h h1
    rw [if_pos ⟨h.1, h.2, h1⟩]
    have : a.natAbs = b.natAbs := by omega
    simp [Int.gcd, this]
  | case5 a b a' b' h h1 h2 h3 h4 ih =>
    rw [gcd64]; simp only [a', b', llabs_natAbs] at h h1 h2 h3 h4 ih ⊢
    rw [if_neg h, if_neg h1, if_neg h2, if_neg h3, if_pos h4, ih]
    rw [← Nat.cast_mul] at h1
    simp only [key, decide_eq_false_iff_not, not_or, not_not] at h h1
    have hb : 0 < b.natAbs := Nat.pos_of_ne_zero fun h => h2 (by simp [h])
    have e : Int.tmod (a.natAbs : Int) (b.natAbs : Int) = ((a.natAbs % b.natAbs : Nat) : Int) := rfl
    rw [e]
    simp only [Int.natAbs_natCast]
    have := Nat.mod_lt a.natAbs hb
    have := mono a.natAbs b.natAbs hb
    rw [if_pos ⟨by omega, h.2, by omega⟩, if_pos ⟨h.1, h.2, h1⟩]
    simp only [Int.gcd, Int.natAbs_natCast]
    rw [Nat.gcd_comm a.natAbs, Nat.gcd_rec b.natAbs]
  | case6 a b a' b' h h1 h2 h3 h4 ih =>
    rw [gcd64]; simp only [a', b', llabs_natAbs] at h h1 h2 h3 h4 ih ⊢
    rw [if_neg h, if_neg h1, if_neg h2, if_neg h3, if_neg h4, ih]
    rw [← Nat.cast_mul] at h1
    simp only [key, decide_eq_false_iff_not, not_or, not_not] at h h1
    have ha : 0 < a.natAbs := Nat.pos_of_ne_zero fun h => h2 (by simp [h])
    have e : Int.tmod (b.natAbs : Int) (a.natAbs : Int) = ((b.natAbs % a.natAbs : Nat) : Int) := rfl
    rw [e]
    simp only [Int.natAbs_natCast]
    have := Nat.mod_lt b.natAbs ha
    have h5 := mono b.natAbs a.natAbs ha
    rw [Nat.mul_comm, Nat.mul_comm b.natAbs] at h5
    rw [if_pos ⟨h.1, by omega, by omega⟩, if_pos ⟨h.1, h.2, h1⟩]
    simp only [Int.gcd, Int.natAbs_natCast]
    rw [Nat.gcd_comm, ← Nat.gcd_rec]

example : gcd64 (2 ^ 31) (-(2 ^ 31)) = some (2 ^ 31) := by decide +kernel

/-- C01. Overflow is reachable on legitimate 64-bit inputs: the gcd of `2^32` and `2^32` exists and
fits, but the code's product test overflows. -/
theorem C01_gcd64_overflow_witness : gcd64 (2 ^ 32) (2 ^ 32) = none := by
  rw [C01_gcd64]; decide

/-- C01. `lcm` on machine integers, when it does not overflow, agrees with the unbounded `lcm`. -/
theorem C01_lcm64 (a b v : Int) (h : lcm64 a b = some v) : v = clcm a b := by
  unfold lcm64 at h; unfold clcm
  split at h
  · cases h
  · split at h
    · rename_i h0; simp [h0] at h ⊢; exact h.symm
    · rename_i h0
      rw [C01_gcd64] at h
      split at h
      · rw [if_neg h0, C01_gcd_correct]; simpa using h.symm
      · cases h

/-- C01. `lcm` on machine integers gives a result whenever the product fits into 63 bits. -/
theorem C01_lcm64_total (a b : Int) (ha : a.natAbs < 2 ^ 63) (hb : b.natAbs < 2 ^ 63)
    (h : a.natAbs * b.natAbs < 2 ^ 63) : lcm64 a b = some (clcm a b) := by
  unfold lcm64 clcm
  have h1 : inI64 (a * b) = true := by
    unfold inI64
    have : (a * b).natAbs < 2 ^ 63 := by rw [Int.natAbs_mul]; exact h
    simp only [Bool.and_eq_true, decide_eq_true_eq]
    omega
  simp only [h1, Bool.true_eq_false, if_false]
  split
  · rfl
  · rw [C01_gcd64, if_pos ⟨ha, hb, h⟩, C01_gcd_correct]; rfl

example : lcm64 6 (-4) = some (-12) := by decide +kernel

end Pluto
