import Verif.Model.Words
import Mathlib.Tactic.Ring
import Mathlib.Tactic.Linarith

/-! C36 (machine words and big integers) and C43 (tile size rounding). -/

namespace Pluto

/-! ### C36 -/

/-- C36. `mpz_set_sll` represents the 64-bit value exactly. -/
theorem C36_set_sll (x : BitVec 64) : mpzSetSll x = x.toInt := by
  unfold mpzSetSll
  have h1 : ((x.sshiftRight 32).truncate 32).toInt = x.toInt / 2 ^ 32 := by
    rw [BitVec.truncate_eq_setWidth, BitVec.toInt_setWidth]
    have e : ((x.sshiftRight 32).toNat : Int).bmod (2 ^ 32) = (x.sshiftRight 32).toInt.bmod (2 ^ 32) := by
      rw [BitVec.toInt_eq_toNat_bmod (x.sshiftRight 32)]
      rw [Int.bmod_bmod_of_dvd]
      norm_num
    rw [e, BitVec.toInt_sshiftRight, Int.shiftRight_eq_div_pow]
    have hb := BitVec.le_two_mul_toInt (x := x)
    have hc := BitVec.two_mul_toInt_lt (x := x)
    rw [Int.bmod_eq_of_le] <;> norm_num at * <;> omega
  have h2 : ((x.truncate 32).toNat : Int) = x.toInt % 2 ^ 32 := by
    rw [BitVec.truncate_eq_setWidth, BitVec.toNat_setWidth, BitVec.toInt_eq_toNat_cond]
    split <;> push_cast <;> omega
  rw [h1, h2]
  have := Int.mul_ediv_add_emod x.toInt (2 ^ 32)
  linarith

/-- C36. `mpz_fits_ll` accepts exactly the 64-bit signed range. -/
theorem C36_fits (z : Int) : mpzFitsLl z = true ↔ -(2 ^ 63) ≤ z ∧ z < 2 ^ 63 := by
  unfold mpzFitsLl
  split
  · rw [decide_eq_true_eq, Int.tdiv_eq_ediv_of_nonneg (by omega)]
    omega
  · rename_i h
    rw [decide_eq_true_eq]
    by_cases h0 : z = 0
    · subst h0; simp
    · have : (z + 1).tdiv (2 ^ 63) = -((-(z + 1)) / 2 ^ 63) := by
        rw [← Int.neg_neg (z + 1), Int.neg_tdiv, Int.tdiv_eq_ediv_of_nonneg (by omega), Int.neg_neg]
      rw [this]; omega

/-- C36. A numerator in range is returned exactly. -/
theorem C36_get_num_exact (z : Int) (h1 : -(2 ^ 63) ≤ z) (h2 : z < 2 ^ 63) :
    (islValGetNumLl z).toInt = z := by
  unfold islValGetNumLl
  rw [if_neg (by rw [(C36_fits z).mpr ⟨h1, h2⟩]; simp)]
  have hn : ((BitVec.ofInt 32 (z.emod (2 ^ 64) / 2 ^ 32)).zeroExtend 64 <<< 32 +
      (BitVec.ofInt 32 (z.emod (2 ^ 64))).zeroExtend 64).toNat = (z % 2 ^ 64).toNat := by
    rw [BitVec.toNat_add, BitVec.toNat_shiftLeft, Nat.shiftLeft_eq]
    simp only [BitVec.zeroExtend, BitVec.toNat_setWidth, BitVec.toNat_ofInt]
    have e : z.emod (2 ^ 64) = z % 2 ^ 64 := rfl
    rw [e]
    norm_num
    omega
  rw [BitVec.toInt_eq_toNat_cond]
  simp only
  rw [hn]
  split <;> omega

/-- C36. Above the range it saturates to the largest 64-bit number. -/
theorem C36_get_num_large (z : Int) (h : 2 ^ 63 ≤ z) : (islValGetNumLl z).toInt = 2 ^ 63 - 1 := by
  unfold islValGetNumLl
  rw [if_pos, if_pos]
  · decide
  · intro h0; rw [Int.sign_eq_zero_iff_zero] at h0; omega
  · by_contra hc
    rw [Bool.not_eq_false, C36_fits] at hc; omega

/-- C36. Below the range it *also* returns the largest 64-bit number. -/
theorem C36_get_num_small (z : Int) (h : z < -(2 ^ 63)) : (islValGetNumLl z).toInt = 2 ^ 63 - 1 := by
  unfold islValGetNumLl
  rw [if_pos, if_pos]
  · decide
  · intro h0; rw [Int.sign_eq_zero_iff_zero] at h0; omega
  · by_contra hc
    rw [Bool.not_eq_false, C36_fits] at hc; omega

/-- C36 fails below the range: the nearest representable value is `-2^63`, not `2^63 - 1`. -/
theorem C36_violated : ∃ z : Int, ∃ y : BitVec 64,
    (y.toInt - z).natAbs < ((islValGetNumLl z).toInt - z).natAbs := by
  refine ⟨-(2 ^ 63) - 1, BitVec.ofInt 64 (-(2 ^ 63)), ?_⟩
  rw [C36_get_num_small _ (by omega)]
  decide

/-- C36. From `-2^63` upwards the result is the nearest representable value. Missing for the full claim:
values below `-2^63`, for which it is false. -/
theorem C36_get_num_partial (z : Int) (h : -(2 ^ 63) ≤ z) (y : BitVec 64) :
    ((islValGetNumLl z).toInt - z).natAbs ≤ (y.toInt - z).natAbs := by
  by_cases h2 : z < 2 ^ 63
  · rw [C36_get_num_exact z h h2]; simp
  · rw [C36_get_num_large z (by omega)]
    have hc := BitVec.two_mul_toInt_lt (x := y)
    norm_num at hc
    omega

example : mpzSetSll (BitVec.ofInt 64 (-5000000001)) = -5000000001 ∧
    (islValGetNumLl (-5000000001)).toInt = -5000000001 ∧ (islValGetNumLl (-(2 ^ 63))).toInt = -(2 ^ 63) := by decide

/-! ### C43 -/

/-- C43. Without wrap-around the result is a multiple of the factor and no multiple is nearer. -/
theorem C43_nearest_partial (num factor : BitVec 32) (hf : factor ≠ 0) (hov : num.toNat + factor.toNat < 2 ^ 32)
    (hov2 : factor.toNat ≤ 2 ^ 31) :
    ∃ m, approximateToNearestMultiple num factor = some m ∧ factor.toNat ∣ m.toNat ∧
      ∀ k : Nat, ((m.toNat : Int) - num.toNat).natAbs ≤ ((k * factor.toNat : Nat) - (num.toNat : Int)).natAbs := by
  have hf0 : 0 < factor.toNat := by
    rcases Nat.eq_zero_or_pos factor.toNat with h | h
    · exact absurd (BitVec.eq_of_toNat_eq (by simpa using h)) hf
    · exact h
  have hmod := Nat.div_add_mod num.toNat factor.toNat
  have hlt := Nat.mod_lt num.toNat hf0
  -- distance of a multiple
  have hnear : ∀ k q r : Nat, num.toNat = factor.toNat * q + r → r < factor.toNat →
      min r (factor.toNat - r) ≤ ((k * factor.toNat : Nat) - (num.toNat : Int)).natAbs := by
    intro k q r h1 h2
    rcases Nat.lt_or_ge q k with hk | hk
    · have : factor.toNat * (q + 1) ≤ k * factor.toNat := by rw [Nat.mul_comm k]; exact Nat.mul_le_mul_left _ hk
      rw [Nat.mul_add, Nat.mul_one] at this
      omega
    · have : k * factor.toNat ≤ factor.toNat * q := by rw [Nat.mul_comm k]; exact Nat.mul_le_mul_left _ hk
      omega
  unfold approximateToNearestMultiple
  rw [if_neg hf]
  by_cases h1 : factor = 1
  · rw [if_pos h1]
    exact ⟨num, rfl, by rw [h1]; simp, fun k => by simp⟩
  rw [if_neg h1]
  simp only
  have hr : (num % factor).toNat = num.toNat % factor.toNat := BitVec.toNat_umod
  by_cases h2 : num % factor = 0
  · rw [if_pos h2]
    refine ⟨num, rfl, ?_, fun k => by simp⟩
    rw [h2] at hr
    exact Nat.dvd_of_mod_eq_zero (by rw [← hr]; rfl)
  rw [if_neg h2]
  have hr0 : 0 < num.toNat % factor.toNat := by
    rcases Nat.eq_zero_or_pos (num.toNat % factor.toNat) with h | h
    · exact absurd (BitVec.eq_of_toNat_eq (by rw [hr, h]; rfl)) h2
    · exact h
  have h2r : (2 * (num % factor)).toNat = 2 * (num.toNat % factor.toNat) := by
    rw [BitVec.toNat_mul, hr]
    show (2 % 2 ^ 32 * _) % 2 ^ 32 = _
    omega
  have hle : num.toNat % factor.toNat ≤ num.toNat := Nat.mod_le _ _
  have hsub : (num - num % factor).toNat = num.toNat - num.toNat % factor.toNat := by
    rw [BitVec.toNat_sub, hr]; omega
  have hdv : num.toNat - num.toNat % factor.toNat = factor.toNat * (num.toNat / factor.toNat) := by omega
  by_cases h3 : (2 * (num % factor)).toNat < factor.toNat
  · rw [if_pos h3]
    refine ⟨_, rfl, by rw [hsub, hdv]; exact Nat.dvd_mul_right _ _, fun k => ?_⟩
    have := hnear k _ _ hmod.symm hlt
    rw [hsub]
    rw [h2r] at h3
    omega
  · rw [if_neg h3]
    have hadd : (num - num % factor + factor).toNat = num.toNat - num.toNat % factor.toNat + factor.toNat := by
      rw [BitVec.toNat_add, hsub]; omega
    refine ⟨_, rfl, ?_, fun k => ?_⟩
    · rw [hadd, hdv]; exact Nat.dvd_add (Nat.dvd_mul_right _ _) (dvd_refl _)
    · have := hnear k _ _ hmod.symm hlt
      rw [hadd]
      rw [h2r] at h3
      omega

/-- C43. Tile sizes rounded for unroll-jam are positive multiples of the factor, never smaller than
it. Missing for the full claim: sizes within one factor of `2^32` (wrap-around). -/
theorem C43_round_partial (size ufactor : BitVec 32) (hf : ufactor ≠ 0)
    (hov : size.toNat + ufactor.toNat < 2 ^ 32) (hov2 : ufactor.toNat ≤ 2 ^ 31) :
    ∃ m, roundTileSize size ufactor = some m ∧ ufactor.toNat ∣ m.toNat ∧ ufactor.toNat ≤ m.toNat ∧
      (ufactor.toNat ≤ size.toNat →
        ∀ k : Nat, ((m.toNat : Int) - size.toNat).natAbs ≤ ((k * ufactor.toNat : Nat) - (size.toNat : Int)).natAbs) := by
  unfold roundTileSize
  split_ifs with h
  · exact ⟨ufactor, rfl, dvd_refl _, le_refl _, fun h' => by omega⟩
  · obtain ⟨m, hm, hd, hn⟩ := C43_nearest_partial size ufactor hf hov hov2
    refine ⟨m, hm, hd, ?_, fun _ => hn⟩
    obtain ⟨q, hq⟩ := hd
    have hf0 : 0 < ufactor.toNat := by
      rcases Nat.eq_zero_or_pos ufactor.toNat with h | h
      · exact absurd (BitVec.eq_of_toNat_eq (by simpa using h)) hf
      · exact h
    rcases Nat.eq_zero_or_pos q with h0 | h0
    · subst h0
      have := hn 1
      rw [hq] at this
      simp at this
      omega
    · rw [hq]; exact Nat.le_mul_of_pos_right _ h0

/-- C43. A factor 0 is rejected (assertion), unless the size is below it, which cannot be. -/
theorem C43_zero_factor (size : BitVec 32) : roundTileSize size 0 = none := by
  simp [roundTileSize, approximateToNearestMultiple]

/-- C43 fails on wrap-around: the tile size `2^32 - 1` is rounded to 0 for factor 2. -/
theorem C43_violated : ∃ size ufactor : BitVec 32, ufactor ≠ 0 ∧ roundTileSize size ufactor = some 0 :=
  ⟨BitVec.ofNat 32 (2 ^ 32 - 1), 2, by decide, by decide⟩

example : roundTileSize 37 8 = some 40 ∧ roundTileSize 35 8 = some 32 ∧ roundTileSize 3 8 = some 8 := by decide

end Pluto
