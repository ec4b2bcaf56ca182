import Mathlib.Data.Int.Order.Basic

/-!
Model of the conversions between machine words and big integers (lib/math_support.c,
lib/isl_support.c) and of tile size rounding (lib/tile_size_selection_model.cpp). Machine words are
bit vectors, GMP integers are `Int`.
-/

namespace Pluto

/-- `mpz_set_sll`, lib/math_support.c:690-697: sets the signed upper half, shifts it left by 32 and adds
the unsigned lower half. -/
def mpzSetSll (sll : BitVec 64) : Int :=
  ((sll.sshiftRight 32).truncate 32).toInt * 2 ^ 32 + ((sll.truncate 32).toNat : Int)

/-- `mpz_fits_ll`, lib/isl_support.c:104-119. `mpz_tdiv_q_2exp` rounds towards zero. -/
def mpzFitsLl (z : Int) : Bool :=
  if z > 0 then decide (z.tdiv (2 ^ 63) = 0) else decide ((z + 1).tdiv (2 ^ 63) = 0)

/-- `isl_val_get_num_ll`, lib/isl_support.c:125-170, for a rational value with numerator `z`. Out of range:
`sign` is `mpz_sgn(z)` and is tested for being non-zero, not for being positive. -/
def islValGetNumLl (z : Int) : BitVec 64 :=
  if mpzFitsLl z = false then
    if z.sign ≠ 0 then BitVec.ofInt 64 (2 ^ 63 - 1) else BitVec.ofInt 64 (2 ^ 63)
  else
    let tmp := z.emod (2 ^ 64)
    let lo : BitVec 32 := BitVec.ofInt 32 tmp
    let hi : BitVec 32 := BitVec.ofInt 32 (tmp / 2 ^ 32)
    (hi.zeroExtend 64 <<< 32) + lo.zeroExtend 64

/-- `approximate_to_nearest_multiple`, lib/tile_size_selection_model.cpp:93-105, on `unsigned` (32 bit,
wrapping) values; `none`: assertion failure. -/
def approximateToNearestMultiple (num factor : BitVec 32) : Option (BitVec 32) :=
  if factor = 0 then none
  else if factor = 1 then some num
  else
    let r := num % factor
    if r = 0 then some num
    else if (2 * r).toNat < factor.toNat then some (num - r)
    else some (num - r + factor)

/-- `round_tile_sizes_wrt_unroll_jam_factor`, lib/tile_size_selection_model.cpp:133-140. -/
def roundTileSize (size ufactor : BitVec 32) : Option (BitVec 32) :=
  if size.toNat < ufactor.toNat then some ufactor else approximateToNearestMultiple size ufactor

end Pluto
