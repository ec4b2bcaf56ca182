import Verif.Spec.LpScale

/-! Rows without coefficients. -/

namespace Pluto

/-- No row without coefficients is false (like `0 >= 1` or `0 = 5`). -/
def NoFalseRow (c : Cst) : Prop :=
  ∀ r ∈ c.rows, (∀ j < c.ncols - 1, r.val.getD j 0 = 0) →
    0 ≤ r.val.getD (c.ncols - 1) 0 ∧ (r.eq = true → r.val.getD (c.ncols - 1) 0 = 0)

instance (c : Cst) : Decidable (NoFalseRow c) := by unfold NoFalseRow; infer_instance

end Pluto
