import Mathlib.LinearAlgebra.Dimension.Finrank
import Mathlib.LinearAlgebra.Dimension.Constructions
import Mathlib.LinearAlgebra.FiniteDimensional.Defs
import Mathlib.Data.Rat.Defs

/-! Specification of the rank of an integer matrix: the dimension over ℚ of its row space. -/

namespace Pluto

/-- An integer row as a rational vector with `n` entries. -/
def qvec (n : Nat) (r : List Int) : Fin n → ℚ := fun j => (r.getD j 0 : Int)

/-- The rational row space of a list of rows. -/
def rowSpace (n : Nat) (rows : List (List Int)) : Submodule ℚ (Fin n → ℚ) :=
  Submodule.span ℚ {v | ∃ r ∈ rows, v = qvec n r}

/-- The rank of a list of rows of length `n`. -/
noncomputable def rowRank (n : Nat) (rows : List (List Int)) : Nat := Module.finrank ℚ (rowSpace n rows)

end Pluto
