import Verif.Model.Constraints

/-! The parts of the GLPK interface that translate systems, lib/constraints.c. -/

namespace Pluto

/-- The coefficients of row `i` loaded into GLPK: (row, column, value) counted from 1. -/
def glpkRow (n : Nat) (r : Row) (i : Nat) : List (Nat × Nat × Int) :=
  ((r.val.take n).zipIdx.filter (fun a => decide (a.1 ≠ 0))).map (fun a => (i + 1, a.2 + 1, a.1))

/-- The coefficients loaded into GLPK, in the order of the arrays filled by
`set_glpk_constraints_from_pluto_constraints`, lib/constraints.c:1097-1139. Values are exact here, doubles there. -/
def glpkEntries (c : Cst) : List (Nat × Nat × Int) :=
  c.rows.zipIdx.flatMap (fun a => glpkRow (c.ncols - 1) a.1 a.2)

/-- Bound of a row in GLPK: equal to a value, or at least a value. -/
inductive GlpkBound where
  | fixed (b : Int)
  | lower (b : Int)
deriving Repr, DecidableEq

/-- The bounds of the rows set by `set_glpk_constraints_from_pluto_constraints`, lib/constraints.c:1097-1139. -/
def glpkBounds (c : Cst) : List GlpkBound :=
  c.rows.map (fun r => if r.eq then .fixed (-coef r.val (c.ncols - 1)) else .lower (-coef r.val (c.ncols - 1)))

end Pluto
