import Mathlib.Algebra.Order.Ring.Int
import Mathlib.Algebra.Order.Field.Basic
import Mathlib.Tactic.Ring
import Mathlib.Tactic.Linarith
import Mathlib.Data.List.InsertIdx

/-!
Specification layer: affine forms, constraint rows, systems and the points that satisfy them.
Nothing here depends on how the code manipulates systems.
-/

namespace Pluto

/-- Inner product of an integer row with a point over any ring. Only meaningful on lists of the
same length (theorems that use it assume this). -/
def dot {R : Type*} [CommRing R] : List Int → List R → R
  | a :: as, x :: xs => (a : R) * x + dot as xs
  | _, _ => 0

/-- Inner product of two vectors over a ring. -/
def ldot {R : Type*} [CommRing R] : List R → List R → R
  | a :: as, x :: xs => a * x + ldot as xs
  | _, _ => 0

/-- Value of the affine form `row` (last entry = constant term) at the point `x`. -/
def aff {R : Type*} [CommRing R] (row : List Int) (x : List R) : R := dot row (x ++ [1])

/-- A constraint row: `val . (x, 1) = 0` if `eq`, else `val . (x, 1) >= 0`
(struct pluto_constraints, lib/constraints.h:24-52: one row of `val` and its `is_eq` flag). -/
structure Row where
  eq : Bool
  val : List Int
deriving DecidableEq, Repr

/-- One element of a PlutoConstraints list (lib/constraints.h:24-52). `alloc_nrows`, `alloc_ncols`,
`names` and `context` are not represented here. -/
structure Cst where
  ncols : Nat
  rows : List Row
deriving DecidableEq, Repr

section
variable {R : Type*} [CommRing R] [LinearOrder R] [IsStrictOrderedRing R]

/-- The point `x` satisfies the row. -/
def Row.Sat (r : Row) (x : List R) : Prop :=
  if r.eq then aff r.val x = 0 else 0 ≤ aff r.val x

/-- The point `x` satisfies all rows. -/
def Cst.Sat (c : Cst) (x : List R) : Prop := ∀ r ∈ c.rows, r.Sat x

/-- The point satisfies some member of a list of systems (the list denotes a union). -/
def SatUnion (l : List Cst) (x : List R) : Prop := ∃ c ∈ l, c.Sat x

end

/-- Every row has as many entries as the system has columns. -/
def Cst.WF (c : Cst) : Prop := 1 ≤ c.ncols ∧ ∀ r ∈ c.rows, r.val.length = c.ncols

instance (c : Cst) : Decidable c.WF := by unfold Cst.WF; infer_instance

end Pluto
