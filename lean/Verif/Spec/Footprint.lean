import Verif.Model.Footprint
import Mathlib.Algebra.BigOperators.Group.Finset.Basic
import Mathlib.Data.Set.Card

/-! The data that a tile touches. -/

namespace Pluto

/-- The length of a tile along the loop at level `l`, if the variable of the polynomial has the value `T`. -/
def tileLen (c : FootCfg) (T l : Nat) : Nat :=
  if l - c.depth = c.vectorDim then 512
  else if l - c.depth = c.par then 32
  else if c.wave ∧ (l = c.depth ∨ l = c.depth + 1) then 32
  else c.reuse.getD (l - c.depth) 0 * T

/-- The value of a subscript; `x` has the levels, the parameters and 1. -/
def subscript (r : List Int) (x : Nat → Int) : Int := ∑ j ∈ Finset.range r.length, r.getD j 0 * x j

/-- The elements of an array that the tile with corner `base` touches: the loops run over an interval each, everything else is fixed. -/
def tileElems (loops : List Nat) (len : Nat → Nat) (base : Nat → Int) (rows : List (List Int)) : Set (List Int) :=
  {v | ∃ x : Nat → Int, (∀ j ∈ loops, base j ≤ x j ∧ x j < base j + len j) ∧ (∀ j, j ∉ loops → x j = base j) ∧ v = rows.map (subscript · x)}

/-- The value of a polynomial, the constant first. -/
def evalPoly (poly : List Int) (t : Int) : Int := poly.foldr (fun a s => a + t * s) 0

/-- Each subscript is one loop plus something that does not change in the tile, and no two subscripts have the same loop `ls`. -/
structure SimpleSubscripts (loops : List Nat) (m : Mat) (ls : List Nat) : Prop where
  rows : List.Forall₂ (fun r l => l ∈ loops ∧ r.getD l 0 = 1 ∧ ∀ j ∈ loops, j ≠ l → r.getD j 0 = 0) m.rows ls
  distinct : ls.Nodup
  wf : m.WF

end Pluto
