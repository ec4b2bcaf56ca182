import Verif.Model.IslAff
import Verif.Spec.Pet
import Mathlib.Data.Rat.Cast.Order
import Mathlib.Algebra.Field.Rat

/-! What an isl affine expression and a piecewise one mean. -/

namespace Pluto

/-- The values of the integer divisions at the point `v` = [in | param | 1]. -/
def divValues (v : List Int) (ds : List IslDiv) : List Int := ds.foldl (fun z d => z ++ [(dot d.num (v ++ z) : Int) / (d.den : Int)]) []

/-- The value of an affine expression. -/
def IslAff.value (a : IslAff) (x q : List Int) : Rat :=
  ldot a.coef ((x ++ q ++ [1]).map (fun i => (i : Rat))) + ldot a.dcoef ((divValues (x ++ q ++ [1]) a.divs).map (fun i => (i : Rat)))

/-- The point is in the set of the piece. -/
def IslPiece.Covers (pc : IslPiece) (x q : List Int) : Prop := ∃ s ∈ pc.dom, s.Has [] x q

/-- isl's answers for the map `b`: single-valued dimensions are recognized, and for these the pieces give the value
wherever the map is defined. -/
structure PwOps.OKFor (P : PwOps) (b : BMap) : Prop where
  single : ∀ i < b.nout, (P.single b i = true ↔ ∀ x y y' q, b.Has x y q → b.Has x y' q → y[i]? = y'[i]?)
  cover : ∀ i < b.nout, P.single b i = true → ∀ x y q, b.Has x y q → ∃ pc ∈ P.pieces b i, pc.Covers x q
  value : ∀ i < b.nout, P.single b i = true → ∀ pc ∈ P.pieces b i, ∀ x y q, b.Has x y q → pc.Covers x q →
    ∃ v : Int, y[i]? = some v ∧ (v : Rat) = pc.aff.value x q
  shape : ∀ i < b.nout, ∀ pc ∈ P.pieces b i, pc.aff.nin = b.nin ∧ pc.aff.npar = b.npar ∧ pc.aff.coef.length = b.nin + b.npar + 1

/-- An affine expression with integer coefficients and without integer divisions. -/
def IslAff.Integral (a : IslAff) : Prop := a.divs = [] ∧ a.dcoef = [] ∧ ∀ c ∈ a.coef, c.den = 1

/-- Dimension `i` of the map is a single affine expression with integer coefficients. -/
def PwOps.AffineDim (P : PwOps) (b : BMap) (i : Nat) : Prop :=
  P.single b i = true ∧ ∃ pc, P.pieces b i = [pc] ∧ pc.aff.Integral

end Pluto
