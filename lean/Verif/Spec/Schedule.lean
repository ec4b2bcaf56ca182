import Verif.Spec.Affine

/-!
Specification side of schedules: what the value of a hyperplane is, what a dependent pair of
instances is, lexicographic order. Nothing here refers to the model.
-/

namespace Pluto

/-- Value at iterators `x` of the hyperplane of statement `i` that a coefficient vector `sol`
describes. Layout of `sol` (documented at lib/framework.cpp:345-347):
`npar` bound coefficients, the bound constant, then per statement `nvar` coefficients and a
constant. -/
def hypValue {R : Type*} [CommRing R] (nvar npar : Nat) (sol : List R) (i : Nat) (x : List R) : R :=
  ldot ((sol.drop (npar + 1 + i * (nvar + 1))).take (nvar + 1)) (x ++ [1])

/-- Value of the bound `u.p + w` that a coefficient vector describes. -/
def boundValue {R : Type*} [CommRing R] (npar : Nat) (sol : List R) (p : List R) : R :=
  ldot (sol.take (npar + 1)) (p ++ [1])

/-- `(s, t)` is a dependent pair of instances for the parameter values `p`. -/
structure DepInst {R : Type*} [CommRing R] [LinearOrder R] (poly : Cst) (ns nt np : Nat)
    (s t p : List R) : Prop where
  hs : s.length = ns
  ht : t.length = nt
  hp : p.length = np
  sat : poly.Sat (s ++ t ++ p)

end Pluto
