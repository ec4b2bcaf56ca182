import Verif.Spec.Affine

/-! Specification of projection, used for the functions that rely on PolyLib's or isl's projection. -/

namespace Pluto

/-- `proj c start num` removes the `num` variables at `start` and keeps (at least) the projections of
all integer solutions. -/
def ProjOracle (proj : Cst → Nat → Nat → Cst) : Prop :=
  ∀ (c : Cst) (A B C : List Int), c.WF → c.ncols = A.length + B.length + C.length + 1 →
    (proj c A.length B.length).WF ∧ (proj c A.length B.length).ncols = A.length + C.length + 1 ∧
    (c.Sat (A ++ B ++ C) → (proj c A.length B.length).Sat (A ++ C))

/-- A list of pairwise different values that coordinate `pre.length` takes in `c` after the prefix
`pre`. -/
def Values (c : Cst) (pre vs : List Int) : Prop :=
  vs.Nodup ∧ ∀ v ∈ vs, ∃ rest : List Int, pre.length + 1 + rest.length + 1 = c.ncols ∧ c.Sat (pre ++ v :: rest)

end Pluto
