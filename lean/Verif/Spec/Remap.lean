import Verif.Spec.Affine

/-! Specification for remapping and transformed domains: full column rank, exact rational projection and
intersection (what PolyLib is used for). -/

namespace Pluto

/-- The first `dim` columns of the matrix with these rows are linearly independent: only the zero vector
is mapped to zero. -/
def FullColRank (dim : Nat) (rows : List (List Int)) : Prop :=
  ∀ v : List Int, v.length = dim → (∀ r ∈ rows, dot (r.take dim) v = 0) → ∀ a ∈ v, a = 0

/-- Values of the schedule rows at iterators `x` and parameters `q`. -/
def timesOf {R : Type*} [CommRing R] (trans : List (List Int)) (x q : List R) : List R :=
  trans.map (fun r => aff r (x ++ q))

/-- `proj c start num` is the exact rational projection that removes the `num` variables at `start`. -/
def RatProjOracle (proj : Cst → Nat → Nat → Cst) : Prop :=
  ∀ (c : Cst) (a b : Nat), c.WF → a + b + 1 ≤ c.ncols →
    (proj c a b).WF ∧ (proj c a b).ncols = c.ncols - b ∧
    ∀ A C : List ℚ, A.length = a → a + b + C.length + 1 = c.ncols →
      ((proj c a b).Sat (A ++ C) ↔ ∃ B : List ℚ, B.length = b ∧ c.Sat (A ++ B ++ C))

/-- `meet` is the intersection of two systems over the rationals. -/
def MeetOracle (meet : Cst → Cst → Cst) : Prop :=
  ∀ c1 c2 : Cst, c1.WF → c2.WF → c1.ncols = c2.ncols →
    (meet c1 c2).WF ∧ (meet c1 c2).ncols = c1.ncols ∧
    ∀ x : List ℚ, x.length + 1 = c1.ncols → ((meet c1 c2).Sat x ↔ c1.Sat x ∧ c2.Sat x)

end Pluto
