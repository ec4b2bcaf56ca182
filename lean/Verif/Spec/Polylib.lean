import Verif.Model.Polylib
import Verif.Spec.Affine

/-! What is expected from PolyLib, in terms of the integer points of polyhedra. -/

namespace Pluto

/-- A row of a matrix of PolyLib: the first entry tells equalities (zero) from inequalities. -/
def PolyRowSat (r : List Int) (x : List Int) : Prop :=
  if r.headD 0 = 0 then aff (r.drop 1) x = 0 else 0 ≤ aff (r.drop 1) x

/-- PolyLib does what its manual says: `mem q x` is membership of integer points, `dim q` the dimension. -/
structure PolyLib.OK {P : Type} (B : PolyLib P) (dim : P → Nat) (mem : P → List Int → Prop) : Prop where
  ofDim : ∀ w rows, dim (B.ofRows (w + 2) rows) = w
  ofMem : ∀ w rows x, (∀ r ∈ rows, r.length = w + 2) → x.length = w →
    (mem (B.ofRows (w + 2) rows) x ↔ ∀ r ∈ rows, PolyRowSat r x)
  toDim : ∀ q, (B.toRows q).1 = dim q + 2 ∧ ∀ r ∈ (B.toRows q).2, r.length = dim q + 2
  toMem : ∀ q x, x.length = dim q → (mem q x ↔ ∀ r ∈ (B.toRows q).2, PolyRowSat r x)
  /-- Results of the operations on domains of one dimension have that dimension, and are not empty lists. -/
  opDim : ∀ op ∈ [B.union, B.diff, B.inter], ∀ w l1 l2, l1 ≠ [] → l2 ≠ [] → (∀ q ∈ l1, dim q = w) → (∀ q ∈ l2, dim q = w) →
    op l1 l2 ≠ [] ∧ ∀ q ∈ op l1 l2, dim q = w
  union : ∀ w l1 l2, (∀ q ∈ l1, dim q = w) → (∀ q ∈ l2, dim q = w) → ∀ x : List Int, x.length = w →
    ((∃ q ∈ B.union l1 l2, mem q x) ↔ (∃ q ∈ l1, mem q x) ∨ ∃ q ∈ l2, mem q x)
  diff : ∀ w l1 l2, (∀ q ∈ l1, dim q = w) → (∀ q ∈ l2, dim q = w) → ∀ x : List Int, x.length = w →
    ((∃ q ∈ B.diff l1 l2, mem q x) ↔ (∃ q ∈ l1, mem q x) ∧ ¬ ∃ q ∈ l2, mem q x)
  inter : ∀ w l1 l2, (∀ q ∈ l1, dim q = w) → (∀ q ∈ l2, dim q = w) → ∀ x : List Int, x.length = w →
    ((∃ q ∈ B.inter l1 l2, mem q x) ↔ (∃ q ∈ l1, mem q x) ∧ ∃ q ∈ l2, mem q x)

/-- A union of systems in `w` variables. -/
def UnionOf (w : Nat) (l : List Cst) : Prop := l ≠ [] ∧ ∀ c ∈ l, c.WF ∧ c.ncols = w + 1

end Pluto
