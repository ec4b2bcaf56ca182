import Verif.Spec.Search

/-! Specification of the stencil test. Nothing here depends on how the code builds its systems. -/

namespace Pluto

/-- `solve` returns the lexicographically smallest integer point of every system that has one, and nothing otherwise. -/
def SignedLexmin (solve : Cst → Option (List Int)) : Prop :=
  ∀ c : Cst, c.WF → ∀ x : List Int, solve c = some x ↔
    (x.length + 1 = c.ncols ∧ c.Sat x) ∧ ∀ y : List Int, y.length + 1 = c.ncols → c.Sat y → LexLe x y

/-- `d` is a dependence other than an input dependence between statements of the component `S`. -/
def Dep.Inside (d : Dep) (S : List Nat) : Prop := d.rar = false ∧ d.src ∈ S ∧ d.dest ∈ S

/-- A face with concurrent start for each statement of `S`: a schedule with a single nonzero loop coefficient per statement that runs
the target of every dependence of the component later than the source. -/
structure StartFaces (p : Prog) (S : List Nat) (faces : List (List Int)) : Prop where
  len : faces.length = S.length
  row : ∀ f ∈ faces, f.length = p.nvar + p.npar + 1 ∧ ∃ k < p.nvar, f.getD k 0 ≠ 0 ∧ ∀ k' < p.nvar, k' ≠ k → f.getD k' 0 = 0
  later : ∀ d ∈ p.deps, d.Inside S → ∀ (a b : Nat) f g, S[a]? = some d.src → faces[a]? = some f → S[b]? = some d.dest →
    faces[b]? = some g → ∀ s t q : List Int, DepInst d.dpoly p.nvar p.nvar p.npar s t q → aff f (s ++ q) < aff g (t ++ q)

/-- Affine functions `h i` of the iterators of the statements, with non-negative coefficients, that depend on some dimension outside the
face of each statement of `S` but not on the dimension of its face, such that all dependence distances in the component
are at most `w`, in either direction. -/
structure ShortPlane (p : Prog) (S : List Nat) (faces : List (List Int)) (w : Int) (h : Nat → List Int) : Prop where
  len : ∀ i < p.stmts.length, (h i).length = p.nvar + 1
  nonneg : ∀ i < p.stmts.length, ∀ v ∈ h i, 0 ≤ v
  face : ∀ (a i : Nat) f, S[a]? = some i → faces[a]? = some f → ∀ k < p.nvar, f.getD k 0 ≠ 0 → (h i).getD k 0 = 0
  other : ∀ (a i : Nat) f, S[a]? = some i → faces[a]? = some f → ∃ k < p.nvar, f.getD k 0 = 0 ∧ (h i).getD k 0 ≠ 0
  short : ∀ d ∈ p.deps, d.Inside S → ∀ s t q : List ℚ, DepInst d.bpoly p.nvar p.nvar p.npar s t q →
    aff (h d.dest) t - aff (h d.src) s ≤ (w : ℚ) ∧ -(w : ℚ) ≤ aff (h d.dest) t - aff (h d.src) s

end Pluto
