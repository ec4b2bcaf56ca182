import Verif.Spec.FcgCluster
import Verif.Spec.Colour
import Verif.Model.LpColour
/-! Specification for `--lpcolor`: hyperplanes for a strongly connected component. -/
namespace Pluto

/-- Coefficient of iterator `k` of statement `i` (the shift for `k = nvar`) in a vector. -/
def loopCoef (p : Prog) (x : List ℚ) (i k : Nat) : ℚ := x.getD (p.npar + 1 + i * (p.nvar + 1) + k) 0

/-- Loop `k` of statement `i` has no colour. -/
def NoColour (p : Prog) (colour : List Nat) (i k : Nat) : Prop := k < depthOf p i ∧ colour.getD ((stmtBlock p i).first + k) 0 = 0

instance (p : Prog) (colour : List Nat) (i k : Nat) : Decidable (NoColour p colour i k) := inferInstanceAs (Decidable (_ ∧ _))

/-- The unsatisfied dependences inside component `s`. -/
def LiveIn (a : Auto) (s : Nat) (d : Dep) : Prop := d.satisfied = false ∧ InScc a s d.src ∧ InScc a s d.dest

/-- A hyperplane for component `s` that is new for it: non-negative coefficients within the bounds given, with sum at least 1 over the
loops without colour of each statement that has such loops; no unsatisfied dependence inside the component goes backwards, and (unless
`--nodepbound`) their distances are bounded by the first entries of the vector. -/
structure SccHyp (o : SearchOpts) (a : Auto) (colour : List Nat) (s : Nat) (x : List ℚ) : Prop where
  len : x.length = a.p.npar + 1 + a.p.stmts.length * (a.p.nvar + 1)
  nonneg : ∀ v ∈ x, 0 ≤ v
  cap : ∀ b, Cap o a.p b → ∀ i < a.p.stmts.length, ∀ k ≤ a.p.nvar, loopCoef a.p x i k ≤ b
  pad : ∀ i < a.p.stmts.length, ∀ k, depthOf a.p i ≤ k → k < a.p.nvar → loopCoef a.p x i k = 0
  new : ∀ i, InScc a s i → (∃ k, NoColour a.p colour i k) →
    1 ≤ (((List.range (depthOf a.p i)).filter (fun k => NoColour a.p colour i k)).map (loopCoef a.p x i)).sum
  weak : ∀ d ∈ a.p.deps, LiveIn a s d → d.rar = false → ∀ y z q : List ℚ, DepInst d.dpoly a.p.nvar a.p.nvar a.p.npar y z q →
    hypValue a.p.nvar a.p.npar x d.src y ≤ hypValue a.p.nvar a.p.npar x d.dest z
  bound : o.nodepbound = false → ∀ d ∈ a.p.deps, LiveIn a s d → ∀ y z q : List ℚ, DepInst d.bpoly a.p.nvar a.p.nvar a.p.npar y z q →
    hypValue a.p.nvar a.p.npar x d.dest z - hypValue a.p.nvar a.p.npar x d.src y ≤ boundValue a.p.npar x q

/-- Source and target instances of all the dependences lie on the same hyperplane (where the polyhedron used for the bound applies). -/
def ParallelHyp (a : Auto) (s : Nat) (x : List ℚ) : Prop :=
  ∀ d ∈ a.p.deps, LiveIn a s d → d.rar = false → ∀ y z q : List ℚ, DepInst d.dpoly a.p.nvar a.p.nvar a.p.npar y z q →
    DepInst d.bpoly a.p.nvar a.p.nvar a.p.npar y z q → hypValue a.p.nvar a.p.npar x d.src y = hypValue a.p.nvar a.p.npar x d.dest z

/-- What the mark of component `s` (parallel or not, and solution) should say: without solution, no loop is left; otherwise its
coefficients are those of a hyperplane for the component, which is parallel if the component is called so (unless `--nodepbound`). -/
def MarkOK (o : SearchOpts) (a : Auto) (colour : List Nat) (s : Nat) : Bool × Option (List ℚ) → Prop
  | (par, none) => par = true ∧ ∀ i, InScc a s i → ∀ k, ¬ NoColour a.p colour i k
  | (par, some x) => ∃ y, SccHyp o a colour s y ∧ (∀ i, InScc a s i → ∀ k < depthOf a.p i, loopCoef a.p y i k = loopCoef a.p x i k) ∧
    (o.nodepbound = false → par = true → ParallelHyp a s y)

end Pluto
