import Verif.Spec.Schedule
import Verif.Model.Prog

/-! Specification predicates over the program data structure. -/

namespace Pluto

/-- The coefficient vector is zero in the columns of the padding dimensions of every statement
(guaranteed by `pluto_prog_constraints_lexmin`, see C28). -/
def PadZero {R : Type*} [CommRing R] (p : Prog) (sol : List R) : Prop :=
  ∀ i st, p.stmts[i]? = some st → ∀ k < p.nvar, st.isOrig.getD k true = false →
    sol.getD (p.npar + 1 + i * (p.nvar + 1) + k) 0 = 0

/-- The length of a coefficient vector for the program: bound coefficients and constant, then
`nvar + 1` entries per statement. -/
def SolLen {R : Type*} (p : Prog) (sol : List R) : Prop :=
  sol.length = p.npar + 1 + p.stmts.length * (p.nvar + 1)

/-- A dependence that fits a program whose statements all have `nvar` dimensions: end points exist
and both polyhedra have the columns [source | target | parameters | 1]. -/
structure DepOK (p : Prog) (d : Dep) : Prop where
  src : d.src < p.stmts.length
  dest : d.dest < p.stmts.length
  dwf : d.dpoly.WF
  dcols : d.dpoly.ncols = 2 * p.nvar + p.npar + 1
  bwf : d.bpoly.WF
  bcols : d.bpoly.ncols = 2 * p.nvar + p.npar + 1

end Pluto

namespace Pluto

/-- `isEmpty` decides emptiness of integer sets (what ISL and PIP are used for). -/
def EmptyOracle (isEmpty : Cst → Bool) : Prop :=
  ∀ c : Cst, c.WF → (isEmpty c = true ↔ ¬ ∃ x : List Int, x.length + 1 = c.ncols ∧ c.Sat x)

/-- Number of iterators of statement `i`. -/
def Prog.dim (p : Prog) (i : Nat) : Nat := (p.stmts[i]?.map (·.dim)).getD 0

/-- Schedule row `l` of statement `i` (empty, hence value 0, if there is none; the theorems only
speak about rows that exist). -/
def Prog.row (p : Prog) (i l : Nat) : List Int := (p.stmts[i]?.bind (·.trans[l]?)).getD []

/-- Value of schedule row `l` of statement `i` at iterators `x`, parameters `q`. -/
def Prog.phi (p : Prog) (i l : Nat) (x q : List Int) : Int := aff (p.row i l) (x ++ q)

/-- Component `l` of the dependence distance of the pair `(s, t)`: `phi(t) - phi(s)`. -/
def Prog.comp (p : Prog) (d : Dep) (l : Nat) (s t q : List Int) : Int :=
  p.phi d.dest l t q - p.phi d.src l s q

/-- `(s, t)` is a dependent pair of instances of `d`. -/
def Prog.Inst (p : Prog) (d : Dep) (s t q : List Int) : Prop :=
  DepInst d.dpoly (p.dim d.src) (p.dim d.dest) p.npar s t q

/-- Schedule rows have one column per iterator, per parameter, and a constant. -/
def Prog.TransOK (p : Prog) : Prop :=
  ∀ st ∈ p.stmts, ∀ r ∈ st.trans, r.length = st.dim + p.npar + 1

/-- The dependence polyhedron has the columns [source | target | parameters | 1]. -/
structure Prog.DepFits (p : Prog) (d : Dep) : Prop where
  wf : d.dpoly.WF
  cols : d.dpoly.ncols = p.dim d.src + p.dim d.dest + p.npar + 1

/-- The pair `(s, t)` is not ordered by levels `< n` (all components zero). -/
def Prog.TiedBelow (p : Prog) (d : Dep) (n : Nat) (s t q : List Int) : Prop :=
  ∀ l < n, p.comp d l s t q = 0

end Pluto
