import Verif.Model.PerCc
import Verif.Spec.Auto
import Mathlib.Algebra.BigOperators.Intervals

/-!
Solutions of the ILP with `--per-cc-obj`: `npar + 1` entries for the sum of the bounding functions, `npar + 1` entries for the
bounding function of every component, then the coefficients of the hyperplanes as without the option.
-/

namespace Pluto

/-- The number of entries of a solution. -/
def CcLen (p : Prog) (ncc : Nat) (sol : List Int) : Prop :=
  sol.length = (p.npar + 1) * (ncc + 1) + p.stmts.length * (p.nvar + 1)

/-- The bounding function of component `c` and the hyperplanes: a solution in the layout without `--per-cc-obj`. -/
def ccPart (p : Prog) (ncc c : Nat) (sol : List Int) : List Int :=
  (sol.drop ((p.npar + 1) * (c + 1))).take (p.npar + 1) ++ sol.drop ((p.npar + 1) * (ncc + 1))

/-- The first entries are at least the sums of the bounding functions: what `get_per_cc_obj_sum_constraints` is for. -/
def SumBounded (p : Prog) (ncc : Nat) (sol : List Int) : Prop :=
  ∀ i ≤ p.npar, ∑ c ∈ Finset.range ncc, sol.getD ((p.npar + 1) * (c + 1) + i) 0 ≤ sol.getD i 0

end Pluto
