import Verif.Model.LpScale
import Verif.Spec.Search

/-! What is assumed about GLPK (with exact arithmetic). -/

namespace Pluto

/-- Every answer of the LP solver is a non-negative rational point of the system. No entry is so small (but not zero)
that the code takes it for zero. -/
def LpPoints (lp : Cst → List Int → Option (List ℚ)) : Prop :=
  ∀ c obj x, c.WF → lp c obj = some x → x.length + 1 = c.ncols ∧ c.Sat x ∧ ∀ a ∈ x, a = 0 ∨ 1 / 10000000 < a

/-- The ILP solver returns a non-negative integer point of the system at which the objective is least, and nothing
exactly when there is no such point. -/
def IlpOptimal (ilp : Cst → List Int → Option (List ℚ)) : Prop :=
  ∀ c obj, c.WF → NonNeg obj →
    (∀ x, ilp c obj = some x → ∃ z : List Int, x = z.map (fun a : Int => (a : ℚ)) ∧ z.length + 1 = c.ncols ∧ NonNeg z ∧ c.Sat z ∧
      ∀ y : List Int, y.length + 1 = c.ncols → NonNeg y → c.Sat y → dot obj z ≤ dot obj y) ∧
    (ilp c obj = none → ¬ ∃ y : List Int, y.length + 1 = c.ncols ∧ NonNeg y ∧ c.Sat y)

/-- Every answer of the LP solver minimises the objective over the non-negative rational points. -/
def LpOptimal (lp : Cst → List Int → Option (List ℚ)) : Prop :=
  ∀ c obj x, c.WF → lp c obj = some x →
    ∀ y : List ℚ, y.length + 1 = c.ncols → (∀ a ∈ y, 0 ≤ a) → c.Sat y → dot obj x ≤ dot obj y

/-- The value that the objective should have for a coefficient vector: bound coefficients count `25 * nvar * nstmts`
each, the bound constant `5 * nvar * nstmts`, the coefficient of the `k`-th (from 0) original loop of a statement
`(nvar + 2) * (k + 1)`, the constant of a statement `1`. -/
def objValue (p : Prog) (z : List Int) : Int :=
  25 * p.nvar * p.stmts.length * (z.take p.npar).sum + 5 * p.nvar * p.stmts.length * z.getD p.npar 0 +
  (p.stmts.mapIdx (fun i st =>
    ((loopCoeffs p.nvar (p.npar + 1 + i * (p.nvar + 1)) st z).mapIdx (fun k a => (p.nvar + 2) * ((k : Int) + 1) * a)).sum +
      z.getD (p.npar + 1 + i * (p.nvar + 1) + p.nvar) 0)).sum

/-- A value that obeys the bounds and the kind of a column. -/
def ScaleCol.Ok (v : ℚ) : ScaleCol → Prop
  | .zero => v = 0
  | .int => 1 ≤ v ∧ ∃ n : Int, v = n
  | .rat => 1 ≤ v

/-- The values `s` of the columns solve the scaling problem. -/
def ScaleProb.Sol (P : ScaleProb) (s : List ℚ) : Prop :=
  s.length = P.cols.length ∧ (∀ (i : Nat) (k : ScaleCol), P.cols[i]? = some k → k.Ok (s.getD i 0)) ∧
  ∀ row ∈ P.rows, (row.map (fun e => e.2 * s.getD (e.1 - 1) 0)).sum = 0

/-- The solver of scaling problems returns solutions, and nothing only when there is none. -/
def MipPoints (mip : ScaleProb → Option (List ℚ)) : Prop :=
  ∀ P, (∀ s, mip P = some s → P.Sol s) ∧ (mip P = none → ¬ ∃ s, P.Sol s)

end Pluto
