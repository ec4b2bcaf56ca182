import Verif.Spec.Auto
import Verif.Spec.Edges
import Verif.Spec.Search
import Verif.Model.Dfp
/-! Specification of the search with `--dfp`. -/
namespace Pluto

/-- What is assumed about `build_fusion_conflict_graph`: a vertex per loop, adjacency entries 0 or 1. Which
edges there are is left open. -/
def FcgOracle (fcgOf : Auto → List Nat → Nat → Graph) : Prop :=
  ∀ a colour c, (fcgOf a colour c).n = (a.p.stmts.map (·.dimOrig)).sum ∧
    ∀ i j, (fcgOf a colour c).adj i j = 0 ∨ (fcgOf a colour c).adj i j = 1

/-- What is assumed about `pluto_prog_constraints_lexmin`: the hyperplane it returns is that of a (rational) solution of
the system, multiplied by a factor of at least one for each statement, and the factor is the same for connected statements
of the dependence graph. Only calls with graphs whose edges come from dependences of `p` are considered. Integer solvers
satisfy this (the factors are all one), see `lexIlp_scales`; for GLPK with scaling, see `lexGlpk_scales`. -/
def LexScales (p : Prog) (lex : Lex) : Prop :=
  ∀ a cst sol, EdgesOf p a.g → a.g.n = a.p.stmts.length → a.p.stmts ≠ [] → a.p.OrigOK → cst.WF → cst.rows ≠ [] →
    cst.ncols = a.p.npar + 1 + a.p.stmts.length * (a.p.nvar + 1) + 1 → lex a cst = some (some sol) →
    SolLen a.p sol ∧ PadZero a.p sol ∧ ∃ (x : List ℚ) (f : Nat → ℚ), SolLen a.p x ∧ PadZero a.p x ∧ cst.Sat x ∧
      (∀ i < a.p.stmts.length, 1 ≤ f i ∧ ∀ j ≤ a.p.nvar,
        (sol.getD (a.p.npar + 1 + i * (a.p.nvar + 1) + j) 0 : ℚ) = f i * x.getD (a.p.npar + 1 + i * (a.p.nvar + 1) + j) 0) ∧
      ∀ i < a.p.stmts.length, ∀ j < a.p.stmts.length, a.g.Connected i j → f i = f j

/-- Statement `j` depends on statement `i`. -/
def DepEdge (p : Prog) (i j : Nat) : Prop := ∃ d ∈ p.deps, d.rar = false ∧ d.src = i ∧ d.dest = j

/-- A (possibly empty) chain of dependences leads from statement `i` to statement `j`. -/
def DepChain (p : Prog) : Nat → Nat → Prop := Relation.ReflTransGen (DepEdge p)

/-- A schedule row that is a positive multiple of loop `j` alone (among `n` loops), up to a shift. -/
def LoopRow (n : Nat) (r : List Int) (j : Nat) : Prop := 0 < coef r j ∧ ∀ j' < n, j' ≠ j → coef r j' = 0

/-- One of the first `n` levels puts all source instances of the dependence before their targets. -/
def LeadSat (p : Prog) (n : Nat) (d : Dep) : Prop := ∃ l < n, ∀ s t q, p.Inst d s t q → 1 ≤ p.comp d l s t q

/-- All statements are connected by dependences that the first `n` levels do not satisfy. -/
def AllTied (p : Prog) (n : Nat) : Prop :=
  ∀ i < p.stmts.length, ∀ j < p.stmts.length, Relation.ReflTransGen (fun i j => ∃ d ∈ p.deps, d.rar = false ∧ ¬ LeadSat p n d ∧
    (d.src = i ∧ d.dest = j ∨ d.src = j ∧ d.dest = i)) i j

end Pluto
