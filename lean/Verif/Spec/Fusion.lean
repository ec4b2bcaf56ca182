import Verif.Spec.Auto
import Mathlib.Logic.Relation

/-! Which statements have to stay together and how deep their nests are. -/

namespace Pluto

/-- Some dependence of the program (not one between two reads) goes from statement `i` to statement `j`. -/
def Prog.DepEdge (p : Prog) (i j : Nat) : Prop := ∃ d ∈ p.deps, d.rar = false ∧ d.src = i ∧ d.dest = j

/-- Statement `j` depends on statement `i`, over any number of dependences (none for `i = j`). -/
def Prog.DependsOn (p : Prog) (j i : Nat) : Prop := Relation.ReflTransGen p.DepEdge i j

/-- The statements depend on each other. -/
def Prog.Mutual (p : Prog) (i j : Nat) : Prop := p.DependsOn i j ∧ p.DependsOn j i

/-- `n` is the greatest number of loops around a statement that depends on statement `i` and on which statement `i` depends. -/
def Prog.NestDepth (p : Prog) (i n : Nat) : Prop :=
  (∃ j st, p.stmts[j]? = some st ∧ p.Mutual i j ∧ st.dim = n) ∧
    ∀ j st, p.stmts[j]? = some st → p.Mutual i j → st.dim ≤ n

/-- The outermost loop level of the schedules only distributes: all instances of statement `i` have the value `c i` there. -/
def Prog.SplitBy (p0 p : Prog) (c : Nat → Int) : Prop :=
  ∀ i < p0.stmts.length, ∀ x q : List Int, x.length = p0.dim i → q.length = p0.npar → (p.timestamp i x q)[0]? = some (c i)

end Pluto
