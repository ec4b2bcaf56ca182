import Verif.Model.Ddg
import Mathlib.Logic.Relation

/-! Graph notions used in the statements about the data dependence graph. -/

namespace Pluto

/-- An edge between two vertices of the graph. -/
def Graph.Edge (g : Graph) (i j : Nat) : Prop := i < g.n ∧ j < g.n ∧ g.adj i j ≠ 0

/-- A (possibly empty) path. -/
def Graph.Reach (g : Graph) : Nat → Nat → Prop := Relation.ReflTransGen g.Edge

/-- A path with at least one edge. -/
def Graph.Path (g : Graph) : Nat → Nat → Prop := Relation.TransGen g.Edge

/-- Connected when edge directions are ignored. -/
def Graph.Connected (g : Graph) : Nat → Nat → Prop :=
  Relation.ReflTransGen (fun i j => g.Edge i j ∨ g.Edge j i)

end Pluto
