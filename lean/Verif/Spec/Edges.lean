import Verif.Model.Auto
import Verif.Spec.Graph

/-! Where the edges of the dependence graph come from. -/

namespace Pluto

/-- Every edge of the graph comes from a dependence of the program. -/
def EdgesOf (p : Prog) (g : Graph) : Prop := ∀ i j, g.Edge i j → ∃ d ∈ p.deps, d.src = i ∧ d.dest = j

end Pluto
