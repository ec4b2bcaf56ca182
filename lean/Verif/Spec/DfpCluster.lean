import Verif.Spec.Dfp
import Verif.Model.DfpCluster
/-! Specification of the search with `--dfp --clusterscc`. -/
namespace Pluto

/-- What is assumed about `build_fusion_conflict_graph` in the clustered approach: a vertex per loop of each component, and
edges between different loops of a component (`fcg_add_intra_scc_edges`, lib/framework-dfp.c:968-983). Which other edges
there are is left open here; for the graph of the code see C76. -/
def ClFcgOracle (fcgOf : ClBuild) : Prop :=
  ∀ a colour c hp sc, (fcgOf a colour c hp sc).g.n = a.clSize ∧
    ∀ s < a.num, ∀ j < a.width s, ∀ j' < a.width s, j ≠ j' →
      (fcgOf a colour c hp sc).g.adj (a.sccOffset s + j) (a.sccOffset s + j') = 1

end Pluto
