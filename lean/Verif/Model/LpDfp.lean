import Verif.Model.LpScale
import Verif.Model.Dfp

/-! The search with `--dfp` and GLPK. -/

namespace Pluto

/-- `pluto_prog_constraints_lexmin` with GLPK, lib/pluto.c:275-431, as called by the search. What the search for
components of the graph leaves in memory is not kept. -/
def lexGlpk (o : GlpkOpts) (G : GlpkLibs) : Lex := fun a cst => progLexminGlpk o G a.g a.d a.p cst

end Pluto
