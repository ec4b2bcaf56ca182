import Verif.Spec.Auto

/-! Schedules that give different times to different iterations. -/

namespace Pluto

/-- Different iterations of the same statement (integer vectors of iterators, in its domain or not) have
different times, for any parameters. -/
def Prog.OneToOne (p : Prog) : Prop :=
  ∀ i < p.stmts.length, ∀ x y q : List Int, x.length = p.dim i → y.length = p.dim i → q.length = p.npar →
    p.timestamp i x q = p.timestamp i y q → x = y

/-- The rows of all schedules have a coefficient for each iterator and parameter, and a constant. -/
def Prog.RowsFit (p : Prog) : Prop :=
  ∀ st ∈ p.stmts, ∀ r ∈ st.trans, r.length = st.dim + p.npar + 1

end Pluto
