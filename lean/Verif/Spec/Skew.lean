import Verif.Model.Prog
/-! Specification of the rows that skewing may choose. -/
namespace Pluto

/-- What `get_skewing_constraints` asks of the new coefficients `v` of the loops of a statement with old row `row`: nothing but
non-negativity if the statement is in component `k` but has no loop to be skewed; else the old value, except that in
component `k` the loops that satisfy the offending dependences are added at least once. -/
def SkewCoeffs (inComp : Prop) [Decidable inComp] (src skew : List Bool) (st : Stmt) (row : List Int) (v : Nat → Int) : Prop :=
  (inComp ∧ (∀ n < st.dimOrig, skew.getD n false = false) ∧ ∀ j < st.dimOrig, 0 ≤ v j) ∨
  (¬ (inComp ∧ ∀ n < st.dimOrig, skew.getD n false = false) ∧
    ∀ j < st.dimOrig, if src.getD j false = true ∧ inComp then 1 ≤ v j else v j = coef row j)

end Pluto
