import Verif.Spec.IslLib

/-! What the schedules and remappings given back by the library mean. -/

namespace Pluto

/-- No two instances of the same statement have a common time. -/
def DistinctTimes (doms : List IslDom) (scheds : List BMap) : Prop :=
  ∀ i x y t q, Instance doms i x q → Instance doms i y q → ∀ m, scheds[i]? = some m → m.Has x t q → m.Has y t q → x = y

/-- The remapping `r` of a statement whose iterators come after `k` tile iterators computes the iterators back:
row `k + j` applied to the time and the parameters is the `j`-th iterator times the divisor, which is
positive. -/
def Recovers (r : Mat × List Int) (k : Nat) (x t q : List Int) : Prop :=
  ∀ j < x.length, 0 < r.2.getD (k + j) 0 ∧
    r.2.getD (k + j) 0 * x.getD j 0 = dot (r.1.rows.getD (k + j) []) (t ++ q ++ [1])

end Pluto
