import Verif.Model.Flow
import Verif.Spec.IslLib
import Mathlib.Data.Set.Finite.Basic
import Mathlib.Logic.Relation

/-! Accesses, times and dependences as relations on statement instances; what flow analysis means. -/

namespace Pluto

/-- A statement instance: number of the statement and iteration vector. -/
abbrev Pt := Nat × List Int

/-- The instance `p` accesses the element `e` (number of the array and index vector). -/
def Touches (l : List IslAcc) (q : List Int) (p e : Pt) : Prop := ∃ m ∈ l, m.stmt = p.1 ∧ m.arr = e.1 ∧ m.rel.Has p.2 e.2 q

/-- The instance `p` has the time `t`. -/
def AtTime (s : List IslTime) (q : List Int) (p : Pt) (t : List Int) : Prop := ∃ m ∈ s, m.stmt = p.1 ∧ m.rel.Has p.2 t q

/-- `a` runs before `b`. -/
def Earlier (s : List IslTime) (q : List Int) (a b : Pt) : Prop := ∃ t t', AtTime s q a t ∧ AtTime s q b t' ∧ LexBefore t t'

/-- `b` depends on `a`. -/
def Related (ds : List IslDep) (q : List Int) (a b : Pt) : Prop := ∃ d ∈ ds, d.src = a.1 ∧ d.dest = b.1 ∧ d.rel.Has a.2 b.2 q

/-- `a` runs before `b`, both access an element, the one as in `la`, the other as in `lb`. -/
def Conflict (la lb : List IslAcc) (s : List IslTime) (q : List Int) (a b : Pt) : Prop :=
  ∃ e, Touches la q a e ∧ Touches lb q b e ∧ Earlier s q a b

/-- As `Conflict`, and no instance in between writes the element. -/
def LastConflict (w la lb : List IslAcc) (s : List IslTime) (q : List Int) (a b : Pt) : Prop :=
  ∃ e, Touches la q a e ∧ Touches lb q b e ∧ Earlier s q a b ∧ ¬ ∃ c, Touches w q c e ∧ Earlier s q a c ∧ Earlier s q c b

/-- The answer of `isl_union_map_compute_flow`: the must and may dependences together are the pairs of a source
and a later sink that access the same element, with no must source of the element in between; no may
sources, no may dependences; no must sources, no must dependences. (Assumes that instances have
different times.) -/
def FlowRight (sink must may : List IslAcc) (s : List IslTime) (r : List IslDep × List IslDep) : Prop :=
  (∀ q a b, Related r.1 q a b ∨ Related r.2 q a b ↔ LastConflict must (must ++ may) sink s q a b) ∧
  (may = [] → ∀ q a b, ¬ Related r.2 q a b) ∧ (must = [] → ∀ q a b, ¬ Related r.1 q a b)

/-- What is used of isl for the given reads, writes and schedule. -/
structure FlowOps.OK (fo : FlowOps) (reads writes : List IslAcc) (s : List IslTime) : Prop where
  flow : ∀ sink must may, sink ∈ [reads, writes] → must ∈ [[], reads, writes] → may ∈ [[], reads, writes] →
    FlowRight sink must may s (fo.flow sink must may s)
  coalesce : ∀ ds q a b, Related (fo.coalesce ds) q a b ↔ Related ds q a b
  union : ∀ ds ds' q a b, Related (fo.union ds ds') q a b ↔ Related ds q a b ∨ Related ds' q a b

/-- What is used of `isl_union_map_domain` and `isl_union_map_intersect_domain`. -/
structure FlowOps.DomainOK (fo : FlowOps) (s : List IslTime) : Prop where
  domain : ∀ i x q, Instance (fo.domain s) i x q ↔ ∃ t, AtTime s q (i, x) t
  intersect : ∀ ms : List BMap, (fo.intersectDomain ms (fo.domain s)).length = ms.length ∧
    ∀ (i : Nat) (m m' : BMap), ms[i]? = some m → (fo.intersectDomain ms (fo.domain s))[i]? = some m' →
      ∀ x t q, m'.Has x t q ↔ m.Has x t q ∧ Instance (fo.domain s) i x q

/-- The schedules `ms` (one relation per statement) have times for exactly the instances that `s` has times
for, and exactly one for each. -/
def SameInstances (s : List IslTime) (ms : List BMap) : Prop :=
  ∀ i x q, ((∃ t, AtTime s q (i, x) t) ↔ ∃ m, ms[i]? = some m ∧ ∃ t, m.Has x t q) ∧
    ∀ m t t', ms[i]? = some m → m.Has x t q → m.Has x t' q → t = t'

/-- The schedules run conflicting instances in the order in which `s` runs them. -/
def KeepsOrder (reads writes : List IslAcc) (s : List IslTime) (ms : List BMap) : Prop :=
  ∀ q a b, Conflict writes reads s q a b ∨ Conflict reads writes s q a b ∨ Conflict writes writes s q a b →
    ∀ m m' u v, ms[a.1]? = some m → ms[b.1]? = some m' → m.Has a.2 u q → m'.Has b.2 v q → LexBefore u v

end Pluto
