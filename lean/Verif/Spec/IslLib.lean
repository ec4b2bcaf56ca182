import Verif.Spec.IslConv
import Verif.Spec.Tile
import Verif.Model.IslLib

/-! Inputs of the library interface, and what a result that is a legal schedule means. -/

namespace Pluto

/-- The domains are named `S_0`, ..., `S_<n-1>` in some order and have `npar` parameters. -/
structure DomsOK (npar : Nat) (doms : List IslDom) : Prop where
  ids : (doms.map (·.id)).Perm (List.range doms.length)
  sets : ∀ d ∈ doms, d.set.WF ∧ d.set.nin = 0 ∧ d.set.npar = npar

/-- The dependences relate instances of the domains. -/
def DepsOK (npar : Nat) (doms : List IslDom) (deps : List IslDep) : Prop :=
  ∀ d ∈ deps, d.rel.WF ∧ d.rel.npar = npar ∧ ∃ a ∈ doms, ∃ b ∈ doms, a.id = d.src ∧ b.id = d.dest ∧
    d.rel.nin = a.set.nout ∧ d.rel.nout = b.set.nout

/-- `x` is an instance of statement `i` for the parameters `q`. -/
def Instance (doms : List IslDom) (i : Nat) (x q : List Int) : Prop := ∃ d ∈ doms, d.id = i ∧ d.set.Has [] x q

/-- The schedules (one relation per statement) give every instance exactly one time. -/
def OneTime (doms : List IslDom) (scheds : List BMap) : Prop :=
  ∀ i x q, Instance doms i x q → ∃ m, scheds[i]? = some m ∧ ∃! t, m.Has x t q

/-- The schedules run dependent instances in order: all times of the first come before all times of the
second. -/
def RespectsDeps (doms : List IslDom) (deps : List IslDep) (scheds : List BMap) : Prop :=
  ∀ d ∈ deps, ∀ s t q, Instance doms d.src s q → Instance doms d.dest t q → d.rel.Has s t q →
    ∀ m m' u v, scheds[d.src]? = some m → scheds[d.dest]? = some m' → m.Has s u q → m'.Has t v q → LexBefore u v

/-- All entries of domains and schedules are in the range of an `int` (the most negative one excluded). -/
def SmallEntries (p : Prog) : Prop :=
  ∀ st ∈ p.stmts, (∀ r ∈ st.domain.rows, ∀ v ∈ r.val, -(2 ^ 31) < v ∧ v < 2 ^ 31) ∧ ∀ r ∈ st.trans, ∀ v ∈ r, -(2 ^ 31) < v ∧ v < 2 ^ 31

end Pluto
