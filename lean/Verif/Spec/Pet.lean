import Verif.Model.Pet
import Verif.Spec.Flow
import Verif.Spec.Semantics
import Verif.Spec.Codegen

/-! Instances, accesses and program order of the statements that pet extracts. -/

namespace Pluto

/-- `p` is an instance (statement and iteration vector) for the parameters `q`. -/
def PetRuns (ps : List PetStmt) (q : List Int) (p : Pt) : Prop := ∃ s, ps[p.1]? = some s ∧ s.domain.Has [] p.2 q

/-- The instance `p` may read the element `e`. -/
def PetReadsElem (ps : List PetStmt) (q : List Int) (p e : Pt) : Prop :=
  ∃ s, ps[p.1]? = some s ∧ ∃ a ∈ s.reads, a.arr = e.1 ∧ ∃ b ∈ a.parts, b.Has p.2 e.2 q

/-- The instance `p` may write the element `e`. -/
def PetWritesElem (ps : List PetStmt) (q : List Int) (p e : Pt) : Prop :=
  ∃ s, ps[p.1]? = some s ∧ ∃ a ∈ s.writes, a.arr = e.1 ∧ ∃ b ∈ a.parts, b.Has p.2 e.2 q

/-- `a` runs before `b` in the source program. -/
def PetBefore (ps : List PetStmt) (q : List Int) (a b : Pt) : Prop :=
  ∃ s t u v, ps[a.1]? = some s ∧ ps[b.1]? = some t ∧ s.sched.Has a.2 u q ∧ t.sched.Has b.2 v q ∧ LexBefore u v

/-- One of them writes what the other reads or writes. -/
def PetConflict (ps : List PetStmt) (q : List Int) (a b : Pt) : Prop :=
  ∃ e, PetWritesElem ps q a e ∧ (PetReadsElem ps q b e ∨ PetWritesElem ps q b e) ∨ PetReadsElem ps q a e ∧ PetWritesElem ps q b e

/-- What pet guarantees: statements have `npar` parameters, instances have one time each, and only instances have
times and accesses. -/
structure PetOK (npar : Nat) (ps : List PetStmt) : Prop where
  domain : ∀ s ∈ ps, s.domain.WF ∧ s.domain.nin = 0 ∧ s.domain.npar = npar
  sched : ∀ s ∈ ps, ∀ x q t, s.sched.Has x t q → s.domain.Has [] x q ∧ ∀ u, s.sched.Has x u q → u = t
  timed : ∀ s ∈ ps, ∀ x q, s.domain.Has [] x q → ∃ t, s.sched.Has x t q
  accs : ∀ s ∈ ps, ∀ a ∈ s.reads ++ s.writes, ∀ b ∈ a.parts, ∀ x e q, b.Has x e q → s.domain.Has [] x q

/-- The maps of a result of flow analysis are between named accesses of the kinds `k` (write or not, of source and
target), with the dimensions of their statements. -/
def NamedDepsOK (npar : Nat) (ps : List PetStmt) (k : Bool → Bool → Bool) (l : List IslDep) : Prop :=
  ∀ d ∈ l, d.rel.WF ∧ d.rel.npar = npar ∧ ∃ (i j : Nat) (wi wj : Bool) (ki kj : Nat) (s t : PetStmt), d.src = accCode i wi ki ∧ d.dest = accCode j wj kj ∧
    ps[i]? = some s ∧ ps[j]? = some t ∧ d.rel.nin = s.domain.nout ∧ d.rel.nout = t.domain.nout ∧
    ki < (if wi then s.writes else s.reads).length ∧ kj < (if wj then t.writes else t.reads).length ∧ k wi wj = true

/-- The same for the three results that are used: from writes to reads, from reads or writes to writes (they are
sorted out later), and from writes to writes. -/
def FlowNamesOK (npar : Nat) (ps : List PetStmt) (d : IslDeps) : Prop :=
  NamedDepsOK npar ps (fun w v => w && !v) d.raw ∧ NamedDepsOK npar ps (fun _ v => v) d.war ∧ NamedDepsOK npar ps (fun w v => w && v) d.waw

/-- The type of a dependence between accesses (write or not). -/
def kindType : Bool → Bool → DepType
  | true, false => .raw
  | false, true => .war
  | true, true => .waw
  | false, false => .rar

/-- `b` depends on `a` through a chain of dependences of the program between instances. -/
def PetChain (ps : List PetStmt) (p : Prog) (q : List Int) : Pt → Pt → Prop :=
  Relation.TransGen (fun a b => PetRuns ps q a ∧ PetRuns ps q b ∧ ∃ d ∈ p.deps, d.rar = false ∧ d.src = a.1 ∧ d.dest = b.1 ∧ p.Inst d a.2 b.2 q)

end Pluto
