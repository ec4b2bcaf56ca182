import Verif.Model.Osl
import Verif.Spec.Flow
import Verif.Spec.Semantics
import Verif.Spec.Codegen

/-! Relations of OpenScop; instances, accesses and order of the statements of a scop. -/

namespace Pluto

/-- The relation that an OpenScop relation stands for: `x` (output) and `y` (input) are related under the parameters
`q` if some values of the local dimensions satisfy all rows. -/
def OslRel.Has (r : OslRel) (x y q : List Int) : Prop :=
  x.length = r.nout ∧ y.length = r.nin ∧ q.length = r.npar ∧
  ∃ z : List Int, z.length = r.nloc ∧ ∀ w ∈ r.rows, if w.headD 0 = 0 then aff (w.drop 1) (x ++ y ++ z ++ q) = 0 else 0 ≤ aff (w.drop 1) (x ++ y ++ z ++ q)

/-- All rows have a column per dimension and two more, and no local dimensions; entries fit `int`. -/
structure OslRel.WF (r : OslRel) : Prop where
  noLocal : r.nloc = 0
  rows : ∀ w ∈ r.rows, w.length = r.nout + r.nin + r.npar + 2
  small : ∀ w ∈ r.rows, ∀ v ∈ w, -(2 ^ 31) ≤ v ∧ v < 2 ^ 31

/-- The relation has the usual form for functions, equalities [-I | F] with a row for every output dimension, in any
order. -/
structure OslRel.IsFun (r : OslRel) (f : List (List Int)) : Prop where
  out : r.nout = f.length
  cols : ∀ g ∈ f, g.length = r.nin + r.npar + 1
  rows : r.rows.Perm (f.mapIdx (fun i g => 0 :: ((List.replicate f.length 0).set i (-1) ++ g)))

/-- The relation is the access to array number `id` with the subscripts `f`: the first output dimension is the number
of the array. -/
def OslRel.IsAcc (r : OslRel) (id : Nat) (f : List (List Int)) : Prop :=
  1 ≤ id ∧ r.IsFun ((List.replicate (r.nin + r.npar) 0 ++ [(id : Int)]) :: f)

/-- `p` is an instance (statement and iteration vector) for the parameters `q`. -/
def OslRuns (sc : OslScop) (q : List Int) (p : Pt) : Prop :=
  sc.context.Has [] [] q ∧ ∃ s, sc.stmts[p.1]? = some s ∧ ∃ d ∈ s.domain, d.Has p.2 [] q

/-- The instance `p` reads the element `e` (number of the array and subscripts). -/
def OslReadsElem (sc : OslScop) (q : List Int) (p e : Pt) : Prop :=
  OslRuns sc q p ∧ ∃ s, sc.stmts[p.1]? = some s ∧ ∃ a ∈ s.accs, a.1 = .read ∧ a.2.Has ((e.1 : Int) :: e.2) p.2 q

/-- The instance `p` may write the element `e`. -/
def OslWritesElem (sc : OslScop) (q : List Int) (p e : Pt) : Prop :=
  OslRuns sc q p ∧ ∃ s, sc.stmts[p.1]? = some s ∧ ∃ a ∈ s.accs, (a.1 = .write ∨ a.1 = .mayWrite) ∧ a.2.Has ((e.1 : Int) :: e.2) p.2 q

/-- `a` runs before `b` in the source program. -/
def OslBefore (sc : OslScop) (q : List Int) (a b : Pt) : Prop :=
  ∃ s t u v, sc.stmts[a.1]? = some s ∧ sc.stmts[b.1]? = some t ∧ s.scat.Has u a.2 q ∧ t.scat.Has v b.2 q ∧ LexBefore u v

/-- One of them writes what the other reads or writes. -/
def OslConflict (sc : OslScop) (q : List Int) (a b : Pt) : Prop :=
  ∃ e, OslWritesElem sc q a e ∧ (OslReadsElem sc q b e ∨ OslWritesElem sc q b e) ∨ OslReadsElem sc q a e ∧ OslWritesElem sc q b e

/-- `b` depends on `a` through a chain of dependences of the program between instances. -/
def OslChain (sc : OslScop) (p : Prog) (q : List Int) : Pt → Pt → Prop :=
  Relation.TransGen (fun a b => OslRuns sc q a ∧ OslRuns sc q b ∧ ∃ d ∈ p.deps, d.rar = false ∧ d.src = a.1 ∧ d.dest = b.1 ∧ p.Inst d a.2 b.2 q)

/-- A statement as clan makes it: one relation for the domain, a scattering and accesses that are functions. -/
structure OslStmt.OK (npar : Nat) (s : OslStmt) : Prop where
  domain : ∃ d, s.domain = [d] ∧ d.WF ∧ d.nin = 0 ∧ d.npar = npar ∧ s.scat.nin = d.nout ∧ ∀ a ∈ s.accs, a.2.nin = d.nout
  scat : s.scat.WF ∧ s.scat.npar = npar ∧ ∃ f, s.scat.IsFun f
  accs : ∀ a ∈ s.accs, a.2.WF ∧ a.2.npar = npar ∧ ∃ id f, a.2.IsAcc id f

/-- A scop as clan makes it. -/
structure OslScop.OK (sc : OslScop) : Prop where
  context : sc.context.WF ∧ sc.context.nout = 0 ∧ sc.context.nin = 0
  stmts : ∀ s ∈ sc.stmts, s.OK sc.context.npar

/-- Accesses to the same array have the same number of subscripts. -/
def OslScop.SameDims (sc : OslScop) : Prop :=
  ∀ s ∈ sc.stmts, ∀ t ∈ sc.stmts, ∀ a ∈ s.accs, ∀ b ∈ t.accs, ∀ id f g, a.2.IsAcc id f → b.2.IsAcc id g → f.length = g.length

/-- The maps of a result of flow analysis are between named accesses of the kinds `k` (write or not, of source and
target), with the dimensions of their statements. -/
def OslNamedOK (accs : Bool) (sc : OslScop) (k : Bool → Bool → Bool) (l : List IslDep) : Prop :=
  ∀ d ∈ l, d.rel.WF ∧ d.rel.npar = sc.context.npar ∧ ∃ (i j : Nat) (wi wj : Bool) (ki kj : Nat) (s t : OslStmt), d.src = oslCode accs i wi ki ∧
    d.dest = oslCode accs j wj kj ∧ sc.stmts[i]? = some s ∧ sc.stmts[j]? = some t ∧ d.rel.nin = s.niter ∧ d.rel.nout = t.niter ∧
    ki < (if wi then s.writes else s.reads).length ∧ kj < (if wj then t.writes else t.reads).length ∧ k wi wj = true

/-- The same for the four results. -/
def OslFlowNamesOK (accs : Bool) (sc : OslScop) (d : IslDeps) : Prop :=
  OslNamedOK accs sc (fun w v => w && !v) d.raw ∧ OslNamedOK accs sc (fun _ v => v) d.war ∧ OslNamedOK accs sc (fun w v => w && v) d.waw ∧
  OslNamedOK accs sc (fun w v => !w && !v) (d.rar.getD [])

/-- What is used of isl for the maps made from the scop: the dependences are right, and between named accesses. -/
def OslFlowOK (fo : FlowOps) (o : FlowOpts) (accs : Bool) (sc : OslScop) : Prop :=
  ∀ isl, sc.stmts.mapM (oslIslStmt (oslSet sc.context)) = some isl → fo.OK (oslReads accs isl) (oslWrites accs isl) (oslTimes accs isl) ∧
    ∀ d, computeDeps fo o true (oslReads accs isl) (oslWrites accs isl) (oslTimes accs isl) = some d → OslFlowNamesOK accs sc d

/-- The dependences found by isl have no existentially quantified variables. -/
def OslNoDivs (fo : FlowOps) (o : FlowOpts) (accs : Bool) (sc : OslScop) : Prop :=
  ∀ isl, sc.stmts.mapM (oslIslStmt (oslSet sc.context)) = some isl →
    ∀ d, computeDeps fo o true (oslReads accs isl) (oslWrites accs isl) (oslTimes accs isl) = some d → ∀ m ∈ d.raw ++ d.war ++ d.waw ++ d.rar.getD [], m.rel.ndiv = 0

end Pluto
