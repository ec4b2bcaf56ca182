import Verif.Spec.Search

/-! Specification of the automatic transformation: well-formed inputs, timestamps, lexicographic order. -/

namespace Pluto

/-- Well-formed input of the automatic transformation: no statement is padded or has more than `nvar`
dimensions, domains and dependence polyhedra have the right columns. -/
structure Prog.InputOK (p : Prog) : Prop where
  stmts : ∀ st ∈ p.stmts, st.dim = st.dimOrig ∧ st.dim ≤ p.nvar ∧ st.isOrig = List.replicate st.dim true ∧
    st.domain.WF ∧ st.domain.ncols = st.dim + p.npar + 1
  deps : ∀ d ∈ p.deps, d.src < p.stmts.length ∧ d.dest < p.stmts.length ∧ p.DepFits d ∧
    d.bpoly.WF ∧ d.bpoly.ncols = p.dim d.src + p.dim d.dest + p.npar + 1

end Pluto

namespace Pluto

/-- Some component of the dependence distance is positive and no outer one is negative. -/
def Prog.LexPos (p : Prog) (d : Dep) (s t q : List Int) : Prop :=
  ∃ l < p.hProps.length, 1 ≤ p.comp d l s t q ∧ ∀ l' < l, 0 ≤ p.comp d l' s t q

/-- No component of the dependence distance is negative. -/
def Prog.AllNonneg (p : Prog) (d : Dep) (s t q : List Int) : Prop :=
  ∀ l < p.hProps.length, 0 ≤ p.comp d l s t q

/-- Time stamp of the instance `x` of statement `i`: the values of all rows of its schedule. -/
def Prog.timestamp (p : Prog) (i : Nat) (x q : List Int) : List Int :=
  ((p.stmts[i]?.map (·.trans)).getD []).map (fun r => aff r (x ++ q))

/-- `a` comes strictly before `b` in lexicographic order: they agree up to some position where both
have an entry and that of `a` is smaller. -/
def LexBefore (a b : List Int) : Prop :=
  ∃ (l : Nat) (x y : Int), a[l]? = some x ∧ b[l]? = some y ∧ x < y ∧ ∀ l' < l, a[l']? = b[l']?

/-- `solve` returns only integer points of the system (any of them, or nothing). -/
def FeasibleOracle (solve : Cst → Option (List Int)) : Prop :=
  ∀ c : Cst, c.WF → ∀ x, solve c = some x → x.length + 1 = c.ncols ∧ c.Sat x

end Pluto

namespace Pluto

/-- `p'` has the statements and dependences of `p`; only schedules, hyperplane types and satisfaction
data may differ. -/
structure SameShape (p p' : Prog) : Prop where
  nvar : p'.nvar = p.nvar
  npar : p'.npar = p.npar
  stmts : List.Forall₂ (fun a b : Stmt => b = { a with trans := b.trans, hypTypes := b.hypTypes }) p.stmts p'.stmts
  deps : List.Forall₂ (fun a b : Dep =>
    b = ⟨a.src, a.dest, a.rar, a.dpoly, a.bpoly, b.satisfied, b.satLevel, b.satvec, b.dirvec⟩) p.deps p'.deps

/-- `st'` is the statement `st` up to its schedule: same dimensions, same loops, and a domain with the
same points. -/
def StmtRestored (npar : Nat) (st st' : Stmt) : Prop :=
  st'.dim = st.dim ∧ st'.dimOrig = st.dimOrig ∧ st'.isOrig = st.isOrig ∧
  ∀ x q : List Int, x.length = st.dim → q.length = npar → (st'.domain.Sat (x ++ q) ↔ st.domain.Sat (x ++ q))

/-- `d'` is the dependence `d` up to satisfaction data and bounding polyhedron. -/
def DepRestored (d d' : Dep) : Prop :=
  d'.src = d.src ∧ d'.dest = d.dest ∧ d'.rar = d.rar ∧ d'.dpoly = d.dpoly

/-- No diamond tiling (`--nodiamond-tile`). -/
def noDiamond (_ : Nat) (p : Prog) : Option (Prog × Bool) := some (p, false)

end Pluto
