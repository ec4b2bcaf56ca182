import Verif.Spec.Prog

/-! Specification of index set splitting. -/

namespace Pluto

/-- Exactly one element of the list (one position) satisfies `P`. -/
def ExactlyOne {α : Type*} (l : List α) (P : α → Prop) : Prop :=
  ∃ a b c, l = a ++ b :: c ∧ P b ∧ (∀ x ∈ a, ¬ P x) ∧ ∀ x ∈ c, ¬ P x

/-- The cuts partition the space: they have `n` columns and every point lies in exactly one. -/
def CutsPartition (n : Nat) (cuts : List Cst) : Prop :=
  (∀ c ∈ cuts, c.WF ∧ c.ncols = n) ∧
    ∀ y : List Int, y.length + 1 = n → ExactlyOne cuts (fun c => c.Sat y)

/-- `(x, q)` is an iteration of statement `i`. -/
def Prog.Iter (p : Prog) (i : Nat) (x q : List Int) : Prop :=
  ∃ st, p.stmts[i]? = some st ∧ x.length = st.dim ∧ q.length = p.npar ∧ st.domain.Sat (x ++ q)

/-- `p'` is `p` with every statement split; `orig j` is the statement that piece `j` comes from. -/
structure SplitOf (p p' : Prog) (orig : Nat → Nat) : Prop where
  npar : p'.npar = p.npar
  /-- pieces come from statements and keep dimension and schedule (up to zero rows behind it) -/
  pieces : ∀ j < p'.stmts.length, orig j < p.stmts.length ∧ p'.dim j = p.dim (orig j) ∧
    ∀ (l : Nat) (x q : List Int), p'.phi j l x q = p.phi (orig j) l x q
  /-- a piece has only iterations of its statement -/
  sound : ∀ (j : Nat) (x q : List Int), p'.Iter j x q → p.Iter (orig j) x q
  /-- every iteration is in exactly one piece -/
  once : ∀ (i : Nat) (x q : List Int), p.Iter i x q →
    ExactlyOne (List.range p'.stmts.length) (fun j => orig j = i ∧ p'.Iter j x q)
  /-- the new dependences fall into one group per old dependence -/
  deps : ∃ parts : List (List Dep), p'.deps = parts.flatten ∧ parts.length = p.deps.length ∧
    ∀ (k : Nat) (d : Dep) (part : List Dep), p.deps[k]? = some d → parts[k]? = some part →
      (∀ nd ∈ part, nd.src < p'.stmts.length ∧ nd.dest < p'.stmts.length ∧ p'.DepFits nd ∧
        orig nd.src = d.src ∧ orig nd.dest = d.dest ∧ nd.rar = d.rar ∧
        ∀ s t q : List Int, p'.Inst nd s t q → p.Inst d s t q ∧
          (p.Iter d.src s q → p'.Iter nd.src s q) ∧ (p.Iter d.dest t q → p'.Iter nd.dest t q)) ∧
      ∀ s t q : List Int, p.Inst d s t q → ExactlyOne part (fun nd => p'.Inst nd s t q)

/-- The hyperplane with coefficients `v` passes near the mid-points of all pairs `(s, t)` of the
polyhedra: with `g(x) = v.(x, q, 1)`, twice the value at the mid-point, `g(s) + g(t)`, is at most `m <= 5`
in absolute value. The iterator coefficients are non-negative and not all zero; the parameter coefficients
and the constant are not positive. -/
structure NearMid (ndim npar : Nat) (doms : List Cst) (v : List Int) (m : Int) : Prop where
  len : v.length = ndim + npar + 1
  iters : ∀ a ∈ v.take ndim, 0 ≤ a
  params : ∀ a ∈ v.drop ndim, a ≤ 0
  nonzero : 1 ≤ (v.take ndim).sum
  bound : 0 ≤ m ∧ m ≤ 5
  near : ∀ dom ∈ doms, ∀ s t q : List Rat, s.length = ndim → t.length = ndim → q.length = npar →
    dom.Sat (s ++ t ++ q) → |aff v (s ++ q) + aff v (t ++ q)| ≤ (m : Rat)

end Pluto
