import Verif.Spec.Prog
import Verif.Spec.Rank

/-! Specification of the hyperplane search: exact lexicographic solver, documented search order,
statement shapes. Nothing here depends on how the code manipulates columns. -/

namespace Pluto

/-- Lexicographic order on integer lists of the same length. -/
def LexLe : List Int → List Int → Prop
  | a :: as, b :: bs => a < b ∨ (a = b ∧ LexLe as bs)
  | _, _ => True

/-- All entries are non-negative. -/
def NonNeg (v : List Int) : Prop := ∀ a ∈ v, 0 ≤ a

/-- `solve` returns the lexicographically smallest non-negative integer point of every system, and
nothing exactly when there is none. -/
def LexminOracle (solve : Cst → Option (List Int)) : Prop :=
  ∀ c : Cst, c.WF →
    (∀ x, solve c = some x → x.length + 1 = c.ncols ∧ NonNeg x ∧ c.Sat x ∧
      ∀ y : List Int, y.length + 1 = c.ncols → NonNeg y → c.Sat y → LexLe x y) ∧
    (solve c = none → ¬ ∃ y : List Int, y.length + 1 = c.ncols ∧ NonNeg y ∧ c.Sat y)

/-- Inside the search (after `normalize_domains`) every statement says for each of the `nvar`
dimensions whether it is one of its `dim_orig` original loops. -/
def Prog.OrigOK (p : Prog) : Prop :=
  ∀ st ∈ p.stmts, st.isOrig.length = p.nvar ∧ st.isOrig.countP id = st.dimOrig

/-- Coefficients of the original loops of a statement whose columns start at `off`. -/
def loopCoeffs (nvar off : Nat) (st : Stmt) (sol : List Int) : List Int :=
  (List.range nvar).filterMap (fun k =>
    if st.isOrig.getD k false then some (sol.getD (off + k) 0) else none)

/-- The documented search order: first the bound coefficients, then statement by statement the
coefficients of the original loops, innermost first (outermost first with `dfp`), and the
translation. -/
def searchOrder (dfp : Bool) (p : Prog) (sol : List Int) : List Int :=
  sol.take (p.npar + 1) ++
    (p.stmts.mapIdx (fun i st =>
      let off := p.npar + 1 + i * (p.nvar + 1)
      let c := loopCoeffs p.nvar off st sol
      (if dfp then c else c.reverse) ++ [sol.getD (off + p.nvar) 0])).flatten

/-- Candidates of the search: right length, zero in the padding columns, non-negative, in the system. -/
def Candidate (p : Prog) (cst : Cst) (z : List Int) : Prop :=
  SolLen p z ∧ PadZero p z ∧ NonNeg z ∧ cst.Sat z

/-- `kernel n rows` computes (as a list of columns) a generating set of the right null space over ℚ of
the matrix with rows `rows` and `n` columns. -/
def KernelOracle (kernel : Nat → List (List Int) → List (List Int)) : Prop :=
  ∀ (n : Nat) (rows : List (List Int)), (∀ r ∈ rows, r.length = n) →
    (∀ v ∈ kernel n rows, v.length = n ∧ ∀ r ∈ rows, dot r v = 0) ∧
    ∀ w : Fin n → ℚ, (∀ r ∈ rows, ∑ j, qvec n r j * w j = 0) →
      w ∈ Submodule.span ℚ {u | ∃ v ∈ kernel n rows, u = qvec n v}

/-- State of the program during the search: all statements have `nvar` dimensions, the original loops
come first, the rest is padding; schedule rows have the matching length and hyperplane types are
known for them. -/
def Prog.Padded (p : Prog) : Prop :=
  ∀ st ∈ p.stmts, st.dimOrig ≤ p.nvar ∧ st.dim = p.nvar ∧
    st.isOrig = List.replicate st.dimOrig true ++ List.replicate (p.nvar - st.dimOrig) false ∧
    (∀ r ∈ st.trans, r.length = p.nvar + p.npar + 1) ∧ st.trans.length = p.hProps.length

/-- Span over ℚ of the loop hyperplanes (levels not marked scalar) a statement already has, as
vectors of coefficients of its original loops. -/
def loopSpan (p : Prog) (st : Stmt) : Submodule ℚ (Fin st.dimOrig → ℚ) :=
  Submodule.span ℚ {u | ∃ (l : Nat) (r : List Int) (t : HypType), st.trans[l]? = some r ∧ p.hProps[l]? = some t ∧ t ≠ HypType.scalar ∧
    u = qvec st.dimOrig (r.take st.dimOrig)}

/-- The statement still needs loops: its schedule rows do not have full rank on its original loops. -/
def NeedsLoops (st : Stmt) : Prop :=
  rowRank st.dimOrig (st.trans.map (·.take st.dimOrig)) < st.dimOrig

/-- Coefficients of the original loops of statement `i` in a coefficient vector. -/
def stmtCoeffs (p : Prog) (i : Nat) (st : Stmt) (sol : List Int) : List Int :=
  (sol.drop (p.npar + 1 + i * (p.nvar + 1))).take st.dimOrig

/-- Every coefficient of a transformation (not of the bounding function) is at most `b`. -/
def CoeffsLe (p : Prog) (sol : List Int) (b : Int) : Prop :=
  ∀ i < sol.length, p.npar + 1 ≤ i → sol.getD i 0 ≤ b

/-- Constants of the domain inequalities. -/
def domainConsts (p : Prog) : List Int :=
  p.stmts.flatMap (fun st => st.domain.rows.map (fun r => coef r.val (st.domain.ncols - 1)))

end Pluto
