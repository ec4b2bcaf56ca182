import Verif.Spec.IslAff
import Verif.Model.IslLibAccs

/-! Specification for the accesses extracted by the library interface (C60). -/

namespace Pluto

/-- The name of statement `i` in the library interface: `S_<i>`. -/
def stmtTupleName (i : Nat) : List Char := 'S' :: '_' :: (Nat.repr i).toList

/-- The union map says that iteration `x` of statement `i` accesses element `y` of array `arr`. -/
def MayAccess (l : List NamedAcc) (i : Nat) (arr : Nat) (x y q : List Int) : Prop :=
  ∃ a ∈ l, a.name = stmtTupleName i ∧ a.acc.arr = arr ∧ ∃ b ∈ a.acc.parts, b.Has x y q

/-- The element of array `arr` is given by one of the access matrices. -/
def Recorded (accs : List (Nat × List (List Int))) (arr : Nat) (x y q : List Int) : Prop :=
  ∃ rows, (arr, rows) ∈ accs ∧ rows.map (fun r => dot r (x ++ q ++ [1])) = y

/-- Every access matrix gives the elements of one of the relations of statement `i`. -/
def FromUnion (l : List NamedAcc) (i : Nat) (accs : List (Nat × List (List Int))) : Prop :=
  ∀ z ∈ accs, ∃ a ∈ l, a.name = stmtTupleName i ∧ a.acc.arr = z.1 ∧ ∃ b ∈ a.acc.parts, ∀ x y q, b.Has x y q →
    z.2.map (fun r => dot r (x ++ q ++ [1])) = y

/-- Union maps over statements of the program, named `S_<i>`, whose subscripts are affine with integer coefficients. -/
def AccsOK (P : PwOps) (npar : Nat) (stmts : List Stmt) (l : List NamedAcc) : Prop :=
  ∀ a ∈ l, ∃ i st, stmts[i]? = some st ∧ a.name = stmtTupleName i ∧ ∀ b ∈ a.acc.parts, b.nin = st.dim ∧ b.npar = npar ∧
    P.OKFor b ∧ (∀ k < b.nout, P.AffineDim b k) ∧ ∃ x y q, b.Has x y q

end Pluto
