import Verif.Model.ProgEdit
import Verif.Spec.Tile

/-! Vocabulary for whole-program edits. -/

namespace Pluto

/-- A full program whose parts have matching columns. -/
structure FullProg.OK (P : FullProg) : Prop where
  prog : P.prog.OK
  accs : P.accs.length = P.prog.stmts.length
  mats : ∀ (i : Nat) (st : Stmt) (ms : List Mat), P.prog.stmts[i]? = some st → P.accs[i]? = some ms →
    ∀ m ∈ ms, m.WF ∧ m.ncols = st.dim + P.prog.npar + 1
  pwf : P.paramCtx.WF
  pcols : P.paramCtx.ncols = P.prog.npar + 1
  cwf : P.codegenCtx.WF
  ccols : P.codegenCtx.ncols = P.prog.npar + 1
  params : P.params.length = P.prog.npar

/-- The constant that statement `i` gets at the new level: `offset + 1 + k` if it is the `k`-th of the given
statements, 0 if it is not given. -/
def sepNumber (is : List Nat) (offset : Int) (i : Nat) : Int := if i ∈ is then offset + 1 + is.idxOf i else 0

end Pluto
