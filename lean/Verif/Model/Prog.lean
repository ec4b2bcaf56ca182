import Verif.Model.Constraints

/-!
Model of the data structures of lib/pluto.h (only the fields used by the modelled functions).
-/

namespace Pluto

/-- `DepDir`, lib/pluto.h:79-85. -/
inductive Dir | minus | zero | plus | star
deriving DecidableEq, Repr

/-- `PlutoHypType`, lib/pluto.h:87-93. -/
inductive HypType | unknown | loop | tileSpaceLoop | scalar
deriving DecidableEq, Repr

/-- `struct statement`, lib/pluto.h:131-211. `trans` rows have `dim + npar + 1` entries. -/
structure Stmt where
  dim : Nat
  dimOrig : Nat
  domain : Cst
  isOrig : List Bool
  trans : List (List Int)
  hypTypes : List HypType
deriving DecidableEq, Repr

/-- `struct dependence`, lib/pluto.h:228-295. `dpoly` ranges over
[source iterators | target iterators | parameters | 1]. `satLevel` is -1 when unsatisfied. -/
structure Dep where
  src : Nat
  dest : Nat
  rar : Bool
  dpoly : Cst
  bpoly : Cst
  satisfied : Bool
  satLevel : Int
  satvec : List Bool
  dirvec : List Dir
deriving DecidableEq, Repr

/-- `struct plutoProg`, lib/pluto.h:329-422; `num_hyperplanes` is the length of `hProps`. -/
structure Prog where
  nvar : Nat
  npar : Nat
  stmts : List Stmt
  deps : List Dep
  hProps : List HypType
deriving DecidableEq, Repr

end Pluto
