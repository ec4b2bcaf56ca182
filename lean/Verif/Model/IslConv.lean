import Verif.Model.Words
import Verif.Model.CstList

/-!
Model of lib/constraints_isl.c: conversions between `PlutoConstraints` and isl sets and relations, and
the set operations that go through isl. isl objects are the systems isl keeps for them, with unbounded
entries; what isl itself computes is an argument (`IslOps`). Names and contexts are left out.
-/

namespace Pluto

/-- An `isl_basic_map`: equalities and inequalities over [in | out | div | param | 1], where the `div` are
existentially quantified. An `isl_basic_set` is one with `nin = 0`. An `isl_set` is a list of those. -/
structure BMap where
  nin : Nat
  nout : Nat
  ndiv : Nat
  npar : Nat
  eqs : List (List Int)
  ineqs : List (List Int)
deriving DecidableEq, Repr

/-- The functions of isl called in lib/constraints_isl.c, lib/plutolib.c and lib/program.cpp:
`isl_basic_map_remove_divs` (also for sets), `isl_set_union`, `isl_set_intersect`,
`isl_basic_set_project_out` on set dimensions (first dimension, number), and `isl_basic_map_project_out`
on the first input dimensions. -/
structure IslOps where
  removeDivs : BMap → BMap
  union : List BMap → List BMap → List BMap
  intersect : List BMap → List BMap → List BMap
  projectSet : BMap → Nat → Nat → BMap
  projectIn : BMap → Nat → BMap

/-- Entry read by `isl_val_get_num_ll`. -/
def getLl (z : Int) : Int := (islValGetNumLl z).toInt

/-- Entry (an `int64_t`) written with `mpz_set_sll` and `isl_val_from_gmp`. -/
def putSll (v : Int) : Int := mpzSetSll (BitVec.ofInt 64 v)

/-- Entry (an `int64_t`) written with `isl_mat_set_element_si`, whose argument is an `int`. -/
def putSi (v : Int) : Int := (BitVec.ofInt 32 v).toInt

/-- Equalities of a system with entries converted. -/
def eqRows (f : Int → Int) (c : Cst) : List (List Int) := (c.rows.filter (·.eq)).map (fun r => r.val.map f)

/-- Inequalities of a system with entries converted. -/
def ineqRows (f : Int → Int) (c : Cst) : List (List Int) := (c.rows.filter (fun r => !r.eq)).map (fun r => r.val.map f)

/-- `isl_basic_map_to_pluto_constraints_func_arg`, lib/constraints_isl.c:304-351, and
`isl_basic_map_to_pluto_constraints`, lib/constraints_isl.c:293-301: equalities first; columns in the
order in, out, div, param, cst. -/
def bmapToCst (b : BMap) : Cst :=
  ⟨b.nin + b.nout + b.ndiv + b.npar + 1,
    b.eqs.map (fun r => ⟨true, r.map getLl⟩) ++ b.ineqs.map (fun r => ⟨false, r.map getLl⟩)⟩

/-- `isl_basic_set_to_pluto_constraints`, lib/constraints_isl.c:242-290: as for relations, but existentially
quantified variables are removed first. -/
def bsetToCst (ops : IslOps) (b : BMap) : Cst := bmapToCst (ops.removeDivs b)

/-- `isl_basic_set_from_pluto_constraints`, lib/constraints_isl.c:80-128: parameters become set
dimensions. -/
def bsetFromCst (c : Cst) : BMap := ⟨0, c.ncols - 1, 0, 0, eqRows putSll c, ineqRows putSll c⟩

/-- `isl_set_from_pluto_constraints`, lib/constraints_isl.c:133-147. -/
def setFromCst (ops : IslOps) (l : List Cst) : List BMap := l.foldl (fun s c => ops.union s [bsetFromCst c]) []

/-- The columns of a row in the order in, out, param, cst, from the order out, in, param, cst. -/
def outInRow (nin nout : Nat) (r : List Int) : List Int :=
  (r.drop nout).take nin ++ r.take nout ++ r.drop (nout + nin)

/-- `isl_basic_map_from_pluto_constraints`, lib/constraints_isl.c:192-236: the columns of `c` are taken in the
order out, in, param, cst; `none`: failed assertion. -/
def bmapFromCst (c : Cst) (nin nout npar : Nat) : Option BMap :=
  if c.ncols ≠ nin + nout + npar + 1 then none
  else some ⟨nin, nout, 0, npar, (eqRows putSi c).map (outInRow nin nout), (ineqRows putSi c).map (outInRow nin nout)⟩

/-- `pluto_constraints_union_isl`, lib/constraints_isl.c:405-416. -/
def unionIsl (ops : IslOps) (l1 l2 : List Cst) : List Cst :=
  islSetToCst ((l1.head?.map (·.ncols)).getD 0) ((ops.union (setFromCst ops l1) (setFromCst ops l2)).map (bsetToCst ops))

/-- `pluto_constraints_intersection_isl`, lib/constraints_isl.c:465-484. -/
def intersectionIsl (ops : IslOps) (l1 l2 : List Cst) : List Cst :=
  islSetToCst ((l1.head?.map (·.ncols)).getD 0) ((ops.intersect (setFromCst ops l1) (setFromCst ops l2)).map (bsetToCst ops))

/-- `pluto_constraints_copy`, lib/constraints.c:585-601, on lists: the elements of `dest` that exist are
overwritten, surplus ones freed, missing ones duplicated. -/
def copyList : List Cst → List Cst → List Cst
  | _ :: d2 :: ds, s :: s2 :: ss => s :: copyList (d2 :: ds) (s2 :: ss)
  | _ :: _ :: _, [s] => [s]
  | [_], s :: ss => s :: ss
  | d, _ => d

/-- `pluto_constraints_intersect_isl`, lib/constraints_isl.c:487-495. -/
def intersectIsl (ops : IslOps) (l1 l2 : List Cst) : List Cst := copyList l1 (intersectionIsl ops l1 l2)

/-- `pluto_constraints_project_out_isl_single`, lib/constraints_isl.c:53-74; `none`: failed assertion. -/
def projectOutIslSingle (ops : IslOps) (c : Cst) (start num : Nat) : Option Cst :=
  if num = 0 then some c
  else if c.ncols < start + num + 1 then none
  else some (bsetToCst ops (ops.projectSet (bsetFromCst c) start num))

end Pluto
