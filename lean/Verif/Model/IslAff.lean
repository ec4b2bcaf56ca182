import Verif.Model.Pet
import Mathlib.Data.Rat.Defs

/-!
Model of the extraction of matrices from isl maps: schedules and access functions. `none`: failed assertion or NULL
dereference.
-/

namespace Pluto

/-- An integer division `floor(num / den)` of an `isl_aff`; `num` is over [in | param | 1 | earlier divisions]. -/
structure IslDiv where
  num : List Int
  den : Nat
deriving DecidableEq, Repr

/-- An `isl_aff`: rational coefficients over [in | param | 1] and of the integer divisions. -/
structure IslAff where
  nin : Nat
  npar : Nat
  coef : List Rat
  divs : List IslDiv
  dcoef : List Rat
deriving DecidableEq, Repr

/-- A piece of an `isl_pw_aff`: the set (as basic sets) and the affine expression that holds there. -/
structure IslPiece where
  dom : List BMap
  aff : IslAff
deriving DecidableEq, Repr

/-- The functions of isl that are used: `isl_map_dim_is_single_valued` and `isl_pw_aff_from_map_dim` (as the pieces in
the order in which `isl_pw_aff_foreach_piece` visits them). -/
structure PwOps where
  single : BMap → Nat → Bool
  pieces : BMap → Nat → List IslPiece

/-- `isl_aff_to_pluto_func`, lib/isl_support.c:53-100: a zero row if the denominator of the first integer division is
not 1; else the numerators of all coefficients. Divisions are not looked at otherwise. (`isl_val_get_num_si` on
numerators that do not fit: see C36.) -/
def affRow (a : IslAff) : List Int :=
  match a.divs with
  | d :: _ => if d.den ≠ 1 then zrow (a.nin + a.npar + 1) else a.coef.map (·.num)
  | [] => a.coef.map (·.num)

/-- The calls of `isl_aff_to_pluto_func` through `isl_pw_aff_foreach_piece`, lib/program.cpp:521-524 and
lib/constraints_isl.c:438-443: the row of the last piece; without pieces the matrix stays NULL and is dereferenced. -/
def pwRow (l : List IslPiece) : Option (List Int) := l.getLast?.map (fun pc => affRow pc.aff)

/-- An iteration of the loop in `isl_basic_map_extract_access_func`, lib/program.cpp:517-532. The zero row for a
dimension with several values is inserted at the front. -/
def accStep (P : PwOps) (b : BMap) (rows : List (List Int)) (i : Nat) : Option (List (List Int)) :=
  if P.single b i then (pwRow (P.pieces b i)).map (fun r => rows ++ [r]) else some (zrow (b.nin + b.npar + 1) :: rows)

/-- `isl_basic_map_extract_access_func`, lib/program.cpp:505-540: the rows of the access matrix. -/
def accRows (P : PwOps) (b : BMap) : Option (List (List Int)) := (List.range b.nout).foldlM (accStep P b) []

/-- `isl_map_to_pluto_func`, lib/constraints_isl.c:422-449 (on a map with one basic map). -/
def mapFunc (P : PwOps) (b : BMap) : Option (List (List Int)) :=
  (List.range b.nout).mapM (fun i => if P.single b i then pwRow (P.pieces b i) else none)

/-- `extract_accesses_for_pluto_stmt`, lib/program.cpp:555-596: the array and access matrix for every basic map of the
given maps. -/
def stmtAccs (P : PwOps) (l : List PetAcc) : Option (List (Nat × List (List Int))) :=
  (l.flatMap (fun a => a.parts.map (fun b => (a.arr, b)))).mapM (fun x => (accRows P x.2).map (fun rows => (x.1, rows)))

end Pluto
