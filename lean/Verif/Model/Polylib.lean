import Verif.Model.CstList

/-!
Model of the PolyLib interface of the tool (tool/constraints_polylib.c). PolyLib itself is an argument: a type of
polyhedra and the functions called. Lists linked by `next` are Lean lists, head first. The limit on the number of
rays given to PolyLib (50) and names of variables are left out.
-/

namespace Pluto

/-- The functions of PolyLib that are called; matrices as a number of columns and rows. -/
structure PolyLib (P : Type) where
  /-- `Constraints2Polyhedron` -/
  ofRows : Nat → List (List Int) → P
  /-- `Polyhedron2Constraints`: `NbColumns` and the rows -/
  toRows : P → Nat × List (List Int)
  /-- `DomainUnion` -/
  union : List P → List P → List P
  /-- `DomainDifference` -/
  diff : List P → List P → List P
  /-- `DomainIntersection` -/
  inter : List P → List P → List P

section
variable {P : Type} (B : PolyLib P)

/-- `pluto_constraints_to_polylib`, tool/constraints_polylib.c:52-71; `pluto_matrix_to_polylib` (lines 25-37) copies the
matrix. -/
def toPolylib (l : List Cst) : List P := l.map (fun c => B.ofRows (c.ncols + 1) (toMatrix c))

/-- `polylib_matrix_to_pluto_constraints`, tool/constraints_polylib.c:168-184. -/
def ofPolyRows (m : Nat × List (List Int)) : Cst :=
  ⟨m.1 - 1, m.2.map (fun r => ⟨decide (r.headD 0 = 0), r.drop 1⟩)⟩

/-- `polylib_to_pluto_constraints`, tool/constraints_polylib.c:73-84. -/
def ofPolylib (l : List P) : List Cst := l.map (fun q => ofPolyRows (B.toRows q))

/-- `pluto_constraints_union`, tool/constraints_polylib.c:110-122. -/
def polyUnion (l1 l2 : List Cst) : List Cst := ofPolylib B (B.union (toPolylib B l1) (toPolylib B l2))

/-- `pluto_constraints_difference`, tool/constraints_polylib.c:124-138; `none`: the assertion fails. The columns
compared are those of the heads. -/
def polyDifference (l1 l2 : List Cst) : Option (List Cst) :=
  if l1.head?.map (·.ncols) = l2.head?.map (·.ncols) then some (ofPolylib B (B.diff (toPolylib B l1) (toPolylib B l2)))
  else none

/-- `pluto_constraints_intersection`, tool/constraints_polylib.c:140-153. -/
def polyIntersection (l1 l2 : List Cst) : List Cst := ofPolylib B (B.inter (toPolylib B l1) (toPolylib B l2))

/-- `pluto_constraints_copy`, lib/constraints.c:585-601, with `pluto_constraints_copy_single` (lines 606-636) for the
heads: the list `dest` afterwards. `pluto_constraints_dup` (lines 653-663) copies into a new element. -/
def polyCopyList : List Cst → List Cst → List Cst
  | dest, [] => dest
  | _, [s] => [s]
  | d :: d1 :: ds, s :: s1 :: ss => s :: polyCopyList (d1 :: ds) (s1 :: ss)
  | [_], s :: s1 :: ss => s :: polyCopyList [⟨s1.ncols, []⟩] (s1 :: ss)
  | [], s :: s1 :: ss => s :: polyCopyList [⟨s1.ncols, []⟩] (s1 :: ss)
termination_by _ src => src.length

/-- `pluto_constraints_intersect`, tool/constraints_polylib.c:156-164: `cst1` afterwards. -/
def polyIntersect (l1 l2 : List Cst) : List Cst := polyCopyList l1 (polyIntersection B l1 l2)

/-- `pluto_constraints_subtract`, tool/constraints_polylib.c:208-215. -/
def polySubtract (l1 l2 : List Cst) : Option (List Cst) := (polyDifference B l1 l2).map (polyCopyList l1)

/-- `pluto_constraints_unionize`, lib/constraints.c:1873-1879. -/
def polyUnionize (l1 l2 : List Cst) : List Cst := polyCopyList l1 (polyUnion B l1 l2)

/-- `pluto_constraints_is_empty`, lib/constraints.c:1903-1927, with `islsolve`: isl is asked about the whole list
first, then about what follows each element. -/
def isEmptyIsl (setEmpty : List Cst → Bool) : List Cst → Bool
  | [] => true
  | c :: cs => if setEmpty (c :: cs) then (if cs = [] then true else isEmptyIsl setEmpty cs) else false

/-- `pluto_constraints_are_equal`, tool/constraints_polylib.c:217-229; `none`: the assertion fails. -/
def areEqual (empty : List Cst → Bool) (l1 l2 : List Cst) : Option Bool := do
  let d ← polyDifference B l1 l2
  if empty d then do
    let d ← polyDifference B l2 l1
    return empty d
  else return false

end

end Pluto
