import Verif.Model.Bounds

/-!
Model of the functions of lib/program.cpp that print the bounds, the extent and the bounding box of dimensions as C expressions in the
parameters. Texts are modelled by what is printed, term by term; buffers (512 and 16384 characters) are assumed to be large enough. `none`:
failed assertion. Parameters are numbers; their names are different identifiers, so that texts are equal iff their models are.
-/

namespace Pluto

/-- A printed term: `c*param` or a number, each with its sign. -/
inductive CTerm
  | par (c : Int) (i : Nat)
  | num (c : Int)
deriving DecidableEq, Repr

/-- What `get_expr` prints: terms one after the other, or `floorf((terms)/(float)d)`, or `ceilf((terms)/(float)d)`. -/
inductive CExpr
  | lin (l : List CTerm)
  | floorDiv (l : List CTerm) (d : Int)
  | ceilDiv (l : List CTerm) (d : Int)
deriving DecidableEq, Repr

/-- What `get_func_of_expr` prints: an expression, or `max(e,b)`, or `min(e,b)`. -/
inductive CBound
  | one (e : CExpr)
  | fn (isMax : Bool) (e : CExpr) (b : CBound)
deriving DecidableEq, Repr

/-- The terms printed for the columns between the first and the last, and the constant, lib/program.cpp:1632-1653. -/
def exprTerms (sign : Int) (row : List Int) : List CTerm :=
  ((List.range (row.length - 2)).filterMap (fun c => if coef row (c + 1) ≠ 0 then some (.par (sign * coef row (c + 1)) c) else none)) ++
    (if row.getLastD 0 ≠ 0 then [.num (sign * row.getLastD 0)] else [])

/-- `get_expr`, lib/program.cpp:1588-1663, for the given row; `isMax` is `bound_type == MAXF`. `floorf` and `ceilf` of float quotients are
modelled by exact floor and ceiling division; `sum` does not overflow. -/
def getExpr (isMax : Bool) (row : List Int) : Option CExpr :=
  let a := coef row 0
  let k := row.getLastD 0
  if isMax then
    if a ≥ 1 then
      if (List.range (row.length - 2)).all (fun c => decide (coef row (c + 1) = 0)) then some (.lin [.num (-(k / a))])
      else if a = 1 then some (.lin (exprTerms (-1) row)) else some (.ceilDiv (exprTerms (-1) row) a)
    else none
  else
    if a ≤ -1 then
      if (List.range (row.length - 2)).all (fun c => decide (coef row (c + 1) = 0)) then some (.lin [.num (k / -a)])
      else if a = -1 then some (.lin (exprTerms 1 row)) else some (.floorDiv (exprTerms 1 row) (-a))
    else none

/-- `get_func_of_expr`, lib/program.cpp:1669-1700, for the rows from the offset on (there is at least one). -/
def getFuncOfExpr (isMax : Bool) : List (List Int) → Option CBound
  | [] => none
  | [r] => (getExpr isMax r).map .one
  | r :: r' :: rs => do
    let e ← getExpr isMax r
    let b ← getFuncOfExpr isMax (r' :: rs)
    return .fn isMax e b

/-- The rows taken as lower bounds, lib/program.cpp:1781-1797. -/
def lowerBounds (rows : List Row) : List (List Int) :=
  rows.flatMap (fun r => (if r.eq && decide (coef r.val 0 ≠ 0) then [r.val] else []) ++ (if coef r.val 0 ≥ 1 then [r.val] else []))

/-- The rows taken as upper bounds, lib/program.cpp:1781-1802. -/
def upperBounds (rows : List Row) : List (List Int) :=
  rows.flatMap (fun r => (if r.eq && decide (coef r.val 0 ≠ 0) then [r.val.map (- ·)] else []) ++
    (if coef r.val 0 ≥ 1 then [] else if coef r.val 0 ≤ -1 then [r.val] else []))

/-- The system from which the bounds are read, lib/program.cpp:1772-1773: all variables but `pos` and the last `npar` are projected out. -/
def boundSystem (proj : Cst → Nat → Nat → Cst) (c : Cst) (pos npar : Nat) : Cst :=
  let d := projectOutSingle proj c 0 pos
  projectOutSingle proj d 1 (d.ncols - npar - 2)

/-- `get_lb_ub_expr`, lib/program.cpp:1765-1814 (of a list of constraints, only the first is used). -/
def getLbUbExpr (proj : Cst → Nat → Nat → Cst) (c : Cst) (pos npar : Nat) : Option (CBound × CBound) := do
  let d := boundSystem proj c pos npar
  let lb ← getFuncOfExpr true (lowerBounds d.rows)
  let ub ← getFuncOfExpr false (upperBounds d.rows)
  return (lb, ub)

/-- The text of an extent: a number, or `ub - lb + 1`. -/
inductive CExtent
  | num (k : Int)
  | diff (ub lb : CBound)
deriving DecidableEq, Repr

/-- `get_parametric_extent`, lib/program.cpp:1821-1841. -/
def getParametricExtent (proj : Cst → Nat → Nat → Cst) (c : Cst) (pos npar : Nat) : Option CExtent := do
  let (lb, ub) ← getLbUbExpr proj c pos npar
  return if lb = ub then .num 1 else .diff ub lb

/-- `get_parametric_extent_const`, lib/program.cpp:1748-1759, without a request for the lower bound. -/
def getExtentConst (proj : Cst → Nat → Nat → Cst) (c : Cst) (pos npar : Nat) : Option CExtent :=
  if getConstBoundDifference proj c pos ≠ -1 then some (.num (getConstBoundDifference proj c pos))
  else getParametricExtent proj c pos npar

/-- `get_parametric_bounding_box`, lib/program.cpp:1717-1740, for a list of constraints: the printed sum of products of extents. -/
def getBoundingBox (proj : Cst → Nat → Nat → Cst) (cs : List Cst) (start num npar : Nat) : Option (List (List CExtent)) :=
  cs.mapM (fun c => (List.range num).mapM (fun k => getExtentConst proj c (start + k) npar))

end Pluto
