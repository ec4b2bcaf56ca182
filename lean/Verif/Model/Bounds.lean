import Verif.Model.Constraints

/-!
Model of the bound queries of lib/constraints.c and lib/program.cpp. The projection
(`pluto_constraints_image` of PolyLib, tool/constraints_polylib.c:91-) is an argument `proj`.
-/

namespace Pluto

/-- `INT_MIN`, `INT_MAX`, `LLONG_MAX`. -/
def cIntMin : Int := -2147483648
def cIntMax : Int := 2147483647
def cLlongMax : Int := 9223372036854775807

/-- `pluto_constraints_project_out_single`, lib/constraints.c:1786-1814: the image under the function
that drops `num` variables is computed by PolyLib (`proj`). -/
def projectOutSingle (proj : Cst → Nat → Nat → Cst) (c : Cst) (start num : Nat) : Cst :=
  if num = 0 then c else proj c start num

/-- The loop lib/constraints.c:1952-1962 over the rows of the projected system: new `*lb` and
`retval`. -/
def lbLoop : List Row → Int × Bool → Int × Bool
  | [], s => s
  | r :: rs, (lb, ret) =>
    if r.eq then (r.val.getLastD 0, true)
    else if coef r.val 0 ≥ 1 then lbLoop rs (max lb (-(r.val.getLastD 0)), true)
    else lbLoop rs (lb, ret)

/-- `pluto_constraints_get_const_lb`, lib/constraints.c:1942-1974, on a (non-empty) list: `some lb` when
it returns 1. -/
def getConstLb (proj : Cst → Nat → Nat → Cst) (pos : Nat) : List Cst → Option Int
  | [] => none
  | c :: cs =>
    let c1 := projectOutSingle proj c 0 pos
    let c2 := projectOutSingle proj c1 1 (c1.ncols - 2)
    match lbLoop c2.rows (cIntMin, false) with
    | (lb, true) =>
      if cs = [] then some lb
      else match getConstLb proj pos cs with
        | some next => if lb ≠ next then none else some lb
        | none => none
    | _ => none

/-- The loop lib/constraints.c:1989-1999. -/
def ubLoop : List Row → Int × Bool → Int × Bool
  | [], s => s
  | r :: rs, (ub, ret) =>
    if r.eq then (r.val.getLastD 0, true)
    else if coef r.val 0 ≤ -1 then ubLoop rs (min ub (r.val.getLastD 0), true)
    else ubLoop rs (ub, ret)

/-- `pluto_constraints_get_const_ub`, lib/constraints.c:1978-2010. -/
def getConstUb (proj : Cst → Nat → Nat → Cst) (pos : Nat) : List Cst → Option Int
  | [] => none
  | c :: cs =>
    let c1 := projectOutSingle proj c 0 pos
    let c2 := projectOutSingle proj c1 1 (c1.ncols - 2)
    match ubLoop c2.rows (cLlongMax, false) with
    | (ub, true) =>
      if cs = [] then some ub
      else match getConstUb proj pos cs with
        | some next => if ub ≠ next then none else some ub
        | none => none
    | _ => none

/-- In-place scaling of one row, lib/program.cpp:1522-1528. The factor is recomputed from
`val[r][depth]` at every column, so columns after `depth` are multiplied by
`_lcm / |scaled coefficient|`. -/
def scaleRow (depth : Nat) (l : Int) (v : List Int) : List Int :=
  if coef v depth = 0 then v
  else (List.range v.length).foldl (fun w c => w.set c (coef w c * (l.tdiv (llabs (coef w depth))))) v

/-- The pair of bounds `r` (upper), `r1` (lower) contributes this candidate,
lib/program.cpp:1544-1567. `floorf` and `ceilf` of float quotients are modelled by exact floor and
ceiling division (the denominators are positive). -/
def pairDiff (depth : Nat) (r r1 : List Int) : Option Int :=
  if coef r depth ≤ -1 ∧ coef r1 depth ≥ 1 ∧
      (List.range (r.length - 1)).all (fun c => decide (coef r1 c + coef r c = 0)) then
    some (r.getLastD 0 / -(coef r depth) + -(-(r1.getLastD 0) / coef r1 depth) + 1)
  else none

/-- `get_const_bound_difference`, lib/program.cpp:1496-1581. After the projection the only column behind
`depth` is the constant, so the inner test of the equality loop (lines 1531-1542) always succeeds. -/
def getConstBoundDifference (proj : Cst → Nat → Nat → Cst) (c : Cst) (depth : Nat) : Int :=
  let c1 := projectOutSingle proj c (depth + 1) (c.ncols - 1 - depth - 1)
  if c1.rows.all (fun r => decide (coef r.val depth = 0)) then -1
  else
    let l := c1.rows.foldl (fun l r => if coef r.val depth ≠ 0 then clcm l (llabs (coef r.val depth)) else l) 1
    let rows := c1.rows.map fun r => { r with val := scaleRow depth l r.val }
    let d0 := if rows.any (fun r => r.eq && decide (coef r.val depth ≠ 0)) then 1 else cIntMax
    let ineqs := (rows.filter (fun r => !r.eq)).map (·.val)
    let d := ineqs.foldl (fun d r => ineqs.foldl (fun d r1 =>
      match pairDiff depth r r1 with | some k => min d k | none => d) d) d0
    if d = cIntMax then -1 else if d ≤ -1 then 0 else d

end Pluto
