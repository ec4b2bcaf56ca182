import Verif.Spec.Affine
import Verif.Model.Arith
import Mathlib.Data.List.Sort

/-!
Model of lib/constraints.c: single systems. Functions working on linked lists are modelled on one
element here; their list versions are in `Verif/Model/CstList.lean`. All entries are unbounded
integers (C: `int64_t`; no overflow is assumed).
-/

namespace Pluto

/-- `cst->val[i][pos]`. Out of range reads do not occur under `Cst.WF` and `pos < ncols`. -/
def coef (v : List Int) (pos : Nat) : Int := v.getD pos 0

/-! ### Row normalisation, sorting, duplicate removal -/

/-- The gcd accumulated by lib/constraints.c:401-405 over all columns of a row (starting at the first
non-zero one; leading zeros do not contribute). 0 for an all-zero row. -/
def rowGcd (v : List Int) : Int := v.foldl (fun g a => cgcd (llabs a) g) 0

/-- Normalisation of one row by its gcd, lib/constraints.c:392-411; all-zero rows are left alone.
`/=` is C's truncated division. -/
def normalizeRow (r : Row) : Row :=
  if r.val.all (fun a => decide (a = 0)) then r
  else { r with val := r.val.map (fun a => a.tdiv (rowGcd r.val)) }

/-- `row_compar(e1, e2) <= 0`, lib/constraints.c:342-370: lexicographic on the entries; identical
entries: equalities first. -/
def rowLe (a b : Row) : Bool :=
  match lexCmp a.val b.val with
  | .lt => true
  | .gt => false
  | .eq => a.eq || !b.eq
where
  /-- first differing column decides -/
  lexCmp : List Int → List Int → Ordering
    | x :: xs, y :: ys => if x < y then .lt else if x > y then .gt else lexCmp xs ys
    | _, _ => .eq

/-- Redundancy marking, lib/constraints.c:430-454: a row (not the first one) is dropped when it is all
zeros or identical, including the equality flag, to its predecessor in the sorted order. -/
def dropRedundant (prev : Row) : List Row → List Row
  | [] => []
  | r :: rs =>
    if r.val.all (fun a => decide (a = 0)) then dropRedundant r rs
    else if prev.val = r.val && prev.eq = r.eq then dropRedundant r rs
    else r :: dropRedundant r rs

/-- `pluto_constraints_simplify`, lib/constraints.c:378-474, on one element. `qsort` is modelled by
insertion sort: rows comparing equal are identical, so any sorting algorithm gives the same list. -/
def simplify (c : Cst) : Cst :=
  match (c.rows.map normalizeRow).insertionSort (fun a b => rowLe a b = true) with
  | [] => c
  | r :: rs => { c with rows := r :: dropRedundant r rs }

/-! ### Equalities to inequalities -/

/-- `-` the sum of all equality rows, lib/constraints.c:1766-1776 (`neg_eq->val[0][j] -= ...`). -/
def negEqSum (n : Nat) (rows : List Row) : List Int :=
  rows.foldl (fun acc r => if r.eq then List.zipWith (fun p q => p - q) acc r.val else acc)
    (List.replicate n 0)

/-- `pluto_constraints_to_pure_inequalities_single`, lib/constraints.c:1747-1783. -/
def toPureIneq (c : Cst) : Cst :=
  { c with rows :=
      c.rows.map (fun r => { r with eq := false }) ++
        (if c.rows.any (fun r => r.eq) then [⟨false, negEqSum c.ncols c.rows⟩] else []) }

/-! ### Columns and rows -/

/-- `pluto_constraints_remove_dim`, lib/constraints.c:1535-1561 (requires `pos <= ncols - 2`). -/
def removeDim (c : Cst) (pos : Nat) : Cst :=
  { ncols := c.ncols - 1, rows := c.rows.map (fun r => { r with val := r.val.eraseIdx pos }) }

/-- `pluto_constraints_add_dim`, lib/constraints.c:1601-1636 (requires `pos <= ncols - 1`): new
zero column. -/
def addDim (c : Cst) (pos : Nat) : Cst :=
  { ncols := c.ncols + 1, rows := c.rows.map (fun r => { r with val := r.val.insertIdx pos 0 }) }

/-- `pluto_constraints_add_leading_dims`, lib/constraints.c:1643-1647. -/
def addLeadingDims (c : Cst) : Nat → Cst
  | 0 => c
  | n + 1 => addLeadingDims (addDim c 0) n

/-- `pluto_constraints_remove_row`, lib/constraints.c:1522-1532. -/
def removeRow (c : Cst) (pos : Nat) : Cst := { c with rows := c.rows.eraseIdx pos }

/-- `pluto_constraints_add`, lib/constraints.c:285-307 (asserts equal column counts). -/
def addCst (c1 c2 : Cst) : Cst := { c1 with rows := c1.rows ++ c2.rows }

/-- Row with `k` at `varnum`, constant `c`, zero elsewhere (helper of the three functions below). -/
def unitRow (n varnum : Nat) (k c : Int) : List Int :=
  ((List.replicate n (0 : Int)).set varnum k).set (n - 1) c

/-- `pluto_constraints_add_lb`, lib/constraints.c:1649-1659. -/
def addLb (c : Cst) (varnum : Nat) (lb : Int) : Cst :=
  { c with rows := c.rows ++ [⟨false, unitRow c.ncols varnum 1 (-lb)⟩] }

/-- `pluto_constraints_add_ub`, lib/constraints.c:1662-1672. -/
def addUb (c : Cst) (varnum : Nat) (ub : Int) : Cst :=
  { c with rows := c.rows ++ [⟨false, unitRow c.ncols varnum (-1) ub⟩] }

/-- `pluto_constraints_set_var`, lib/constraints.c:1675-1685. -/
def setVar (c : Cst) (varnum : Nat) (v : Int) : Cst :=
  { c with rows := c.rows ++ [⟨true, unitRow c.ncols varnum 1 (-v)⟩] }

/-- Exchange of two entries of a list. -/
def swapIdx (l : List Int) (i j : Nat) : List Int :=
  (l.set i (coef l j)).set j (coef l i)

/-- `pluto_constraints_interchange_cols`, lib/constraints.c:1825-1839. -/
def interchangeCols (c : Cst) (i j : Nat) : Cst :=
  if i = j then c
  else { c with rows := c.rows.map (fun r => { r with val := swapIdx r.val i j }) }

/-- `pluto_constraints_select_row`, lib/constraints.c:1704-1715. -/
def selectRow (c : Cst) (pos : Nat) : Option Cst :=
  (c.rows[pos]?).map fun r => ⟨c.ncols, [r]⟩

/-- `pluto_constraints_negate_row`, lib/constraints.c:1720-1728. -/
def negateRow (c : Cst) (pos : Nat) : Cst :=
  { c with rows := c.rows.mapIdx (fun i r =>
      if i = pos then { r with val := r.val.map (fun a => -a) } else r) }

/-- `pluto_constraints_negate_constraint`, lib/constraints.c:1733-1742: negates all variable
coefficients and *decrements* (does not negate) the constant. -/
def negateConstraint (c : Cst) (pos : Nat) : Cst :=
  { c with rows := c.rows.mapIdx (fun i r =>
      if i = pos then
        { r with val := r.val.mapIdx (fun j a => if j + 1 = r.val.length then a - 1 else -a) }
      else r) }

/-- `pluto_hyperplane_get_non_negative_half_space`, lib/constraints.c:2377-2384 (asserts one
equality row). -/
def nonNegHalfSpace (h : Cst) : Option Cst :=
  match h.rows with
  | [r] => if r.eq then some { h with rows := [{ r with eq := false }] } else none
  | _ => none

/-- Adds `k` to the last entry. -/
def addLast (l : List Int) (k : Int) : List Int :=
  l.mapIdx (fun j a => if j + 1 = l.length then a + k else a)

/-- `pluto_hyperplane_get_negative_half_space`, lib/constraints.c:2386-2395. -/
def negHalfSpace (h : Cst) : Option Cst :=
  match h.rows with
  | [r] => if r.eq then
      some { h with rows := [⟨false, addLast (r.val.map (fun a => -a)) (-1)⟩] } else none
  | _ => none

/-- `pluto_constraints_shift_dim`, lib/constraints.c:2398-2412; `func` is the single row of the
matrix argument, `func[pos] = 0` is asserted. Column `pos` itself is not touched. -/
def shiftDim (c : Cst) (pos : Nat) (func : List Int) : Cst :=
  { c with rows := c.rows.map (fun r =>
      { r with val :=
          (List.zipWith (fun a f => a - coef r.val pos * f) r.val func).set pos (coef r.val pos) }) }

/-- `pluto_constraints_universe`, lib/constraints.c:1890-1893. -/
def universeCst (ncols : Nat) : Cst := ⟨ncols, []⟩

/-- `pluto_constraints_empty`, lib/constraints.c:1896-1901: the row `1 = 0`. -/
def emptyCst (ncols : Nat) : Cst := ⟨ncols, [⟨true, (List.replicate ncols 0).set (ncols - 1) 1⟩]⟩

/-- `pluto_constraints_extract_equalities`, lib/constraints.c:2248-2265. -/
def extractEqualities (c : Cst) : List (List Int) := (c.rows.filter (·.eq)).map (·.val)

/-- `pluto_constraints_from_equalities`, lib/constraints.c:1458-1471. -/
def fromEqualities (ncols : Nat) (m : List (List Int)) : Cst := ⟨ncols, m.map (fun v => ⟨true, v⟩)⟩

/-- `pluto_constraints_from_inequalities`, lib/constraints.c:773-786. -/
def fromInequalities (ncols : Nat) (m : List (List Int)) : Cst :=
  ⟨ncols, m.map (fun v => ⟨false, v⟩)⟩

/-- `pluto_constraints_get_num_equalities`, lib/constraints.c:2237-2246. -/
def numEqualities (c : Cst) : Nat := c.rows.countP (·.eq)

/-- `pluto_constraints_get_num_non_zero_coeffs`, lib/constraints.c:2441-2456. -/
def numNonZeroCoeffs (c : Cst) : Nat :=
  (c.rows.map fun r => (r.val.take (c.ncols - 1)).countP (fun a => decide (a ≠ 0))).sum

/-! ### Elimination -/

/-- New row from an upper bound row `u` (coefficient < 0) and a lower bound row `l` (> 0),
lib/constraints.c:546-556 and 2528-2538; column `pos` is dropped. -/
def fmCombine (pos : Nat) (u l : List Int) : List Int :=
  let m1 := (clcm (coef l pos) (-(coef u pos))).tdiv (-(coef u pos))
  let m2 := (clcm (-(coef u pos)) (coef l pos)).tdiv (coef l pos)
  (List.zipWith (fun p q => p * m1 + q * m2) u l).eraseIdx pos

/-- Rows produced by the elimination loop, lib/constraints.c:540-569 / 2518-2550. `keepEq` is false
for `fourier_motzkin_eliminate` (rows are inequalities by then) and true for the `_smart` version
(rows not involving the variable keep their flag). -/
def fmRows (keepEq : Bool) (pos : Nat) (rows : List Row) : List Row :=
  rows.flatMap fun u =>
    if coef u.val pos < 0 then
      (rows.filter (fun l => decide (0 < coef l.val pos))).map
        (fun l => ⟨false, fmCombine pos u.val l.val⟩)
    else if coef u.val pos = 0 then [⟨keepEq && u.eq, u.val.eraseIdx pos⟩]
    else []

/-- `fourier_motzkin_eliminate`, lib/constraints.c:485-581, on one element (asserts
`ncols >= 2`, `pos <= ncols - 2`). -/
def fmEliminate (c : Cst) (pos : Nat) : Cst :=
  let c1 := if c.rows.any (·.eq) then toPureIneq c else c
  let new : Cst :=
    if c1.rows.all (fun r => decide (coef r.val pos = 0)) then removeDim c1 pos
    else ⟨c1.ncols - 1, fmRows false pos c1.rows⟩
  simplify new

/-- One row of `pluto_constraints_gaussian_eliminate`, lib/constraints.c:2565-2608. The C factors
are `int`; here they are unbounded. -/
def gaussRow (pos : Nat) (piv : List Int) (r : List Int) : List Int :=
  let q := coef r pos
  let p := coef piv pos
  if q = 0 then r
  else
    let f1 := if 1 ≤ q then (clcm (llabs p) (llabs q)).tdiv q else (-(clcm (llabs p) (llabs q))).tdiv q
    let f2 := if 1 ≤ q then (clcm (llabs p) (llabs q)).tdiv p else (-(clcm (llabs p) (llabs q))).tdiv p
    List.zipWith (fun a b => a * f1 - b * f2) r piv

/-- Does the row qualify as a Gaussian pivot for `pos`? -/
def isPivot (pos : Nat) (r : Row) : Bool := r.eq && decide (coef r.val pos ≠ 0)

/-- `pluto_constraints_gaussian_eliminate`, lib/constraints.c:2565-2608, on one element; `none` is
the `assert(0)` when no equality involves the variable. -/
def gaussEliminate (c : Cst) (pos : Nat) : Option Cst :=
  let pre := c.rows.takeWhile (fun r => !isPivot pos r)
  match c.rows.dropWhile (fun r => !isPivot pos r) with
  | [] => none
  | piv :: post =>
    some (removeDim
      ⟨c.ncols, (pre ++ post).map (fun r => { r with val := gaussRow pos piv.val r.val })⟩ pos)

/-- `fourier_motzkin_eliminate_smart`, lib/constraints.c:2470-2563, on one element. -/
def fmSmart (c : Cst) (pos : Nat) : Cst :=
  match gaussEliminate c pos with
  | some c' => simplify c'
  | none =>
    simplify
      (if c.rows.all (fun r => decide (coef r.val pos = 0)) then removeDim c pos
       else ⟨c.ncols - 1, fmRows true pos c.rows⟩)

/-- Elimination cost of column `j`, lib/constraints.c:2349-2367. -/
def elimCost (c : Cst) (j : Nat) : Nat :=
  let numEq := c.rows.countP (fun r => r.eq && decide (coef r.val j ≠ 0))
  let rest := c.rows.filter (fun r => !(r.eq && decide (coef r.val j ≠ 0)))
  let ub := rest.countP (fun r => decide (0 < coef r.val j))
  let lb := rest.countP (fun r => decide (coef r.val j < 0))
  let nb := rest.countP (fun r => decide (coef r.val j = 0))
  if 1 ≤ numEq then c.rows.length - 1 else lb * ub + nb

/-- `pluto_constraints_best_elim_candidate`, lib/constraints.c:2339-2375. The loop runs over
`j = ncols-2, ..., ncols-1-max_elim`; its bound `ncols - 2 - max_elim` is unsigned, so for
`max_elim = ncols - 1` it wraps and the loop body never runs. -/
def bestElimCandidate (c : Cst) (maxElim : Nat) : Nat :=
  let js := if c.ncols - 1 ≤ maxElim then [] else
    (List.range maxElim).map (fun k => c.ncols - 2 - k)
  (js.foldl (fun (best : Nat × Nat) j =>
      let cost := elimCost c j
      if cost < best.1 then (cost, j) else best)
    (c.rows.length * c.rows.length / 4, c.ncols - 2)).2

/-! ### Farkas lemma -/

/-- The system over (coefficients, multipliers) built by `farkas_lemma_affine`,
lib/constraints.c:213-280. `phi` has one row per column of `dom`; each row has `phiCols` entries. -/
def farkasSystem (dom : Cst) (phiCols : Nat) (phi : List (List Int)) : Cst :=
  let idom := addCst (toPureIneq dom) ⟨dom.ncols, [⟨false, (List.replicate dom.ncols 0).set (dom.ncols - 1) 1⟩]⟩
  let m := idom.rows.length
  { ncols := phiCols + m
    rows :=
      phi.mapIdx (fun i f => (⟨true, f.take (phiCols - 1) ++ idom.rows.map (fun r => -(coef r.val i)) ++
          [coef f (phiCols - 1)]⟩ : Row)) ++
      (List.range m).map (fun j =>
        (⟨false, (List.replicate (phiCols + m) 0).set (phiCols - 1 + j) 1⟩ : Row)) }

/-- Elimination loop of `farkas_lemma_affine`, lib/constraints.c:213-280. -/
def elimMultipliers : Nat → Cst → Cst
  | 0, c => c
  | n + 1, c => elimMultipliers n (fmSmart c (bestElimCandidate c (n + 1)))

/-- `farkas_lemma_affine`, lib/constraints.c:213-280 (asserts `phi->nrows == dom->ncols` and a
single-element list). -/
def farkasLemmaAffine (dom : Cst) (phiCols : Nat) (phi : List (List Int)) : Cst :=
  let sys := farkasSystem dom phiCols phi
  elimMultipliers (sys.ncols - phiCols) sys

end Pluto
