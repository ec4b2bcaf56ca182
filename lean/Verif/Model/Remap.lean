import Verif.Model.Matrix
import Verif.Model.Prog
import Verif.Model.Bounds
import Verif.Model.StmtEdit

/-!
Model of schedules as constraints, remapping and transformed access functions (lib/program.cpp,
lib/pluto.c), of transformed domains (lib/program.cpp), and of moving supernode constraints into schedules (lib/plutolib.c). `none` stands for a
failed assertion. Entries are unbounded integers; in C the divisors are `int`.
-/

namespace Pluto

/-- One step of the loop that puts the time dimensions in front, lib/program.cpp:1891-1895 and
lib/pluto.c:2067-2071: row `n - 1 - i` is negated, a column is added in front and set to 1 in that row. -/
def schedStep (n : Nat) (m : Mat) (i : Nat) : Mat :=
  let m1 := m.negateRow (n - 1 - i)
  let m2 := (m1.addCol 0 0).getD m1
  { m2 with rows := m2.rows.set (n - 1 - i) ((m2.rows[n - 1 - i]?.getD default).set 0 1) }

/-- The matrix [time | iterators | parameters | 1] with rows `t_k - phi_k`. `ncols` is the number of
columns of the schedule. -/
def schedMatrix (ncols : Nat) (trans : List (List Int)) : Mat :=
  (List.range trans.length).foldl (schedStep trans.length) ⟨ncols, trans⟩

/-- `pluto_stmt_get_schedule`, lib/pluto.c:2060-2078. -/
def stmtGetSchedule (ncols : Nat) (trans : List (List Int)) : Cst :=
  let m := schedMatrix ncols trans
  fromEqualities m.ncols m.rows

/-- Row update of `pluto_stmt_get_remapping`, lib/program.cpp:1883-1981: `row` is scaled and a multiple of
`piv` subtracted so that column `i` becomes zero; only columns from `start` on are touched. -/
def remapElim (start i : Nat) (piv row : List Int) : List Int :=
  if coef row i = 0 then row
  else
    let l := clcm (coef row i) (coef piv i)
    let f := l.tdiv (coef row i)
    row.mapIdx (fun j a => if j < start then a else a * f - coef piv j * l.tdiv (coef piv i))

/-- Pivot choice for column `i`, lib/program.cpp:1905-1922: row `i`, or the first later row with a
non-zero entry, exchanged with row `i`. -/
def remapPivot (rows : List (List Int)) (i : Nat) : Option (List (List Int)) := do
  let r ← rows[i]?
  if coef r i ≠ 0 then some rows
  else do
    let k ← (rows.drop (i + 1)).findIdx? (fun r => decide (coef r i ≠ 0))
    return swapAt rows i (i + 1 + k)

/-- Forward elimination of column `i`, lib/program.cpp:1905-1932. -/
def remapForwardStep (rows : List (List Int)) (i : Nat) : Option (List (List Int)) := do
  let rows ← remapPivot rows i
  let piv ← rows[i]?
  return rows.mapIdx (fun k row => if k ≤ i then row else remapElim i i piv row)

/-- Forward elimination, lib/program.cpp:1904-1933. -/
def remapForward (dim : Nat) (rows : List (List Int)) : Option (List (List Int)) :=
  (List.range dim).foldlM remapForwardStep rows

/-- Backward elimination of column `i`, lib/program.cpp:1937-1947. -/
def remapBackwardStep (rows : List (List Int)) (i : Nat) : List (List Int) :=
  let piv := (rows[i]?).getD []
  rows.mapIdx (fun k row => if k < i then remapElim 0 i piv row else row)

/-- Backward elimination, lib/program.cpp:1936-1948. -/
def remapBackward (dim : Nat) (rows : List (List Int)) : List (List Int) :=
  (List.range dim).reverse.foldl remapBackwardStep rows

/-- The first `dim` columns hold the iterators: [iterators | time | parameters | 1],
lib/program.cpp:1897-1900. -/
def remapStart (dim ncols : Nat) (trans : List (List Int)) : Mat :=
  (List.range dim).foldl (fun m i => m.moveCol (trans.length + i) i) (schedMatrix ncols trans)

/-- The rows of the result for the iterators with their divisors, lib/program.cpp:1955-1969: sign of the
diagonal entry made positive, first `dim` columns dropped, row negated. -/
def remapRow (dim i : Nat) (row : List Int) : List Int × Int :=
  let row := if coef row i ≤ -1 then row.map (fun a => -a) else row
  ((row.drop dim).map (fun a => -a), llabs (coef row i))

/-- `pluto_stmt_get_remapping`, lib/program.cpp:1883-1981, for a statement with `dim` iterators, `npar`
parameters and the schedule `trans`: the matrix and the divisors. -/
def remapping (dim npar : Nat) (trans : List (List Int)) : Option (Mat × List Int) := do
  let m := remapStart dim (dim + npar + 1) trans
  if m.rows.length < dim then none
  else do
    let rows ← remapForward dim m.rows
    let rows := (remapBackward dim rows).take dim
    let out := rows.mapIdx (remapRow dim)
    let nc := m.ncols - dim
    let ids := (List.range (npar + 1)).map (fun i => (zrow nc).set (nc - npar - 1 + i) 1)
    return (⟨nc, out.map (·.1) ++ ids⟩, out.map (·.2) ++ List.replicate (npar + 1) 1)

/-- `pluto_get_new_access_func`, lib/program.cpp:1991-2027. -/
def newAccessFunc (dim npar : Nat) (trans : List (List Int)) (acc : Mat) : Option (Mat × List Int) :=
  if acc.ncols ≠ dim + npar + 1 then none
  else do
    let (m, divs) ← remapping dim npar trans
    if divs.any (fun d => decide (d = 0)) then none
    else do
      let l := divs.foldl clcm 1
      let scaled : Mat := ⟨m.ncols, List.zipWith (fun r d => r.map (fun a => (a * l).tdiv d)) m.rows divs⟩
      let out ← acc.product scaled
      return (out, List.replicate out.rows.length l)

/-- `pluto_get_new_domain`, lib/program.cpp:1467-1484, for a domain with a single element. Intersection
(`meet`) and projection (`proj`) are done by PolyLib. -/
def newDomain (meet : Cst → Cst → Cst) (proj : Cst → Nat → Nat → Cst) (st : Stmt) : Cst :=
  let nd := addLeadingDims st.domain st.trans.length
  let sched := stmtGetSchedule st.domain.ncols st.trans
  projectOutSingle proj (meet nd sched) st.trans.length st.dim

/-- The row at `pos` has a non-zero entry in the first `snodes` columns, lib/plutolib.c:235-239. -/
def isTileRow (snodes : Nat) (r : Row) : Bool := (List.range snodes).any (fun c => decide (coef r.val c ≠ 0))

/-- One iteration of the row loop of `normalize_domain_schedule`, lib/plutolib.c:223-257; the state is
the domain piece, the schedule relation and `del`. -/
def normRow (snodes ntrans : Nat) (s : Cst × Cst × Nat) (r : Nat) : Cst × Cst × Nat :=
  let (dom, sched, del) := s
  match dom.rows[r - del]?, selectRow dom (r - del) with
  | some row, some cut =>
    if isTileRow snodes row then
      (removeRow dom (r - del), addCst sched (addLeadingDims cut ntrans), del + 1)
    else s
  | _, _ => s

/-- The row loop on one piece. -/
def normPiece (snodes ntrans : Nat) (dom sched : Cst) : Cst × Cst :=
  let s := (List.range dom.rows.length).foldl (normRow snodes ntrans) (dom, sched, 0)
  (s.1, s.2.1)

/-- The loop over the pieces of the domain. -/
def normPieces (snodes ntrans : Nat) : List Cst → Cst → List Cst × Cst
  | [], sched => ([], sched)
  | d :: ds, sched =>
    let (d', sched') := normPiece snodes ntrans d sched
    let (ds', sched'') := normPieces snodes ntrans ds sched'
    (d' :: ds', sched'')

/-- `normalize_domain_schedule`, lib/plutolib.c:223-257, on statement `i` (domain with a single piece):
the schedule relation over (time, all iterators, parameters), and the program whose statement has the
tile iterators removed. -/
def normalizeDomainSchedule (p : Prog) (i : Nat) : Option (Cst × Prog) := do
  let st ← p.stmts[i]?
  let sched := stmtGetSchedule st.domain.ncols st.trans
  let snodes := st.dim - st.dimOrig
  let (dom, sched) := normPiece snodes st.trans.length st.domain sched
  let p1 := { p with stmts := p.stmts.set i { st with domain := dom } }
  let p2 ← (List.range snodes).foldlM (fun p _ => stmtRemoveDim p i 0) p1
  return (sched, p2)

end Pluto
