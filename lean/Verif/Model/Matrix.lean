import Verif.Model.Constraints

/-!
Model of the integer matrix operations of lib/math_support.c. A matrix is its list of rows together
with the number of columns (`struct plutoMatrix`, include/pluto/matrix.h); the allocated sizes are
not represented. Loops that shift entries in place are modelled entry by entry.
Entries are unbounded integers (C: `int64_t`, some temporaries `int`).
-/

namespace Pluto

/-- `struct plutoMatrix` (`val`, `nrows`, `ncols`). -/
structure Mat where
  ncols : Nat
  rows : List (List Int)
deriving DecidableEq, Repr

/-- Every row has `ncols` entries. -/
def Mat.WF (m : Mat) : Prop := ∀ r ∈ m.rows, r.length = m.ncols

instance (m : Mat) : Decidable m.WF := by unfold Mat.WF; infer_instance

/-- The loop `for (j = pos; j < n - 1; j++) a[j] = a[j + 1]` followed by `n--`
(lib/math_support.c:68-73 on columns, lib/math_support.c:82-87 on rows). -/
def shiftLeft {α : Type} [Inhabited α] (l : List α) (pos : Nat) : List α :=
  ((List.range' pos (l.length - 1 - pos)).foldl (fun a j => a.set j (a[j + 1]?.getD default)) l).take
    (l.length - 1)

/-- `n++` (the new last entry is uninitialised: `junk`), then the loop
`for (j = n - 2; j >= pos; j--) a[j + 1] = a[j]`, then `a[pos] = z`
(lib/math_support.c:128-137 on columns, lib/math_support.c:185-193 on rows). -/
def shiftRight {α : Type} [Inhabited α] (junk : α) (l : List α) (pos : Nat) (z : α) : List α :=
  ((List.range' pos (l.length - pos)).reverse.foldl
    (fun a j => a.set (j + 1) (a[j]?.getD default)) (l ++ [junk])).set pos z

/-- `pluto_matrix_remove_col`, lib/math_support.c:63-74; `none` is the failing assertion. -/
def Mat.removeCol (m : Mat) (pos : Nat) : Option Mat :=
  if pos + 1 ≤ m.ncols then some ⟨m.ncols - 1, m.rows.map (fun r => shiftLeft r pos)⟩ else none

/-- `pluto_matrix_remove_row`, lib/math_support.c:77-88. -/
def Mat.removeRow (m : Mat) (pos : Nat) : Option Mat :=
  if pos + 1 ≤ m.rows.length then some ⟨m.ncols, shiftLeft m.rows pos⟩ else none

/-- `pluto_matrix_add_col`, lib/math_support.c:117-138. -/
def Mat.addCol (junk : Int) (m : Mat) (pos : Nat) : Option Mat :=
  if pos ≤ m.ncols then some ⟨m.ncols + 1, m.rows.map (fun r => shiftRight junk r pos 0)⟩ else none

/-- `pluto_matrix_add_row`, lib/math_support.c:173-194. -/
def Mat.addRow (junk : List Int) (m : Mat) (pos : Nat) : Option Mat :=
  if pos ≤ m.rows.length then
    some ⟨m.ncols, shiftRight junk m.rows pos (List.replicate m.ncols 0)⟩ else none

/-- Exchange of two entries, read before written. -/
def swapAt {α : Type} [Inhabited α] (l : List α) (i j : Nat) : List α :=
  (l.set i (l[j]?.getD default)).set j (l[i]?.getD default)

/-- `pluto_matrix_negate_row`, lib/math_support.c:141-147. -/
def Mat.negateRow (m : Mat) (pos : Nat) : Mat :=
  { m with rows := m.rows.set pos ((m.rows[pos]?.getD default).map (fun a => -a)) }

/-- `pluto_matrix_negate`, lib/math_support.c:149-154. -/
def Mat.negate (m : Mat) : Mat := (List.range m.rows.length).foldl Mat.negateRow m

/-- `pluto_matrix_add`, lib/math_support.c:157-169. -/
def Mat.add (m1 m2 : Mat) : Option Mat :=
  if m1.ncols = m2.ncols then some ⟨m1.ncols, m1.rows ++ m2.rows⟩ else none

/-- `pluto_matrix_interchange_rows`, lib/math_support.c:196-204. -/
def Mat.interchangeRows (m : Mat) (r1 r2 : Nat) : Mat := { m with rows := swapAt m.rows r1 r2 }

/-- `pluto_matrix_interchange_cols`, lib/math_support.c:206-214. The temporary is an `int`, so the
C function truncates entries outside the range of `int`: see `interchangeColsInt`. -/
def Mat.interchangeCols (m : Mat) (c1 c2 : Nat) : Mat :=
  { m with rows := m.rows.map (fun r => swapAt r c1 c2) }

/-- Conversion of an `int64_t` to a 32-bit `int` (two's complement, as implemented by gcc/clang). -/
def toInt32 (a : Int) : Int := (BitVec.ofInt 32 a).toInt

/-- `pluto_matrix_interchange_cols`, lib/math_support.c:206-214, with its `int` temporary. -/
def Mat.interchangeColsInt (m : Mat) (c1 c2 : Nat) : Mat :=
  { m with rows := m.rows.map (fun r =>
      (r.set c1 (r[c2]?.getD default)).set c2 (toInt32 (r[c1]?.getD default))) }

/-- `pluto_matrix_move_col`, lib/math_support.c:217-229. -/
def Mat.moveCol (m : Mat) (c1 c2 : Nat) : Mat :=
  if c1 < c2 then
    (List.range' c1 (c2 - c1)).foldl (fun m j => m.interchangeCols j (j + 1)) m
  else
    (List.range' (c2 + 1) (c1 - c2)).reverse.foldl (fun m j => m.interchangeCols j (j - 1)) m

/-- `pluto_matrix_identity`, lib/math_support.c:264-271. -/
def Mat.identity (n : Nat) : Mat :=
  ⟨n, (List.range n).map (fun i => (List.replicate n (0 : Int)).set i 1)⟩

/-- `pluto_matrix_zero_row`, lib/math_support.c:274-280. -/
def Mat.zeroRow (m : Mat) (pos : Nat) : Option Mat :=
  if pos + 1 ≤ m.rows.length then
    some { m with rows := m.rows.set pos (List.replicate m.ncols 0) } else none

/-- `pluto_matrix_zero_col`, lib/math_support.c:283-291. -/
def Mat.zeroCol (m : Mat) (pos : Nat) : Option Mat :=
  if pos + 1 ≤ m.ncols then some { m with rows := m.rows.map (fun r => r.set pos 0) } else none

/-- `pluto_matrix_normalize_row`, lib/math_support.c:329-350: the division is guarded by
`i == nrows` inside the loop over `i < nrows`, so it never happens; nothing is written. -/
def Mat.normalizeRow (m : Mat) (_pos : Nat) : Mat := m

/-- Row update of the elimination loop, lib/math_support.c:362-371 (`piv` is row `r`). -/
def elimRow (piv : List Int) (pos : Nat) (row : List Int) : List Int :=
  if coef row pos = 0 then row
  else
    let l := clcm (llabs (coef piv pos)) (llabs (coef row pos))
    let factor1 := l.tdiv (coef row pos)
    let factor2 := l.tdiv (coef piv pos)
    List.zipWith (fun a b => a * factor1 - b * factor2) row piv

/-- `gaussian_eliminate_var`, lib/math_support.c:353-379. -/
def Mat.gaussEliminateVar (m : Mat) (pos : Nat) : Option Mat :=
  let m1 := match m.rows.findIdx? (fun r => decide (coef r pos ≠ 0)) with
    | none => m
    | some r =>
      let piv := m.rows[r]?.getD default
      { m with rows := shiftLeft (m.rows.mapIdx (fun k row =>
          if k = r then row else elimRow piv pos row)) r }
  m1.removeCol pos

/-- `gaussian_eliminate`, lib/math_support.c:383-389. -/
def Mat.gaussEliminate (m : Mat) (start : Nat) : Nat → Option Mat
  | 0 => some m
  | n + 1 => (m.gaussEliminateVar start).bind (fun m' => m'.gaussEliminate start n)

/-- `pluto_matrix_product`, lib/math_support.c:433-451. -/
def Mat.product (m1 m2 : Mat) : Option Mat :=
  if m1.ncols = m2.rows.length then
    some ⟨m2.ncols, m1.rows.map (fun r => (List.range m2.ncols).map (fun j =>
      (List.range m1.ncols).foldl (fun s k => s + coef r k * coef (m2.rows[k]?.getD default) j) 0))⟩
  else none

/-- Row update of the row echelon loop, lib/math_support.c:470-477 (columns before `i` are not
touched). -/
def echelonRow (piv : List Int) (i : Nat) (row : List Int) : List Int :=
  if coef row i = 0 then row
  else
    let l := clcm (coef row i) (coef piv i)
    let factor1 := l.tdiv (coef row i)
    row.mapIdx (fun j a => if i ≤ j then a * factor1 - coef piv j * (l.tdiv (coef piv i)) else a)

/-- One iteration of the outer loop of `pluto_matrix_to_row_echelon`; the state is the matrix and the
pivot row number `r`. -/
def echelonStep (st : List (List Int) × Nat) (i : Nat) : List (List Int) × Nat :=
  let (rows, r) := st
  let rows :=
    if coef (rows[r]?.getD default) i = 0 then
      match (rows.drop (r + 1)).findIdx? (fun v => decide (coef v i ≠ 0)) with
      | some k => swapAt rows r (r + 1 + k)
      | none => rows
    else rows
  let piv := rows[r]?.getD default
  if coef piv i ≠ 0 then
    (rows.mapIdx (fun k v => if r < k then echelonRow piv i v else v), r + 1)
  else (rows, r)

/-- `pluto_matrix_to_row_echelon`, lib/math_support.c:454-484. Only the first
`min(nrows, ncols)` columns are visited. -/
def Mat.toRowEchelon (m : Mat) : Mat :=
  { m with rows := ((List.range (min m.ncols m.rows.length)).foldl echelonStep (m.rows, 0)).1 }

/-- `pluto_matrix_get_rank`, lib/math_support.c:487-504: rows whose sum of absolute values is not
zero (the sum is an `int` in C; unbounded here). -/
def Mat.getRank (m : Mat) : Nat :=
  let re := m.toRowEchelon
  re.rows.length - re.rows.countP (fun r => decide (r.foldl (fun s a => s + llabs a) 0 = 0))

/-- `pluto_matrix_reverse_rows`, lib/math_support.c:518-524. -/
def Mat.reverseRows (m : Mat) : Mat :=
  (List.range (m.rows.length / 2)).foldl
    (fun m i => { m with rows := swapAt m.rows i (m.rows.length - 1 - i) }) m

/-- The loop of `pluto_vector_is_parallel` with its state `(num, den)`. -/
def vectorIsParallelGo (num den : Int) : List Int → List Int → Bool
  | a :: as, b :: bs =>
    if a = 0 ∧ b = 0 then vectorIsParallelGo num den as bs
    else if a ≠ 0 ∧ b = 0 then false
    else if a = 0 ∧ b ≠ 0 then false
    else if num = 0 then vectorIsParallelGo a b as bs
    else if num * b ≠ den * a then false
    else vectorIsParallelGo num den as bs
  | _, _ => true

/-- `pluto_vector_is_parallel`, lib/math_support.c:644-673. -/
def vectorIsParallel (v1 v2 : List Int) : Option Bool :=
  if v1.length = v2.length then some (vectorIsParallelGo 0 0 v1 v2) else none

/-- `pluto_vector_is_normal`, lib/math_support.c:675-687. -/
def vectorIsNormal (v1 v2 : List Int) : Option Bool :=
  if v1.length = v2.length then
    some (decide ((List.zipWith (fun a b => a * b) v1 v2).foldl (fun s a => s + a) 0 = 0))
  else none

/-- `are_pluto_matrices_equal`, lib/math_support.c:710-720. -/
def Mat.equal (m1 m2 : Mat) : Bool :=
  if m1.rows.length ≠ m2.rows.length ∨ m1.ncols ≠ m2.ncols then false
  else (List.range m1.rows.length).all (fun i => (List.range m1.ncols).all (fun j =>
    decide (coef (m1.rows[i]?.getD default) j = coef (m2.rows[i]?.getD default) j)))

end Pluto
