import Verif.Model.TileSizes
import Mathlib.Data.Nat.Sqrt

/-!
Model of the tile volume in lib/tile_size_selection_model.cpp: the data that one tile touches as a polynomial in one variable, and
its root. The numbers are `double` in C; the model has natural numbers and integers for them (reuse counts, 512 and 32 are integers),
and exact square roots and powers.
-/

namespace Pluto

/-- `get_linearly_independent_rows_in_mat`, lib/tile_size_selection_model.cpp:217-232. `pluto_matrix_remove_row` on the last of the
rows in view (lib/math_support.c:77-88) only lowers `nrows`; the rows behind it stay where they are. -/
def independentRows (m : Mat) : Mat :=
  if m.getRank = m.rows.length then m
  else ⟨m.ncols, m.rows.take ((List.range m.rows.length).foldl (fun k _ =>
    if (⟨m.ncols, m.rows.take (k + 1)⟩ : Mat).getRank = k + 1 then k + 1 else k) 0)⟩

/-- What the computation of the footprint takes from the object `TileSizeSelectionModel` and the band: the reuse of each dimension,
the vector dimension, the parallel dimension, whether there is pipelined parallelism, and the depth of the band,
lib/tile_size_selection_model.cpp:14-64 and 240. -/
structure FootCfg where
  reuse : List Nat
  vectorDim : Nat
  par : Nat
  wave : Bool
  depth : Nat

/-- The local variables for one row of the access, lib/tile_size_selection_model.cpp:262-266. -/
structure FootRow where
  gamma : Nat
  vec : Bool
  other : Bool
  par : Bool
  pipe : Nat
deriving DecidableEq, Repr

/-- The inner loop of `compute_tile_footprint_coefficient_for_access`, lib/tile_size_selection_model.cpp:267-301, for the loop at
level `l`; `none`: an index is out of range. -/
def footLoop (c : FootCfg) (row : List Int) (s : FootRow) (l : Nat) : Option FootRow := do
  let a ← row[l]?
  if a < 1 then return s
  else if l - c.depth = c.vectorDim then return { s with vec := true }
  else if l - c.depth = c.par then return { s with par := true }
  else if c.wave ∧ (l = c.depth ∨ l = c.depth + 1) then return { s with pipe := s.pipe + 1 }
  else do
    let r ← c.reuse[l - c.depth]?
    return { s with other := true, gamma := s.gamma + r }

/-- The outer loop, lib/tile_size_selection_model.cpp:261-325, for one row: coefficient and degree. -/
def footRow (c : FootCfg) (loops : List Nat) (g : Nat × Nat) (row : List Int) : Option (Nat × Nat) := do
  let s ← loops.foldlM (footLoop c row) ⟨0, false, false, false, 0⟩
  let x := if 0 < s.gamma then (if g.1 = 0 then s.gamma else g.1 * s.gamma) else g.1
  let x := if s.vec then (if x = 0 then 512 else x * 512) else x
  let x := if s.par then x * 32 else x
  let x := if 0 < s.pipe then x * s.pipe * 32 else x
  return (x, if s.other then g.2 + 1 else g.2)

/-- `compute_tile_footprint_coefficient_for_access`, lib/tile_size_selection_model.cpp:237-330; the coefficient is 0 before the call. -/
def footprint (c : FootCfg) (loops : List Nat) (m : Mat) : Option (Nat × Nat) :=
  if m.rows = [] then some (0, 0) else (independentRows m).rows.foldlM (footRow c loops) (0, 0)

/-- `reuse_polynomial[degree] += coefficient` with the `resize` before it, lib/tile_size_selection_model.cpp:380-394. -/
def addCoeff (poly : List Int) (f : Nat × Nat) : List Int :=
  let q := poly ++ List.replicate (f.2 + 1 - poly.length) 0
  q.set f.2 (q.getD f.2 0 + f.1)

/-- `construct_expression_for_tile_volume`, lib/tile_size_selection_model.cpp:335-407, on the access matrices of the band; `cache` is
`num_data_elements_in_cache`; `none`: an index is out of range, in particular `reuse_polynomial[0]` of an empty vector. The order of
the `std::set` of pointers is taken to be that of the list. -/
def volumePoly (c : FootCfg) (loops : List Nat) (ms : List Mat) (cache : Nat) : Option (List Int) := do
  let fs ← (ms.filter (fun m => decide (m.getRank ≠ 0))).mapM (footprint c loops)
  match fs.foldl addCoeff [] with
  | [] => none
  | a :: poly => return (a - cache) :: poly

/-- `solve_quadratic_equation`, lib/tile_size_selection_model.cpp:77-89, and the conversion at line 124: the integer part of
`(-b + sqrt(b * b - 4 * a * c)) / (2 * a)`; `none`: an assertion fails, or `a` is 0 and there is no number to convert. (`a` is never
negative.) -/
def quadRoot (c b a : Int) : Option Nat :=
  if b * b - 4 * a * c < 0 ∨ a ≤ 0 then none
  else
    let r := ((Nat.sqrt (b * b - 4 * a * c).toNat : Int) - b) / (2 * a)
    if r < 0 then none else some r.toNat

/-- `pow(base, 1 / k)` as converted at lib/tile_size_selection_model.cpp:126-129: the integer part of the `k`-th root of `n / lead`. -/
def powRoot (n lead k : Nat) : Nat := Nat.findGreatest (fun r => lead * r ^ k ≤ n) n

/-- `solve_reuse_expression`, lib/tile_size_selection_model.cpp:113-130; `none`: an assertion fails, or the leading coefficient is 0. -/
def solvePoly (poly : List Int) : Option Nat :=
  if poly.length < 2 then some 0
  else if 0 ≤ poly.getD 0 0 then none
  else if poly.length = 3 then quadRoot (poly.getD 0 0) (poly.getD 1 0) (poly.getD 2 0)
  else if poly.getD (poly.length - 1) 0 ≤ 0 then none
  else some (powRoot (-(poly.getD 0 0)).toNat (poly.getD (poly.length - 1) 0).toNat (poly.length - 1))

/-- The root for a band, lib/tile_size_selection_model.cpp:199-213 (accesses), 335-407 and 113-130: what `findSizes` takes as `root`. -/
def reuseRoot (c : FootCfg) (A : Accs) (cache : Nat) (p : Prog) (b : Band) : Option Nat := do
  let loops ← getLoopsUnder p b.loop.stmts b.loop.depth
  let accs ← uniqueAccesses p A b.loop.stmts
  let poly ← volumePoly c (loops.map (·.depth)) (accs.map (·.mat)) cache
  solvePoly poly

end Pluto
