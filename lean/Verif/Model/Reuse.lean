import Verif.Model.Remap
import Verif.Model.Mark

/-!
Model of the reuse cost model: which accesses of a loop are invariant or have a short stride
(lib/post_transform.c, lib/polyloop.c), which loop is best for vectorization, how many different accesses a
set of statements has (lib/program.cpp), and when unroll-jam is taken to be profitable (lib/polyloop.c).
`none` stands for a failed assertion or an index out of range. Counts and scores are unbounded integers (C:
`int` and `unsigned`).
-/

namespace Pluto

/-- `PlutoAccess`, lib/pluto.h: the array (its name, as a number) and the access function. -/
structure Access where
  arr : Nat
  mat : Mat
deriving DecidableEq, Repr

/-- The accesses of every statement: the reads followed by the writes (`stmt->reads`, `stmt->writes`). -/
abbrev Accs := Nat → List Access

/-- The accesses of some statements with the statements that make them, in the order of the loops over statements,
reads and writes of lib/polyloop.c:464-477, lib/post_transform.c:63-76 and lib/program.cpp:2410-2440. -/
def accsOf (A : Accs) (stmts : List Nat) : List (Nat × Access) :=
  stmts.flatMap (fun i => (A i).map (fun a => (i, a)))

/-- `pluto_create_new_access`, lib/program.cpp:2368-2375, on the result of `pluto_get_new_access_func`,
lib/program.cpp:1991-2027: the divisors are dropped. -/
def newAccess (p : Prog) (i : Nat) (a : Access) : Option Access := do
  let st ← p.stmts[i]?
  let (m, _) ← newAccessFunc st.dim p.npar st.trans a.mat
  return ⟨a.arr, m⟩

/-- `is_access_invariant`, lib/program.cpp:2477-2483. -/
def accInvariant (m : Mat) (depth : Nat) : Bool := m.rows.all (fun r => decide (coef r depth = 0))

/-- `is_invariant`, lib/polyloop.c:449-462. -/
def isInvariant (p : Prog) (i : Nat) (a : Access) (depth : Nat) : Option Bool := do
  let m ← newAccess p i a
  if depth ≤ m.mat.ncols - 1 then return accInvariant m.mat depth else none

/-- `SHORT_STRIDE`, lib/post_transform.c:30. -/
def shortStride : Int := 4

/-- `has_spatial_reuse`, lib/post_transform.c:32-61. -/
def hasSpatialReuse (p : Prog) (i : Nat) (a : Access) (depth : Nat) : Option Bool := do
  let m ← newAccess p i a
  if depth ≤ m.mat.ncols - 1 then
    match m.mat.rows.getLast? with
    | none => return false
    | some r =>
      if m.mat.rows.dropLast.any (fun r => decide (coef r depth ≠ 0)) then return false
      else return decide (1 ≤ coef r depth ∧ coef r depth ≤ shortStride)
  else none

/-- `get_num_accesses`, lib/polyloop.c:438-445. -/
def numAccesses (A : Accs) (l : Loop) : Nat := (accsOf A l.stmts).length

/-- `get_num_invariant_accesses`, lib/polyloop.c:464-477. -/
def numInvariant (p : Prog) (A : Accs) (l : Loop) : Option Nat := do
  let bs ← (accsOf A l.stmts).mapM (fun x => isInvariant p x.1 x.2 l.depth)
  return bs.count true

/-- `get_num_spatial_accesses`, lib/post_transform.c:63-76. -/
def numSpatial (p : Prog) (A : Accs) (l : Loop) : Option Nat := do
  let bs ← (accsOf A l.stmts).mapM (fun x => hasSpatialReuse p x.1 x.2 l.depth)
  return bs.count true

/-- `pluto_loop_is_vectorizable`, lib/post_transform.c:101-118. -/
def loopIsVectorizable (p : Prog) (A : Accs) (l : Loop) : Option Bool := do
  if (← loopIsParallel p l) then do
    let s ← numSpatial p A l
    let t ← numInvariant p A l
    return decide (1 ≤ numAccesses A l ∧ numAccesses A l = s + t)
  else return false

/-- The score of a loop in `get_best_vectorizable_loop`, lib/post_transform.c:232-262. -/
def loopScore (p : Prog) (A : Accs) (l : Loop) : Option Int := do
  let s ← numSpatial p A l
  let t ← numInvariant p A l
  let v ← loopIsVectorizable p A l
  return (2 * (s : Int) + 4 * t + 8 * (if v then 1 else 0) - 16 * ((numAccesses A l : Int) - s - t)) * l.stmts.length

/-- One round of the loop of `get_best_vectorizable_loop`, lib/post_transform.c:232-262: `max_score` and
`best_loop`. -/
def bestStep (p : Prog) (A : Accs) (s : Int × Option Loop) (l : Loop) : Option (Int × Option Loop) := do
  let sc ← loopScore p A l
  return if sc > s.1 then (sc, some l) else s

/-- `get_best_vectorizable_loop`, lib/post_transform.c:232-262; the inner `none` is NULL, `max_score` starts at
`INT_MIN`. -/
def bestVectorizable (p : Prog) (A : Accs) (ls : List Loop) : Option (Option Loop) := do
  let s ← ls.foldlM (bestStep p A) (-(2 ^ 31), none)
  return s.2

/-- `insert_access_if_unique`, lib/program.cpp:2398-2407, with `are_pluto_accesses_same` (lib/program.cpp:2378-2384:
array and access function). -/
def insertUnique (l : List Access) (a : Access) : List Access := if l.contains a then l else l ++ [a]

/-- `get_unique_accesses_in_stmts`, lib/program.cpp:2412-2441. -/
def uniqueAccesses (p : Prog) (A : Accs) (stmts : List Nat) : Option (List Access) := do
  let ns ← (accsOf A stmts).mapM (fun x => newAccess p x.1 x.2)
  return ns.foldl insertUnique []

/-- `get_num_unique_accesses_in_stmts`, lib/program.cpp:2461-2471. -/
def numUnique (p : Prog) (A : Accs) (stmts : List Nat) : Option Nat := do
  return (← uniqueAccesses p A stmts).length

/-- `get_num_invariant_accesses_in_stmts`, lib/program.cpp:2487-2502. -/
def numUniqueInvariant (p : Prog) (A : Accs) (stmts : List Nat) (depth : Nat) : Option Nat := do
  return ((← uniqueAccesses p A stmts).filter (fun a => accInvariant a.mat depth)).length

/-- The statements of a loop with the most iterators (`get_max_dim`, lib/polyloop.c:480-488, and the loops at
lib/polyloop.c:501-506 and 530-536); `stmts` is not empty in C. -/
def deepStmts (p : Prog) (stmts : List Nat) : Option (List Nat) := do
  let ds ← stmts.mapM (fun i => (p.stmts[i]?).map (·.dim))
  return ((stmts.zip ds).filter (fun x => decide (x.2 = ds.foldl max 0))).map (·.1)

/-- The groups of statements that the cost function looks at: for every innermost loop under the loop
(`pluto_get_loops_under`, `pluto_loop_is_innermost`), its statements with the most iterators,
lib/polyloop.c:490-547. -/
def innermostGroups (p : Prog) (l : Loop) : Option (List (List Nat)) := do
  let ls ← getLoopsUnder p l.stmts l.depth
  let inner ← ls.mapM (loopIsInnermost p)
  (((ls.zip inner).filter (·.2)).map (·.1)).mapM (fun m => deepStmts p m.stmts)

/-- `get_max_num_innermost_invariant_accesses`, lib/polyloop.c:490-516. -/
def maxInvariant (p : Prog) (A : Accs) (l : Loop) : Option Nat := do
  let gs ← innermostGroups p l
  let ns ← gs.mapM (fun g => numUniqueInvariant p A g l.depth)
  return ns.foldl max 0

/-- `get_max_num_innermost_accesses`, lib/polyloop.c:519-547. -/
def maxUnique (p : Prog) (A : Accs) (l : Loop) : Option Nat := do
  let gs ← innermostGroups p l
  let ns ← gs.mapM (numUnique p A)
  return ns.foldl max 0

/-- `NUM_TOTAL_REGISTERS`, lib/polyloop.c:27. -/
def numRegisters : Int := 32

/-- `is_unroll_jam_profitable`, lib/polyloop.c:553-573, with `options->ufactor`. -/
def unrollJamProfitable (p : Prog) (A : Accs) (ufactor : Nat) (l : Loop) : Option Bool := do
  let t ← maxInvariant p A l
  if t = 0 then return false
  else do
    let a ← maxUnique p A l
    return decide (0 ≤ numRegisters - ((a : Int) * ufactor - t * (ufactor - 1)))

end Pluto
