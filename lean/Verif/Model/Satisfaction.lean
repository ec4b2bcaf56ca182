import Verif.Model.Framework

/-!
Model of dependence satisfaction and direction (lib/framework.cpp, lib/pluto.c).

Emptiness of an integer set is decided by ISL or PIP in the C code; here it is an argument
`isEmpty : Cst → Bool`. `none` stands for a failed assertion or an out-of-range access.
-/

namespace Pluto

/-- Row `level` of the transformation of statement `i`; the assertion `level < trans->nrows`. -/
def rowOf (p : Prog) (i level : Nat) : Option (List Int) := p.stmts[i]?.bind (·.trans[level]?)

/-- `dim` of statement `i`. -/
def dimOf (p : Prog) (i : Nat) : Nat := (p.stmts[i]?.map (·.dim)).getD 0

/-- The row `phi(src) - phi(dest) + k` over [source | target | parameters | 1],
lib/framework.cpp:1028-1038 (`k = 0`) and lib/framework.cpp:1277-1289 (`k = -1`). `a`, `b` are the
rows of source and target. -/
def srcMinusDest (sd dd : Nat) (a b : List Int) (k : Int) : List Int :=
  a.take sd ++ (b.take dd).map (fun v => -v) ++
    addLast (List.zipWith (fun x y => x - y) (a.drop sd) (b.drop dd)) k

/-- The row `phi(dest) - phi(src) + k`, lib/framework.cpp:1197-1210 and
lib/framework.cpp:1256-1269 (`k = -1`). -/
def destMinusSrc (sd dd : Nat) (a b : List Int) (k : Int) : List Int :=
  (a.take sd).map (fun v => -v) ++ b.take dd ++
    addLast (List.zipWith (fun x y => -x + y) (a.drop sd) (b.drop dd)) k

/-- One inequality followed by the dependence polyhedron (`pluto_constraints_add`). -/
def withRow (poly : Cst) (row : List Int) : Cst := ⟨row.length, ⟨false, row⟩ :: poly.rows⟩

/-- `dep_satisfaction_test`, lib/framework.cpp:1000-1050. -/
def depSatTest (isEmpty : Cst → Bool) (p : Prog) (d : Dep) (level : Nat) : Option Bool := do
  let a ← rowOf p d.src level
  let b ← rowOf p d.dest level
  return isEmpty (withRow d.dpoly (srcMinusDest (dimOf p d.src) (dimOf p d.dest) a b 0))

/-- `get_dep_direction`, lib/framework.cpp:1225-1369. -/
def depDirection (isEmpty : Cst → Bool) (p : Prog) (d : Dep) (level : Nat) : Option Dir := do
  let a ← rowOf p d.src level
  let b ← rowOf p d.dest level
  let pos := withRow d.dpoly (destMinusSrc (dimOf p d.src) (dimOf p d.dest) a b (-1))
  let neg := withRow d.dpoly (srcMinusDest (dimOf p d.src) (dimOf p d.dest) a b (-1))
  if isEmpty pos && isEmpty neg then return .zero
  else if isEmpty neg then return .plus
  else if isEmpty pos then return .minus
  else return .star

/-- `pluto_dep_satisfies_instance`, lib/framework.cpp:1174-1221; `left` is `depsat_poly`. The
intersection (done by ISL) is the conjunction of the rows. -/
def depSatisfiesInstance (isEmpty : Cst → Bool) (p : Prog) (d : Dep) (left : Cst) (level : Nat) :
    Option Bool := do
  let a ← rowOf p d.src level
  let b ← rowOf p d.dest level
  return !isEmpty (withRow left (destMinusSrc (dimOf p d.src) (dimOf p d.dest) a b (-1)))

/-- `pluto_dep_remove_satisfied_instances`, lib/framework.cpp:1061-1112: the new `depsat_poly`. Its
return value (which tests the wrong set) is not used by any caller. -/
def depRemoveSatisfied (p : Prog) (d : Dep) (left : Cst) (level : Nat) : Option Cst := do
  let a ← rowOf p d.src level
  let b ← rowOf p d.dest level
  return withRow left (srcMinusDest (dimOf p d.src) (dimOf p d.dest) a b 0)

/-- Inner loop of `pluto_compute_dep_satisfaction_precise` over the levels `level, level+1, ...`
(`n` of them): the satisfaction vector (padded with 0 after the break), the satisfaction level and
the flag. -/
def preciseLevels (isEmpty : Cst → Bool) (p : Prog) (d : Dep) :
    Nat → Nat → Cst → Int → Option (List Bool × Int × Bool)
  | 0, _, _, sat => some ([], sat, false)
  | n + 1, level, left, sat => do
    let v ← depSatisfiesInstance isEmpty p d left level
    let left' ← depRemoveSatisfied p d left level
    let sat' := if v then max sat (level : Int) else sat
    if isEmpty left' then return (v :: List.replicate n false, sat', true)
    else
      let (vs, s, f) ← preciseLevels isEmpty p d n (level + 1) left' sat'
      return (v :: vs, s, f)

/-- One dependence in `pluto_compute_dep_satisfaction_precise`. -/
def preciseDep (isEmpty : Cst → Bool) (p : Prog) (d : Dep) : Option Dep := do
  let (v, s, f) ← preciseLevels isEmpty p d p.hProps.length 0 d.dpoly (-1)
  return { d with satvec := v, satLevel := s, satisfied := f }

/-- `pluto_compute_dep_satisfaction_precise`, lib/framework.cpp:1118-1171; the result counts the
satisfied non-input dependences. -/
def computeDepSatisfactionPrecise (isEmpty : Cst → Bool) (p : Prog) : Option (Prog × Nat) := do
  let ds ← p.deps.mapM (preciseDep isEmpty p)
  return ({ p with deps := ds }, (ds.filter (fun d => d.satisfied && !d.rar)).length)

/-- Body of the loop of `dep_satisfaction_update`. -/
def satUpdateDep (isEmpty : Cst → Bool) (p : Prog) (level : Nat) (d : Dep) : Option Dep :=
  if d.satisfied then some d
  else do
    let b ← depSatTest isEmpty p d level
    return if b then { d with satisfied := true, satLevel := (level : Int) } else d

/-- `dep_satisfaction_update`, lib/pluto.c:60-89: new program and number of newly satisfied
non-input dependences. -/
def depSatUpdate (isEmpty : Cst → Bool) (p : Prog) (level : Nat) : Option (Prog × Nat) := do
  let ds ← p.deps.mapM (satUpdateDep isEmpty p level)
  return ({ p with deps := ds },
    ((p.deps.zip ds).filter (fun x => !x.1.satisfied && x.2.satisfied && !x.1.rar)).length)

/-- `deps_satisfaction_check`, lib/pluto.c:92-103. -/
def depsSatCheck (p : Prog) : Bool := p.deps.all (fun d => d.rar || d.satisfied)

/-- `pluto_dep_satisfaction_reset`, lib/pluto.c:105-115. -/
def depSatReset (p : Prog) : Prog :=
  { p with deps := p.deps.map (fun d => { d with satisfied := false, satLevel := -1 }) }

/-- The satisfaction vector set in `pluto_compute_dep_satisfaction`; `none` when the direction
vector is missing. -/
def satvecOf (n : Nat) (d : Dep) : Option (List Bool) :=
  (List.range n).mapM (fun l : Nat => (d.dirvec[l]?).map (fun dir =>
    decide (dir ≠ Dir.zero ∧ (d.satLevel ≥ (l : Int) ∨ d.satLevel = -1))))

/-- The satisfaction updates for levels `0 .. n-1`. -/
def satUpdates (isEmpty : Cst → Bool) (p : Prog) : Nat → Option Prog
  | 0 => some p
  | n + 1 => do
    let p' ← satUpdates isEmpty p n
    return (← depSatUpdate isEmpty p' n).1

/-- `pluto_compute_dep_satisfaction`, lib/pluto.c:122-156. -/
def computeDepSatisfaction (isEmpty : Cst → Bool) (p : Prog) : Option Prog := do
  let p' ← satUpdates isEmpty (depSatReset p) p.hProps.length
  let ds ← p'.deps.mapM (fun d => if d.rar then some d else do
    let v ← satvecOf p.hProps.length d
    return { d with satvec := v })
  return { p' with deps := ds }

/-- `pluto_compute_dep_directions`, lib/pluto.c:1027-1041. -/
def computeDepDirections (isEmpty : Cst → Bool) (p : Prog) : Option Prog := do
  let ds ← p.deps.mapM (fun d => do
    let v ← (List.range p.hProps.length).mapM (depDirection isEmpty p d)
    return { d with dirvec := v })
  return { p with deps := ds }

/-- `pluto_is_hyperplane_scalar`, lib/program.cpp:1866-1875. -/
def isHyperplaneScalar (st : Stmt) (level : Nat) : Option Bool := do
  let r ← st.trans[level]?
  return (r.take st.dim).all (fun v => v == 0)

/-- `pluto_detect_hyperplane_types`, lib/pluto.c:1054-1065: a level is a loop if some statement has a
non-zero coefficient there. Levels are assumed present in every statement (padded). -/
def detectHyperplaneTypes (p : Prog) : Option Prog := do
  let hs ← (List.range p.hProps.length).mapM (fun l => do
    let bs ← p.stmts.mapM (isHyperplaneScalar · l)
    return if bs.all id then HypType.scalar else HypType.loop)
  return { p with hProps := hs }

end Pluto
