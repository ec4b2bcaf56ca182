import Verif.Model.Auto

/-!
Model of lib/polyloop.c: loops of the scattering tree, parallel loops, permutable bands. `none` stands
for a failed assertion or an out-of-range access. All statements are taken to be of type ORIG (the only
type produced by the front ends for the statements of the source program). Statements are represented
by their index in `prog->stmts`, which is their `id`.
-/

namespace Pluto

/-- `Ploop`, lib/pluto.h: a loop dimension of the scattering tree with its statements. -/
structure Loop where
  depth : Nat
  stmts : List Nat
deriving DecidableEq, Repr

/-- `Band`, lib/pluto.h. -/
structure Band where
  loop : Loop
  width : Nat
deriving DecidableEq, Repr

/-- `pluto_is_hyperplane_scalar`, lib/program.cpp:1866-1875, for statement number `i`. -/
def scalarAt (p : Prog) (level i : Nat) : Option Bool := p.stmts[i]?.bind (isHyperplaneScalar · level)

/-- `stmt->trans->val[depth][ncols - 1]`. -/
def constAt (p : Prog) (level i : Nat) : Option Int := do
  let st ← p.stmts[i]?
  let r ← st.trans[level]?
  r.getLast?

/-- The regrouping loop of `pluto_get_loops_under`, lib/polyloop.c:117-230: a statement joins the
first group whose first statement has the same constant, or opens a new group at the end. -/
def addToGroup (p : Prog) (level i : Nat) : List (List Nat) → Option (List (List Nat))
  | [] => some [[i]]
  | g :: gs => do
    let j ← g[0]?
    if (← constAt p level i) = (← constAt p level j) then return (g ++ [i]) :: gs
    else return g :: (← addToGroup p level i gs)

/-- All statements regrouped. -/
def regroup (p : Prog) (level : Nat) (stmts : List Nat) : Option (List (List Nat)) :=
  stmts.foldlM (fun gs i => addToGroup p level i gs) []

/-- `pluto_get_loops_under`, lib/polyloop.c:117-230; `n` is `num_hyperplanes - depth`. -/
def loopsUnder (p : Prog) : Nat → Nat → List Nat → Option (List Loop)
  | 0, _, _ => some []
  | n + 1, depth, stmts => do
    let sc ← stmts.mapM (scalarAt p depth)
    if sc.any (fun b => !b) then do
      let inner ← loopsUnder p n (depth + 1) stmts
      return inner ++ [⟨depth, ((stmts.zip sc).filter (fun x => !x.2)).map (·.1)⟩]
    else do
      let groups ← regroup p depth stmts
      let ls ← groups.mapM (loopsUnder p n (depth + 1))
      return ls.flatten

/-- `pluto_get_loops_under` as called: `depth` may be any number. -/
def getLoopsUnder (p : Prog) (stmts : List Nat) (depth : Nat) : Option (List Loop) :=
  loopsUnder p (p.hProps.length - depth) depth stmts

/-- `pluto_get_all_loops`, lib/polyloop.c:232-236. -/
def getAllLoops (p : Prog) : Option (List Loop) := getLoopsUnder p (List.range p.stmts.length) 0

/-- `pluto_loop_is_parallel`, lib/polyloop.c:279-314. `dep_prop` is never set to PARALLEL anywhere in
the code, so that test is left out. `none`: a satisfaction vector is missing. -/
def loopIsParallel (p : Prog) (l : Loop) : Option Bool := do
  let bs ← (p.deps.filter (fun d => !d.rar && l.stmts.contains d.src && l.stmts.contains d.dest)).mapM
    (fun d => d.satvec[l.depth]?)
  return bs.all (fun b => !b)

/-- `is_loop_dominated`, lib/polyloop.c:400-420. -/
def isLoopDominated (p : Prog) (l1 l2 : Loop) : Option Bool :=
  if l2.depth ≥ l1.depth then some false
  else do
    let s1 ← l1.stmts[0]?
    let s2 ← l2.stmts[0]?
    let bs ← (List.range (l2.depth + 1)).mapM (fun i => do
      if (← scalarAt p i s1) && (← scalarAt p i s2) then
        return decide ((← constAt p i s1) = (← constAt p i s2))
      else return true)
    return bs.all id

/-- `is_band_dominated`, lib/polyloop.c:730-743. -/
def isBandDominated (b1 b2 : Band) : Bool :=
  let sub := b1.loop.stmts.all (fun s => b2.loop.stmts.contains s)
  (sub && decide (b1.loop.depth > b2.loop.depth)) ||
    (sub && decide (b1.loop.depth = b2.loop.depth) && decide (b1.width < b2.width))

/-- `pluto_is_depth_scalar`, lib/polyloop.c:761-771 (asserts `depth >= loop->depth`). -/
def isDepthScalar (p : Prog) (l : Loop) (depth : Nat) : Option Bool :=
  if depth < l.depth then none
  else do
    let bs ← l.stmts.mapM (scalarAt p depth)
    return bs.all id

/-- The test applied to one dependence at one depth in `pluto_get_permutable_band`,
lib/polyloop.c:775-826: does it end the band? -/
def breaksBand (p : Prog) (l : Loop) (depth : Nat) (d : Dep) : Option Bool :=
  if d.rar then some false
  else if d.satLevel < (l.depth : Int) then some false
  else if d.satisfied = false then some false
  else do
    if (← isDepthScalar p l d.satLevel.toNat) then return false
    else if l.stmts.contains d.src && l.stmts.contains d.dest then do
      let dir ← d.dirvec[depth]?
      return decide (dir = .star ∨ dir = .minus)
    else return false

/-- The `do ... while` loop of `pluto_get_permutable_band`, lib/polyloop.c:775-826, with `n` levels
left; the depth at which it stops. -/
def bandEnd (p : Prog) (l : Loop) : Nat → Nat → Option Nat
  | 0, depth => some depth
  | n + 1, depth => do
    let bs ← p.deps.mapM (breaksBand p l depth)
    if bs.any id then return depth else bandEnd p l n (depth + 1)

/-- `while (pluto_is_depth_scalar(loop, depth - 1)) depth--`, lib/polyloop.c:813-814, `depth = base + n`
with `base = loop->depth`. -/
def peelScalar (p : Prog) (l : Loop) : Nat → Option Nat
  | 0 => none
  | n + 1 => do
    if (← isDepthScalar p l (l.depth + n)) then peelScalar p l n else return n + 1

/-- `pluto_get_permutable_band`, lib/polyloop.c:775-826; the inner `none` is the NULL result (trivial
band). -/
def permutableBand (p : Prog) (l : Loop) : Option (Option Band) := do
  let depth ← bandEnd p l (max (p.hProps.length - l.depth) 1) l.depth
  let width ← peelScalar p l (depth - l.depth)
  return if width = 1 then none else some ⟨l, width⟩

/-- `pluto_get_dominator_bands`, lib/polyloop.c:883-904. -/
def dominatorBands (bands : List Band) : List Band :=
  bands.filter (fun b => !bands.any (isBandDominated b))

/-- `pluto_get_outermost_permutable_bands`, lib/polyloop.c:943-969. -/
def outermostBands (p : Prog) : Option (List Band) := do
  let loops ← getAllLoops p
  let bands ← loops.mapM (permutableBand p)
  return dominatorBands (bands.filterMap id)

/-- `pluto_get_parallel_loops`, lib/polyloop.c:609-630. -/
def parallelLoops (p : Prog) : Option (List Loop) := do
  let loops ← getAllLoops p
  let bs ← loops.mapM (loopIsParallel p)
  return ((loops.zip bs).filter (·.2)).map (·.1)

/-- `pluto_loop_is_innermost`, lib/polyloop.c:971-980. -/
def loopIsInnermost (p : Prog) (l : Loop) : Option Bool := do
  let loops ← getLoopsUnder p l.stmts (l.depth + 1)
  return loops.isEmpty

end Pluto
