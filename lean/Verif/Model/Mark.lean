import Verif.Model.Diamond
import Verif.Model.Transforms

/-!
Choice of the loops that are marked for OpenMP, vectorization and unroll-jam: the rest of lib/polyloop.c and
tool/ast_transform.c. The loops of the CLooG AST are given as a list; their nesting is not represented.
-/

namespace Pluto

/-- Does any of the loops in the list dominate this one? -/
def dominatedByAny (p : Prog) (ls : List Loop) (l : Loop) : Option Bool := do
  let bs ← ls.mapM (isLoopDominated p l)
  return bs.any id

/-- The loops of a list that none of it dominates. -/
def undominated (p : Prog) (ls : List Loop) : Option (List Loop) := do
  let bs ← ls.mapM (dominatedByAny p ls)
  return ((ls.zip bs).filter (fun x => !x.2)).map (·.1)

/-- `pluto_get_dom_parallel_loops`, lib/polyloop.c:633-656. -/
def domParallelLoops (p : Prog) : Option (List Loop) := do
  let ls ← parallelLoops p
  undominated p ls

/-- `pluto_get_outermost_loops`, lib/polyloop.c:659-680. -/
def outermostLoops (p : Prog) : Option (List Loop) := do
  let ls ← getAllLoops p
  undominated p ls

/-- `pluto_get_innermost_loops`, lib/polyloop.c:999-1016. -/
def innermostLoops (p : Prog) : Option (List Loop) := do
  let ls ← getAllLoops p
  let bs ← ls.mapM (loopIsInnermost p)
  return ((ls.zip bs).filter (·.2)).map (·.1)

/-- The test applied to one dependence at one depth in `pluto_get_parallel_band`, lib/polyloop.c:833-880: does it
end the band? -/
def breaksParallel (l : Loop) (depth : Nat) (d : Dep) : Option Bool :=
  if d.rar then some false
  else if !(l.stmts.contains d.src && l.stmts.contains d.dest) then some false
  else if d.satLevel < (l.depth : Int) then some false
  else d.satvec[depth]?

/-- The `do ... while` loop of `pluto_get_parallel_band`, lib/polyloop.c:833-880, with `n` levels left; the
depth at which it stops. -/
def parallelEnd (p : Prog) (l : Loop) : Nat → Nat → Option Nat
  | 0, depth => some depth
  | n + 1, depth => do
    let bs ← p.deps.mapM (breaksParallel l depth)
    if bs.any id then return depth else parallelEnd p l n (depth + 1)

/-- `while (depth >= loop->depth + 1 && pluto_is_depth_scalar(loop, depth - 1)) depth--`, lib/polyloop.c:869-870,
`depth = loop->depth + n`. -/
def peelParallel (p : Prog) (l : Loop) : Nat → Option Nat
  | 0 => some 0
  | n + 1 => do
    if (← isDepthScalar p l (l.depth + n)) then peelParallel p l n else return n + 1

/-- `while (d <= depth - 2 && !pluto_is_depth_scalar(loop, d + 1)) d++`, lib/polyloop.c:872-874, with `n` levels
left. -/
def splitLevel (p : Prog) (l : Loop) : Nat → Nat → Option Nat
  | 0, d => some d
  | n + 1, d => do
    if (← isDepthScalar p l (d + 1)) then return d else splitLevel p l n (d + 1)

/-- `pluto_get_parallel_band`, lib/polyloop.c:833-880: the band and `innermost_split_level`. -/
def parallelBand (p : Prog) (l : Loop) : Option (Band × Nat) := do
  if (← isDepthScalar p l l.depth) then none
  else do
    let depth ← parallelEnd p l (max (p.hProps.length - l.depth) 1) l.depth
    let width ← peelParallel p l (depth - l.depth)
    let split ← splitLevel p l (width - 1) l.depth
    return (⟨l, width⟩, split)

/-- `pluto_get_dom_parallel_bands`, lib/polyloop.c:909-940. -/
def domParallelBands (p : Prog) : Option (List (Band × Nat)) := do
  let ls ← domParallelLoops p
  ls.mapM (parallelBand p)

/-- A loop of the AST: its iterator is `t` followed by `depth + 1`; the statements below it. -/
structure AstLoop where
  depth : Nat
  stmts : List Nat
deriving DecidableEq, Repr

/-- `clast_filter` of CLooG with the iterator of the loop, its statements, and `subset`. -/
def clastFilter (ast : List AstLoop) (l : Loop) : List AstLoop :=
  ast.filter (fun a => decide (a.depth = l.depth) && a.stmts.all (fun s => l.stmts.contains s))

/-- The `do ... while` loop of `pluto_mark_parallel`, tool/ast_transform.c:23-127, for one band; the number
bounds the steps (the depth grows). The AST loops that are marked. -/
def markBand (p : Prog) (ast : List AstLoop) (b : Band) : Nat → Loop → Option (List AstLoop)
  | 0, _ => some []
  | n + 1, l =>
    if clastFilter ast l ≠ [] then some (clastFilter ast l)
    else do
      let inner ← loopsImmediatelyInner p l
      match inner with
      | [] => return []
      | m :: _ => if m.depth > b.loop.depth + b.width then return [] else markBand p ast b n m

/-- `pluto_mark_parallel`, tool/ast_transform.c:23-127, with `options->parallel`; asserts that bands are not
empty. The private variables are not modelled. -/
def markParallel (p : Prog) (ast : List AstLoop) : Option (List AstLoop) := do
  let ls ← domParallelLoops p
  let bands ← ls.mapM (parallelBand p)
  if bands.any (fun b => decide (b.1.width = 0)) then none
  else do
    let ms ← bands.mapM (fun b => markBand p ast b.1 (p.hProps.length + 1) b.1.loop)
    return ms.flatten

/-- `pluto_mark_vector`, tool/ast_transform.c:192-243: the AST loops that are marked. -/
def markVector (p : Prog) (ast : List AstLoop) : Option (List AstLoop) := do
  let ls ← parallelLoops p
  let bs ← ls.mapM (loopIsInnermost p)
  return (((ls.zip bs).filter (·.2)).map (fun x => clastFilter ast x.1)).flatten

/-- `pluto_get_innermost_permutable_bands`, lib/polyloop.c:1019-1047. -/
def innermostBands (p : Prog) (tiledLevels : Nat) : Option (List Band) := do
  let loops ← getAllLoops p
  let bands ← loops.mapM (permutableBand p)
  let ok ← (bands.filterMap id).mapM (fun b => isBandInnermost p b tiledLevels)
  return dominatorBands ((((bands.filterMap id).zip ok).filter (·.2)).map (·.1))

/-- `pluto_get_unroll_jam_loops`, lib/polyloop.c:576-606. `want` says that a loop is not a tile space loop
(`is_tile_space_loop`) and that unroll-jam pays off (`is_unroll_jam_profitable`); both are left open. -/
def unrollJamLoops (p : Prog) (want : Loop → Bool) : Option (List Loop) := do
  let bands ← innermostBands p 1
  let ls ← bands.mapM (fun b => do
    let loops ← getLoopsUnder p b.loop.stmts b.loop.depth
    let inner ← loops.mapM (loopIsInnermost p)
    return ((loops.zip inner).filter (fun x => want x.1 && !x.2)).map (·.1))
  return ls.flatten

end Pluto
