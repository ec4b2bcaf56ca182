import Verif.Model.Polyloop
import Verif.Model.StmtEdit
import Verif.Model.Tile

/-!
Model of diamond tiling (lib/pluto.c, lib/framework.cpp, lib/polyloop.c). `none` stands for a failed
assertion or an out-of-range access. All statements are of type ORIG. Printing is left out.
-/

namespace Pluto

/-! ### Loops -/

/-- `pluto_get_loops_immediately_inner`, lib/polyloop.c:89-110. -/
def loopsImmediatelyInner (p : Prog) (l : Loop) : Option (List Loop) :=
  (getLoopsUnder p l.stmts l.depth).map (·.filter (fun m => decide (m.depth = l.depth + 1)))

/-- `pluto_loop_is_parallel_for_stmt`, lib/polyloop.c:321-353 (`dep_prop` is never PARALLEL). -/
def loopIsParallelForStmt (p : Prog) (l : Loop) (i : Nat) : Option Bool := do
  let bs ← (p.deps.filter (fun d => !d.rar && decide (d.src = i) && decide (d.dest = i))).mapM
    (fun d => d.satvec[l.depth]?)
  return bs.all (fun b => !b)

/-- `pluto_loop_has_satisfied_dep_with_component`, lib/polyloop.c:242-277. -/
def hasSatisfiedDepWithComponent (p : Prog) (l : Loop) : Option Bool := do
  let bs ← (p.deps.filter (fun d => !d.rar && l.stmts.contains d.src && l.stmts.contains d.dest &&
      decide (d.satLevel < (l.depth : Int)))).mapM (fun d => d.dirvec[l.depth]?)
  return bs.any (fun dir => decide (dir ≠ Dir.zero))

/-- "Band should have inner parallelism": every loop immediately inside is parallel for every statement
of the band, lib/pluto.c:2180-2197. -/
def innerParallel (p : Prog) (b : Band) (inner : List Loop) : Option Bool := do
  let bs ← inner.mapM (fun l => do
    let cs ← b.loop.stmts.mapM (loopIsParallelForStmt p l)
    return cs.all id)
  return bs.all id

/-- "Pure Inner parallelism should be lost via tiling", lib/pluto.c:2199-2206. -/
def innerParallelLost (p : Prog) (inner : List Loop) : Option Bool := do
  let bs ← inner.mapM (hasSatisfiedDepWithComponent p)
  return bs.all id

/-! ### Face with concurrent start -/

/-- `get_face_with_concurrent_start_for_stmts` and `get_face_with_concurrent_start`,
lib/framework.cpp:1467-1557. The rows are in the order of the statement numbers, whatever
the order of `stmts`. The inner `none` is the NULL result. -/
def concStartFaces (o : SearchOpts) (L : Libs) (p : Prog) (stmts : List Nat) :
    Option (Option (List (List Int))) := do
  match (← progLexmin o.dfp L.solve p (addCst (feautrierConstraints o.rar p stmts) (coeffBoundConstraints o p))) with
  | none => return none
  | some sol =>
    let faces := ((List.range p.stmts.length).filter (fun s => stmts.contains s)).map
      (fun s => hyperplaneRow p.nvar p.npar sol s)
    if faces.all (fun f => decide ((f.take p.nvar).countP (fun a => decide (a ≠ 0)) = 1)) then return some faces
    else return none

/-- `is_concurrent_start_face`, lib/pluto.c:1443-1451. -/
def isConcStartFace (p : Prog) (b : Band) (faces : List (List Int)) (level : Nat) : Option Bool := do
  let bs ← (List.range b.loop.stmts.length).mapM (fun s => do
    let i ← b.loop.stmts[s]?
    vectorIsParallel (← rowOf p i level) (← faces[s]?))
  return bs.any id

/-- The loop of `find_hyperplane_to_be_evicted` over the levels `d, ..., d + n - 1`. -/
def evictedFrom (p : Prog) (b : Band) (faces : List (List Int)) : Nat → Nat → Option Nat
  | 0, d => some d
  | n + 1, d => do
    if (← isConcStartFace p b faces d) then return d else evictedFrom p b faces n (d + 1)

/-- `find_hyperplane_to_be_evicted`, lib/pluto.c:1458-1466. -/
def hyperplaneToBeEvicted (p : Prog) (b : Band) (faces : List (List Int)) : Option Nat :=
  if b.width = 0 then none else evictedFrom p b faces (b.width - 1) b.loop.depth

/-- The face is normal to all hyperplanes of the band, for all statements, lib/pluto.c:2213-2229. -/
def facesNormal (p : Prog) (b : Band) (faces : List (List Int)) : Option Bool := do
  let bs ← (List.range b.loop.stmts.length).mapM (fun s => do
    let i ← b.loop.stmts[s]?
    let f ← faces[s]?
    let cs ← (List.range b.width).mapM (fun w => do vectorIsNormal (← rowOf p i (b.loop.depth + w)) f)
    return cs.all id)
  return bs.all id

/-! ### Cone complement -/

/-- `get_coeff_bounding_constraints_for_cone_complement`, lib/pluto.c:210-241. -/
def coneCoeffBounds (p : Prog) : Cst :=
  let w := cstWidth p.nvar p.npar p.stmts.length
  let c := (List.range (p.npar + 1)).foldl (fun c i => addLb c i 0) ⟨w, []⟩
  (List.range p.stmts.length).foldl (fun c s =>
    addLb ((List.range p.nvar).foldl (fun c i => addLb c (stmtOffset p.nvar p.npar s + i) (-4)) c)
      (stmtOffset p.nvar p.npar s + p.nvar) 0) c

/-- First column of the multipliers: `npar + 1 + nstmts * (nvar + 1)`. -/
def lambdaBase (p : Prog) : Nat := p.npar + 1 + p.stmts.length * (p.nvar + 1)

/-- Columns of the cone complement system of a band with `n` statements. -/
def coneWidth (p : Prog) (n : Nat) : Nat := lambdaBase p + 1 + p.nvar * n

/-- "All lambdas >= 1", lib/pluto.c:1335-1343. -/
def lambdaLower (p : Prog) (n : Nat) : List Row :=
  (List.range (p.nvar * n)).map (fun j => ⟨false, unitRow (coneWidth p n) (lambdaBase p + j) 1 (-1)⟩)

/-- The coefficients of the hyperplanes whose negatives span the cone with the face, at iterator `j` of
statement `i`, lib/pluto.c:1359-1377. -/
def coneHyps (full : Bool) (p : Prog) (b : Band) (evict cone i j : Nat) : Option (List Int) :=
  if full then do
    let st ← p.stmts[i]?
    let ks ← ((List.range b.width).map (b.loop.depth + ·)).mapM (fun k => do
      if k = evict then return none
      else do
        let ty ← st.hypTypes[k]?
        if ty = HypType.scalar then return none
        else return some (coef (← st.trans[k]?) j))
    return ks.filterMap id
  else do
    let r ← rowOf p i cone
    return [coef r j]

/-- Equality for iterator `j` of the statement at position `s` of the band: its new coefficient equals
`lambda_0 * face - sum lambda_k * hyperplane_k`, lib/pluto.c:1345-1380. The multipliers of statement `s`
start at column `lambdaBase + s * nvar`; nothing prevents more than `nvar` of them from being used. -/
def coneEquality (full : Bool) (p : Prog) (b : Band) (faces : List (List Int)) (evict cone s j : Nat) :
    Option Row := do
  let i ← b.loop.stmts[s]?
  let f ← faces[s]?
  let hs ← coneHyps full p b evict cone i j
  let w := coneWidth p b.loop.stmts.length
  let off := lambdaBase p + s * p.nvar
  if w < off + 1 + hs.length then none
  else
    let row := ((zrow w).set (stmtOffset p.nvar p.npar i + j) 1).set off (-(coef f j))
    return ⟨true, (writeSlice row (off + 1) hs).set (w - 1) 0⟩

/-- `lambda_cst`, lib/pluto.c:1328-1380. -/
def lambdaCst (full : Bool) (p : Prog) (b : Band) (faces : List (List Int)) (evict cone : Nat) : Option Cst := do
  let n := b.loop.stmts.length
  let eqs ← (List.range n).mapM (fun s => (List.range p.nvar).mapM (fun j =>
    coneEquality full p b faces evict cone s j))
  return ⟨coneWidth p n, lambdaLower p n ++ eqs.flatten⟩

/-- `con_start_cst`, lib/pluto.c:1382-1398: permutability, coefficient bounds, multipliers. -/
def coneSystem (full : Bool) (p : Prog) (base : Cst) (b : Band) (faces : List (List Int)) (evict cone : Nat) :
    Option Cst := do
  let lam ← lambdaCst full p b faces evict cone
  return addCst (addDims (addCst base (coneCoeffBounds p)) (base.ncols - 1) (p.nvar * b.loop.stmts.length)) lam

/-- `find_cone_complement_hyperplane`, lib/pluto.c:1314-1437. `solve` is the integer lexicographic minimum
without sign restriction. The inner `none` is "not found"; otherwise the new rows of the statements of
the band. -/
def findConeComplement (full : Bool) (solve : Cst → Option (List Int)) (p : Prog) (base : Cst) (b : Band)
    (faces : List (List Int)) (evict cone : Nat) : Option (Option (List (List Int))) := do
  let c ← coneSystem full p base b faces evict cone
  match solve c with
  | none => return none
  | some sol => return some (b.loop.stmts.map (fun i => hyperplaneRow p.nvar p.npar sol i))

/-! ### Diamond tiling -/

/-- The hyperplane at `pos` of statement `i` replaced, and stored as evicted, lib/pluto.c:2261-2276. Asserts
that nothing was evicted before. -/
def evictStmt (pos : Nat) (st : Prog × List (Option Evicted)) (i : Nat) (row : List Int) :
    Option (Prog × List (Option Evicted)) := do
  let s ← st.1.stmts[i]?
  let r ← s.trans[pos]?
  let e ← st.2[i]?
  if e.isSome ∨ r.length ≠ row.length then none
  else return ({ st.1 with stmts := st.1.stmts.set i { s with trans := s.trans.set pos row } },
    st.2.set i (some ⟨r, pos⟩))

/-- The loop over the statements of the band. -/
def evictAll (pos : Nat) (st : Prog × List (Option Evicted)) :
    List (Nat × List Int) → Option (Prog × List (Option Evicted))
  | [] => some st
  | (i, row) :: l => do
    let st' ← evictStmt pos st i row
    evictAll pos st' l

/-- State of the loop over bands: program, evicted hyperplanes, and the bands (with the evicted position)
for which concurrent start was enabled so far. -/
structure DiaState where
  p : Prog
  ev : List (Option Evicted)
  done : List (Band × Nat)

/-- The position whose hyperplane forms the cone with the new one, lib/pluto.c:2245-2252. -/
def conePos (b : Band) (evict : Nat) : Nat := if evict = b.loop.depth then b.loop.depth + 1 else b.loop.depth

/-- Is the band considered at all: not outer parallel, inner parallel, and that parallelism is lost by
tiling, lib/pluto.c:2176-2206. -/
def bandWanted (p : Prog) (b : Band) : Option Bool := do
  if (← loopIsParallel p b.loop) then return false
  else do
    let inner ← loopsImmediatelyInner p b.loop
    if (← innerParallel p b inner) then innerParallelLost p inner else return false

/-- Body of the loop over bands of `pluto_diamond_tile`, lib/pluto.c:2152-2297. -/
def diamondBand (o : SearchOpts) (full : Bool) (L : Libs) (solve : Cst → Option (List Int)) (base : Cst)
    (s : DiaState) (b : Band) : Option DiaState := do
  if (← bandWanted s.p b) then
    match (← concStartFaces o L s.p b.loop.stmts) with
    | none => return s
    | some faces =>
      if (← facesNormal s.p b faces) then return s
      else do
        let evict ← hyperplaneToBeEvicted s.p b faces
        match (← findConeComplement full solve s.p base b faces evict (conePos b evict)) with
        | none => return s
        | some rows => do
          let (p, ev) ← evictAll evict (s.p, s.ev) (b.loop.stmts.zip rows)
          return ⟨p, ev, s.done ++ [(b, evict)]⟩
  else return s

/-- `pluto_diamond_tile`, lib/pluto.c:2152-2297: new program, evicted hyperplanes, bands for which
concurrent start was enabled (the C function returns whether there are any). -/
def diamondTile (o : SearchOpts) (full : Bool) (L : Libs) (solve : Cst → Option (List Int)) (p : Prog)
    (ev : List (Option Evicted)) : Option DiaState := do
  let base := permutabilityConstraints o.rar o.nodepbound p
  let p1 ← computeDepDirections L.isEmpty p
  let p2 ← computeDepSatisfaction L.isEmpty p1
  let bands ← outermostBands p2
  let s ← bands.foldlM (diamondBand o full L solve base) ⟨p2, ev, []⟩
  return if s.done = [] then s else { s with p := depSatReset s.p }

/-- The call in `pluto_auto_transform`, lib/pluto.c:1743-1747; nothing was evicted before. The first
argument (number of hyperplanes just found) is not used. -/
def autoDiamond (o : SearchOpts) (full : Bool) (L : Libs) (solve : Cst → Option (List Int)) (_ : Nat) (p : Prog) :
    Option (Prog × Bool) :=
  (diamondTile o full L solve p (List.replicate p.stmts.length none)).map (fun s => (s.p, decide (s.done ≠ [])))

end Pluto
