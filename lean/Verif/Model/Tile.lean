import Verif.Model.Polyloop

/-!
Model of lib/tile.c: tiling of a band, the driver over all bands, the wavefront schedule of tiles and
the rescheduling of diamond tiles. `none` stands for a failed assertion or an out-of-range access.
Not modelled: reading or selecting tile sizes (arguments here), `num_tiled_loops`, `first_tile_dim`,
`last_tile_dim`, iterator names, access matrices, printing.
-/

namespace Pluto

/-- `n` calls of `pluto_constraints_add_dim` at `pos`. -/
def addDims (c : Cst) (pos : Nat) : Nat → Cst
  | 0 => c
  | n + 1 => addDims (addDim c pos) pos n

/-- Body of the loop of `pluto_update_deps`, lib/pluto.c:2081-2129, for statement `i` (`transdeps` left
out). -/
def updateDep (p : Prog) (i : Nat) (c : Cst) (d : Dep) : Dep :=
  let d := if d.src = i then { d with dpoly := addCst d.dpoly (addDims c (dimOf p i) (dimOf p d.dest)) } else d
  if d.dest = i then { d with dpoly := addCst d.dpoly (addDims c 0 (dimOf p d.src)) } else d

/-- A row added to the domain of statement `i` and, by `pluto_update_deps`, to its dependences. -/
def addDomainRow (p : Prog) (i : Nat) (row : List Int) : Option Prog := do
  let st ← p.stmts[i]?
  let st' := { st with domain := { st.domain with rows := st.domain.rows ++ [⟨false, row⟩] } }
  let p' := { p with stmts := p.stmts.set i st' }
  return { p' with deps := p'.deps.map (updateDep p' i ⟨st.domain.ncols, [⟨false, row⟩]⟩) }

/-- Lower bound of a tile, lib/tile.c:149-163: `r - size * T >= 0` with `T` the variable `pos`. -/
def tileLb (r : List Int) (pos : Nat) (size : Int) : List Int :=
  zrow pos ++ (-size :: r.drop (pos + 1))

/-- Upper bound of a tile, lib/tile.c:170-186: `-r + size * T + size - 1 >= 0`. -/
def tileUb (r : List Int) (pos : Nat) (size : Int) : List Int :=
  zrow pos ++ (size :: addLast ((r.drop (pos + 1)).map (fun v => -v)) (size - 1))

/-- One iteration of the inner loop of `pluto_tile_band`, lib/tile.c:109-207, for statement `i` at
depth `firstD + k`; `nsup` is `num_domain_supernodes` of the statement. -/
def tileStmt (p : Prog) (i firstD k nsup : Nat) (size : Int) : Option (Prog × Nat) := do
  let st ← p.stmts[i]?
  let ty ← st.hypTypes[firstD + k + k]?
  if ty ≠ .scalar then
    if size < 1 then none
    else do
      let p1 ← stmtAddDim p i nsup (some (firstD + k, .tileSpaceLoop))
      let st1 ← p1.stmts[i]?
      let r ← st1.trans[firstD + k + 1 + k]?
      if r.length ≠ st1.domain.ncols ∨ st1.domain.ncols ≠ st1.dim + p.npar + 1 then none
      else do
        let p2 ← addDomainRow p1 i (tileLb r nsup size)
        let p3 ← addDomainRow p2 i (tileUb r nsup size)
        return (p3, nsup + 1)
  else
    if firstD + k > st.trans.length then none
    else do
      let trans := st.trans.insertIdx (firstD + k) (zrow (st.dim + p.npar + 1))
      let r ← trans[firstD + k + 1 + k]?
      let st' := { st with
        trans := trans.set (firstD + k) r
        hypTypes := st.hypTypes.insertIdx (firstD + k) .scalar }
      return ({ p with stmts := p.stmts.set i st' }, nsup)

/-- The inner loop of `pluto_tile_band` over the statements with their supernode counts. -/
def tileDepth (firstD k : Nat) (size : Int) : Prog → List (Nat × Nat) → Option (Prog × List (Nat × Nat))
  | p, [] => some (p, [])
  | p, (i, nsup) :: l => do
    let (p', n') ← tileStmt p i firstD k nsup size
    let (p'', l') ← tileDepth firstD k size p' l
    return (p'', (i, n') :: l')

/-- The outer loop of `pluto_tile_band` for the offsets `k, k + 1, ...` (`n` of them). -/
def tileLoop (firstD : Nat) (sizes : Nat → Int) : Nat → Nat → Prog → List (Nat × Nat) → Option Prog
  | 0, _, p, _ => some p
  | n + 1, k, p, l => do
    let (p', l') ← tileDepth firstD k (sizes k) p l
    tileLoop firstD sizes n (k + 1) p' l'

/-- `pluto_tile_band`, lib/tile.c:109-207. -/
def tileBand (p : Prog) (b : Band) (sizes : Nat → Int) : Option Prog :=
  tileLoop b.loop.depth sizes b.width 0 p (b.loop.stmts.map (fun i => (i, 0)))

/-- `pluto_sink_transformation` at the end, `n` times, lib/transforms.c:80-98. -/
def sinkRows (npar : Nat) (st : Stmt) (n : Nat) : Stmt :=
  { st with
    trans := st.trans ++ List.replicate n (zrow (st.dim + npar + 1))
    hypTypes := st.hypTypes ++ List.replicate n .scalar }

/-- `pluto_detect_hyperplane_types_stmtwise`, lib/pluto.c:1043-1051. -/
def detectTypesStmtwise (p : Prog) : Prog :=
  { p with stmts := p.stmts.map (fun st => { st with hypTypes := st.trans.map (fun r =>
      if (r.take st.dim).all (fun v => v == 0) then HypType.scalar else HypType.loop) }) }

/-- Second part of `pluto_tile_scattering_dims`, lib/tile.c:330-380. -/
def sinkAll (p : Prog) : Option Prog :=
  let mx := (p.stmts.map (·.trans.length)).foldl max 0
  let p1 := { p with
    stmts := p.stmts.map (fun st => sinkRows p.npar st (mx - st.trans.length))
    hProps := p.hProps ++ List.replicate (mx - p.hProps.length) .unknown }
  (detectHyperplaneTypes p1).map detectTypesStmtwise

/-- `pluto_tile_scattering_dims`, lib/tile.c:330-380; `sizes b` are the tile sizes of the band number
`b`. -/
def tileScatteringDims (p : Prog) (bands : List Band) (sizes : Nat → Nat → Int) : Option Prog := do
  let p' ← bands.zipIdx.foldlM (fun p b => tileBand p b.1 (sizes b.2)) p
  sinkAll p'

end Pluto
