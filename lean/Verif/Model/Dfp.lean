import Verif.Model.Auto
import Verif.Model.Fcg
/-! Model of the automatic transformation with `--dfp`: permutations of the loops are found by colouring
the fusion conflict graph, then scaled and shifted (lib/framework-dfp.c, lib/pluto.c).

The fusion conflict graph is built from LP solutions: `build_fusion_conflict_graph`
(lib/framework-dfp.c:1080-1226) is a function argument here and defined in Model/FcgBuild.lean. `--clusterscc`, `--lpcolor` and
typed fusion (all off by default) are in Model/DfpCluster.lean. Not modelled: statistics, printing. `none` stands for a failed assertion or an out-of-range
access. -/
namespace Pluto

/-- The program, the fusion conflict graph, the colours of its vertices, `coloured_dims` and
`to_be_rebuilt`. -/
structure Dfp where
  a : Auto
  fcg : Graph
  colour : List Nat
  coloured : Nat
  rebuild : Bool

/-- `fcg_stmt_offset` of statement `i`, set in `pluto_auto_transform`, lib/pluto.c:1492-1850. -/
def fcgOffset (p : Prog) (i : Nat) : Nat := ((p.stmts.take i).map (·.dimOrig)).sum

/-- Vertices of statement `i`. -/
def stmtBlock (p : Prog) (i : Nat) : Block := ⟨fcgOffset p i, (p.stmts[i]?.map (·.dimOrig)).getD 0⟩

/-- Number of vertices of the fusion conflict graph, lib/pluto.c:1620-1639. -/
def fcgSize (p : Prog) : Nat := (p.stmts.map (·.dimOrig)).sum

/-- `compute_scc_vertices`, lib/ddg.c:223-240: the statements of component `k`. -/
def Auto.sccStmts (a : Auto) (k : Nat) : List Nat :=
  (List.range a.p.stmts.length).filter (fun i => decide (a.scc i = (k : Int)))

/-- The cuts made by `colour_scc` when the loops of the only statement of component `k` are all coloured,
lib/framework-dfp.c:1448-1586: the list runs through the components. -/
def colourCut (isEmpty : Cst → Bool) (fuse : Fuse) (k : Nat) : List Nat → Auto → Option Auto
  | [], a => some a
  | j :: js, a =>
    if j = k then colourCut isEmpty fuse k js a
    else if j < k ∧ a.connected j k = true then
      if fuse = .no then do
        let (a, _) ← a.cutAll isEmpty
        colourCut isEmpty fuse k js a
      else do
        let (a, _) ← a.cutBetween isEmpty j k
        if (List.range' (k + 1) (a.num - (k + 1))).any (fun l => a.connected k l) then
          (a.cutAll isEmpty).map (·.1)
        else some a
    else if a.connected k j = true then
      if fuse = .no then (a.cutAll isEmpty).map (·.1) else (a.cutBetween isEmpty k j).map (·.1)
    else colourCut isEmpty fuse k js a

/-- `colour_scc`, lib/framework-dfp.c:1448-1586, for component `k`, colour `c`, from the first statement on. -/
def Dfp.colourScc (isEmpty : Cst → Bool) (fuse : Fuse) (c k : Nat) (d : Dfp) : Option (Dfp × Bool) :=
  let vs := d.a.sccStmts k
  if vs = [] then some (d, true)
  else if (d.coloured : Int) > d.a.maxDim k then some (d, true)
  else if (d.coloured : Int) = d.a.maxDim k then
    if vs.length = 1 then do
      let a ← colourCut isEmpty fuse k (List.range d.a.num) d.a
      return ({ d with a := a }, true)
    else some (d, true)
  else
    let r := colourBlocks d.fcg d.a.p.nvar c (fun _ => true) (vs.map (stmtBlock d.a.p)) none d.colour
    some ({ d with colour := r.2 }, r.1)

/-- The first statement of component `k` (`sccs[k].vertices[0]`). -/
def Auto.firstStmt (a : Auto) (k : Nat) : Nat := (a.sccStmts k).headD 0

/-- `scc_has_must_distribute_edges`, lib/framework-dfp.c:1590-1620. -/
def Dfp.mustDistribute (d : Dfp) (k : Nat) : Bool :=
  if d.a.maxDim k = 0 then false
  else (List.range k).any (fun i => decide (d.a.maxDim i ≠ 0) && !d.a.connected i k &&
    d.fcg.isAdjacent (fcgOffset d.a.p (d.a.firstStmt i)) (fcgOffset d.a.p (d.a.firstStmt k)))

/-- Remove all edges between the vertices of two blocks. -/
def clearEdges (adj : Nat → Nat → Nat) (b1 b2 : Block) : Nat → Nat → Nat := fun u v =>
  if (b1.first ≤ u ∧ u < b1.first + b1.count ∧ b2.first ≤ v ∧ v < b2.first + b2.count) ∨
    (b2.first ≤ u ∧ u < b2.first + b2.count ∧ b1.first ≤ v ∧ v < b1.first + b1.count) then 0 else adj u v

/-- Constant of the last schedule row of statement `i`, `trans->val[nrows - 1][nvar + npar]`. -/
def lastConst (p : Prog) (i : Nat) : Option Int := do
  let st ← p.stmts[i]?
  let r ← st.trans.getLast?
  r[p.nvar + p.npar]?

/-- `update_fcg_between_sccs` with `--nofuse`, lib/framework-dfp.c:903-964: for statements `j < i` with
different constants in the last row. The code takes the vertices of statement `i` for both ends
(`stmt_offset2` is computed from `i`), as many as statement `j` has loops. -/
def updateFcgNoFuse (p : Prog) (adj : Nat → Nat → Nat) : List (Nat × Nat) → Option (Nat → Nat → Nat)
  | [] => some adj
  | (i, j) :: l => do
    let x ← lastConst p i
    let y ← lastConst p j
    if x ≠ y then
      updateFcgNoFuse p (clearEdges adj (stmtBlock p i) ⟨fcgOffset p i, (stmtBlock p j).count⟩) l
    else updateFcgNoFuse p adj l

/-- `update_fcg_between_sccs`, other fusion modes: remove the edges between statements of components
below `k` and the others. -/
def updateFcgCut (a : Auto) (k : Nat) (adj : Nat → Nat → Nat) : List (Nat × Nat) → (Nat → Nat → Nat)
  | [] => adj
  | (i, j) :: l =>
    if (a.scc i ≥ (k : Int) ∧ a.scc j < (k : Int)) ∨ (a.scc j ≥ (k : Int) ∧ a.scc i < (k : Int)) then
      updateFcgCut a k (clearEdges adj (stmtBlock a.p i) (stmtBlock a.p j)) l
    else updateFcgCut a k adj l

/-- Pairs `(i, j)` with `j < i < n`, in the order of the loops of `update_fcg_between_sccs`. -/
def lowerPairs (n : Nat) : List (Nat × Nat) :=
  (List.range' 1 (n - 1)).flatMap (fun i => (List.range i).map (fun j => (i, j)))

/-- All pairs. -/
def allPairs (n : Nat) : List (Nat × Nat) := (List.range n).flatMap (fun i => (List.range n).map (fun j => (i, j)))

/-- `update_fcg_between_sccs`, lib/framework-dfp.c:903-964. The argument `scc1` is not used by the code. -/
def Dfp.updateFcg (fuse : Fuse) (k : Nat) (d : Dfp) : Option Dfp :=
  if d.rebuild then none
  else if d.a.p.stmts.length = 1 then some d
  else if fuse = .no then do
    let adj ← updateFcgNoFuse d.a.p d.fcg.adj (lowerPairs d.a.p.stmts.length)
    return { d with fcg := ⟨d.fcg.n, adj⟩ }
  else some { d with fcg := ⟨d.fcg.n, updateFcgCut d.a k d.fcg.adj (allPairs d.a.p.stmts.length)⟩ }

/-- `pluto_add_scalar_hyperplanes_between_sccs`, lib/framework-dfp.c:2470-2490. -/
def addScalarBetween (a : Auto) (k : Nat) : Prog :=
  addScalarRows a.p (fun i => [if a.scc i < (k : Int) then 0 else 1])

/-- Distribution required by must distribute edges, lib/framework-dfp.c:2520-2526. -/
def Dfp.distribute (isEmpty : Cst → Bool) (fuse : Fuse) (k : Nat) (d : Dfp) : Option Dfp :=
  if k ≥ 1 ∧ d.mustDistribute k = true then do
    let d ← Dfp.updateFcg fuse k { d with a := { d.a with p := addScalarBetween d.a k } }
    let (p, _) ← satUpdateLast isEmpty d.a.p
    return { d with a := { d.a with p := p } }
  else some d

/-- The cut after which colouring component `k` is tried again, lib/framework-dfp.c:2634-2651, 2671-2682. -/
def Dfp.cutAndUpdate (isEmpty : Cst → Bool) (fuse : Fuse) (k : Nat) (d : Dfp) : Option Dfp :=
  if fuse = .no then do
    let (a, _) ← d.a.cutAll isEmpty
    Dfp.updateFcg fuse 0 { d with a := a }
  else
    match (List.range k).reverse.find? (fun j => d.a.connected j k) with
    | some j => do
      let (a, _) ← d.a.cutBetween isEmpty j k
      Dfp.updateFcg fuse k { d with a := a }
    | none => Dfp.updateFcg fuse k d

/-- Rebuild the fusion conflict graph. -/
def Dfp.build (fcgOf : Auto → List Nat → Nat → Graph) (c : Nat) (d : Dfp) : Dfp :=
  { d with fcg := fcgOf d.a d.colour c, rebuild := false }

/-- `cut_all_sccs` with `--nofuse`. -/
def Dfp.cutIfNoFuse (isEmpty : Cst → Bool) (fuse : Fuse) (d : Dfp) : Option Dfp :=
  if fuse = .no then (d.a.cutAll isEmpty).map (fun x => { d with a := x.1 }) else some d

/-- The second attempt at colouring component `k`, lib/framework-dfp.c:2576-2690. -/
def Dfp.retry (isEmpty : Cst → Bool) (fcgOf : Auto → List Nat → Nat → Graph) (fuse : Fuse) (c k : Nat) (d : Dfp) :
    Option (Dfp × Bool) :=
  if d.rebuild = true ∨ k = 0 then do
    let d ← Dfp.cutIfNoFuse isEmpty fuse d
    let (d, ok) ← Dfp.colourScc isEmpty fuse c k (Dfp.build fcgOf c d)
    if ok = true ∨ k = 0 then return (d, ok)
    else do
      let d ← Dfp.cutAndUpdate isEmpty fuse k d
      Dfp.colourScc isEmpty fuse c k d
  else do
    let d ← Dfp.cutAndUpdate isEmpty fuse k d
    Dfp.colourScc isEmpty fuse c k d

/-- The last attempt, after a precise satisfaction check, lib/framework-dfp.c:2691-2723 (the directions
computed there are only printed). -/
def Dfp.lastTry (isEmpty : Cst → Bool) (fcgOf : Auto → List Nat → Nat → Graph) (fuse : Fuse) (c k : Nat) (d : Dfp) :
    Option Dfp := do
  let (p, _) ← computeDepSatisfactionPrecise isEmpty d.a.p
  let (d, ok) ← Dfp.colourScc isEmpty fuse c k (Dfp.build fcgOf c { d with a := { d.a with p := p } })
  if ok = true then return d else none

/-- Body of the loop of `colour_fcg_scc_based`, lib/framework-dfp.c:2493-2735, for component `k`. -/
def Dfp.colourOne (isEmpty : Cst → Bool) (fcgOf : Auto → List Nat → Nat → Graph) (fuse : Fuse) (c k : Nat) (d : Dfp) :
    Option Dfp := do
  let d ← Dfp.distribute isEmpty fuse k d
  let (d, ok) ← Dfp.colourScc isEmpty fuse c k d
  if ok = true then return d
  else do
    let (d, ok) ← Dfp.retry isEmpty fcgOf fuse c k d
    if ok = true then return d else Dfp.lastTry isEmpty fcgOf fuse c k d

/-- `colour_fcg_scc_based`, lib/framework-dfp.c:2493-2735. -/
def Dfp.colourFcg (isEmpty : Cst → Bool) (fcgOf : Auto → List Nat → Nat → Graph) (fuse : Fuse) (c : Nat) :
    List Nat → Dfp → Option Dfp
  | [], d => some d
  | k :: ks, d => do
    let d ← Dfp.colourOne isEmpty fcgOf fuse c k d
    Dfp.colourFcg isEmpty fcgOf fuse c ks d

/-- `add_coeff_constraints_from_fcg_colouring`, lib/framework-dfp.c:2916-2947, for statement `j`. -/
def colourStmtCst (p : Prog) (colour : List Nat) (c j : Nat) (st : Stmt) (cst : Cst) : Cst :=
  if st.dimOrig < c then
    (List.range st.dimOrig).foldl (fun cst k => addLb cst (stmtOffset p.nvar p.npar j + k) 0) cst
  else
    (List.range p.nvar).foldl (fun cst k =>
      if st.isOrig.getD k false && colourOf colour (fcgOffset p j + k) == c then
        addLb cst (stmtOffset p.nvar p.npar j + k) 1
      else setVar cst (stmtOffset p.nvar p.npar j + k) 0) cst

/-- `add_coeff_constraints_from_fcg_colouring`, lib/framework-dfp.c:2916-2947. -/
def colourCst (p : Prog) (colour : List Nat) (c : Nat) (cst : Cst) : Cst :=
  (p.stmts.zipIdx).foldl (fun cst x => colourStmtCst p colour c x.2 x.1 cst) cst

/-- A call of `pluto_prog_constraints_lexmin` for the program and the graph of a state: `none` if it does not return,
`some none` if there is no solution. See `lexIlp` and, in Verif/Model/LpDfp.lean, `lexGlpk`. -/
abbrev Lex := Auto → Cst → Option (Option (List Int))

/-- `pluto_prog_constraints_lexmin` with an integer solver, lib/pluto.c:275-431. -/
def lexIlp (o : SearchOpts) (L : Libs) : Lex := fun a cst => progLexmin o.dfp L.solve a.p cst

/-- `scale_shift_permutations`, lib/framework-dfp.c:2952-3034, for colour `c` (the argument of the C
function is `c - 1`), with the assertion of its caller that a hyperplane was found. All statements are
counted as coloured (`total_coloured_stmts`) when all components were. -/
def scaleShift (o : SearchOpts) (delayedCut : Bool) (L : Libs) (lex : Lex) (a : Auto) (colour : List Nat) (c : Nat) : Option Auto := do
  let coeff := colourCst a.p colour c (coeffBoundConstraints o a.p)
  match (← lex a (addCst coeff (permutabilityConstraints o.rar o.nodepbound a.p))) with
  | some sol => return { a with p := addHyperplane a.p sol }
  | none =>
    if delayedCut then do
      let a ← a.cutSmart L.isEmpty
      match (← lex a (addCst coeff (permutabilityConstraints o.rar o.nodepbound a.p))) with
      | some sol => return { a with p := addHyperplane a.p sol }
      | none => none
    else none

/-- Body of the loop of `find_permutable_dimensions_scc_based`, lib/framework-dfp.c:2752-2856. -/
def Dfp.level (o : SearchOpts) (delayedCut : Bool) (L : Libs) (lex : Lex) (fcgOf : Auto → List Nat → Nat → Graph) (fuse : Fuse) (c : Nat)
    (d : Dfp) : Option Dfp := do
  let d ← Dfp.colourFcg L.isEmpty fcgOf fuse c (List.range d.a.num) d
  let a ← scaleShift o delayedCut L lex d.a d.colour c
  let (p, _) ← satUpdateLast L.isEmpty a.p
  let a ← ({ a with p := p, g := ddgUpdate a.g p } : Auto).computeScc
  return { d with a := a, coloured := d.coloured + 1, rebuild := true }

/-- `find_permutable_dimensions_scc_based`, lib/framework-dfp.c:2752-2856, from colour `c` on. -/
def Dfp.levels (o : SearchOpts) (delayedCut : Bool) (L : Libs) (lex : Lex) (fcgOf : Auto → List Nat → Nat → Graph) (fuse : Fuse) :
    Nat → Nat → Dfp → Option Dfp
  | 0, _, d => some d
  | n + 1, c, d => do
    let d ← Dfp.level o delayedCut L lex fcgOf fuse c d
    Dfp.levels o delayedCut L lex fcgOf fuse n (c + 1) d

/-- The last steps with `--dfp`, lib/pluto.c:1670-1684: satisfaction is computed level by level and, if
a dependence is not satisfied by any, all components are distributed. -/
def dfpEnd (L : Libs) (a : Auto) : Option Auto := do
  let p ← satUpdates L.isEmpty (depSatReset a.p) a.p.hProps.length
  if depsSatCheck p then return { a with p := p }
  else do
    let a ← ({ a with p := p, g := ddgUpdate a.g p } : Auto).computeScc
    let (a, _) ← a.cutAll L.isEmpty
    return a

/-- Initial state, lib/pluto.c:1606-1660. -/
def dfpInit (o : AutoOpts) (L : Libs) (fcgOf : Auto → List Nat → Nat → Graph) (a : Auto) : Option Dfp := do
  let s ← autoInit { o with fuse := .max } L a
  let a ← noFuseCut o L s.a
  let colour := List.replicate (fcgSize a.p) 0
  return ⟨a, fcgOf a colour 1, colour, 0, false⟩

/-- `pluto_auto_transform`, lib/pluto.c:1492-1850, with `--dfp` and without diamond tiling. `skew` is
`introduce_skew` (Verif/Model/Skew.lean). -/
def dfpTransform (o : AutoOpts) (delayedCut : Bool) (L : Libs) (lex : Lex) (fcgOf : Auto → List Nat → Nat → Graph)
    (skew : Auto → Option Auto) (d0 : DfsState) (p0 : Prog) : Option Prog := do
  let p := { p0 with deps := p0.deps.map (fun d => { d with satisfied := false }) }
  let a ← (⟨p, ddgCreate p, d0, fun _ => -1, 0⟩ : Auto).computeScc
  if p.stmts = [] then return p
  else do
    let d ← dfpInit o L fcgOf a
    let d ← Dfp.levels o.toSearchOpts delayedCut L lex fcgOf o.fuse d.a.p.nvar 1 d
    let a ← skew d.a
    let a ← dfpEnd L a
    denormalizeDomains a.p

end Pluto
