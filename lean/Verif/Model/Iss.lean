import Verif.Model.Polyloop
import Verif.Model.Tile
import Verif.Model.Bounds
import Verif.Model.StmtEdit

/-!
Model of index set splitting, lib/iss.c. PIP/isl (`solve`, `isEmpty`) and PolyLib (`proj`) are function
arguments. `none` stands for a failed assertion or a use of freed memory.
-/

namespace Pluto

/-! ### Finding the cut -/

/-- The template matrix of `pluto_find_iss`, lib/iss.c:129-268: row `i` belongs to column `i` of a
dependence polyhedron, the columns are `[m | sigma h | h | P r | 1]`. With `sgn = 1` it stands for
`m + 2(P.p + r) - h.s - h.t`, with `sgn = -1` for `m - 2(P.p + r) + h.s + h.t`. -/
def issPhi (ndim npar : Nat) (sgn : Int) : List (List Int) :=
  let w := 2 + ndim + npar + 1 + 1
  (List.range ndim).map (fun i => (zrow w).set (2 + i) (-sgn)) ++
  (List.range ndim).map (fun i => (zrow w).set (2 + i) (-sgn)) ++
  (List.range npar).map (fun i => (zrow w).set (2 + ndim + i) (2 * sgn)) ++
  [((zrow w).set (2 + ndim + npar) (2 * sgn)).set 0 1]

/-- The system `pluto_find_iss` (lib/iss.c:129-268) hands to the solver (`indcst` is NULL in the only
call). -/
def issSystem (doms : List Cst) (ndim npar : Nat) : Cst :=
  let w := 2 + ndim + npar + 1 + 1
  let cst := doms.foldl (fun c dom =>
    addCst (addCst c (farkasLemmaAffine dom w (issPhi ndim npar 1)))
      (farkasLemmaAffine dom w (issPhi ndim npar (-1)))) ⟨w, []⟩
  let cst := addUb cst 0 5
  let cst := addCst cst ⟨w, [⟨true, [0, 1] ++ List.replicate ndim (-1) ++ zrow (npar + 1) ++ [0]⟩]⟩
  addCst cst ⟨w, [⟨false, [0, 0] ++ List.replicate ndim 1 ++ zrow (npar + 1) ++ [-1]⟩]⟩

/-- `pluto_find_iss`, lib/iss.c:129-268: outer `none` is the failed assertion on the column counts. -/
def findIss (solve : Cst → Option (List Int)) (doms : List Cst) (npar : Nat) : Option (Option Cst) :=
  match doms with
  | [] => some none
  | dom0 :: _ =>
    if doms.any (fun d => (d.ncols - 1 - npar) % 2 != 0) then none
    else
      let ndim := (dom0.ncols - 1 - npar) / 2
      match solve (issSystem doms ndim npar) with
      | none => some none
      | some sol =>
        some (some ⟨ndim + npar + 1,
          [⟨true, (sol.drop 2).take ndim ++ (((sol.drop 2).drop ndim).take (npar + 1)).map (fun a => -a)⟩]⟩)

/-- `is_long_bidirectional_dep`, lib/iss.c:270-295 (self dependences). -/
def isLongDep (proj : Cst → Nat → Nat → Cst) (npar : Nat) (d : Dep) (dim : Nat) : Bool :=
  let ndim := (d.dpoly.ncols - 1 - npar) / 2
  let c := addDim d.dpoly 0
  let row := (((zrow c.ncols).set 0 1).set (1 + dim) 1).set (1 + ndim + dim) (-1)
  let c := { c with rows := c.rows ++ [⟨true, row⟩] }
  match getConstLb proj 0 [c], getConstUb proj 0 [c] with
  | some lb, some ub => !(decide (ub.natAbs ≤ 5) && decide (lb.natAbs ≤ 5))
  | _, _ => true

/-! ### Splitting statements and dependences -/

/-- `pluto_stmt_dup`, lib/program.cpp:2197-2226: the row types of the copy are all `H_LOOP`. -/
def stmtDup (st : Stmt) : Stmt := { st with hypTypes := List.replicate st.trans.length .loop }

/-- The piece of a statement for one cut, `pluto_iss`, lib/iss.c:391-408. -/
def issPiece (st : Stmt) (cut : Cst) : Stmt := { stmtDup st with domain := addCst st.domain cut }

/-- Body of the loop over `s` and `t` in `pluto_update_deps_after_iss`, lib/iss.c:300-386: the part of
dependence `d` for source cut `s` and target cut `t`, nothing when it is empty. `pluto_dep_dup` drops
`satvec` and `dirvec`. -/
def issCutDep (isEmpty : Cst → Bool) (p : Prog) (cuts : List Cst) (id base : Nat) (d : Dep) (s t : Nat) : List Dep :=
  let dp := if d.src = id then
      addCst d.dpoly (addDims (cuts.getD s ⟨0, []⟩) (dimOf p d.src) (dimOf p d.dest)) else d.dpoly
  let dp := if d.dest = id then addCst dp (addDims (cuts.getD t ⟨0, []⟩) 0 (dimOf p d.src)) else dp
  if isEmpty dp then []
  else [{ d with
      dpoly := dp
      satvec := []
      dirvec := []
      src := if d.src = id then base + s else d.src
      dest := if d.dest = id then base + t else d.dest }]

/-- The new dependences for one old one, `pluto_update_deps_after_iss`, lib/iss.c:300-386. -/
def issSplitDep (isEmpty : Cst → Bool) (p : Prog) (cuts : List Cst) (id base : Nat) (d : Dep) : List Dep :=
  if d.src ≠ id ∧ d.dest ≠ id then [d]
  else
    (List.range (if d.src = id then cuts.length else 1)).flatMap (fun s =>
      (List.range (if d.dest = id then cuts.length else 1)).flatMap (fun t =>
        issCutDep isEmpty p cuts id base d s t))

/-- `pluto_update_deps_after_iss`, lib/iss.c:300-386. When all new dependences are empty `prog->deps`
still points to the old ones, all of which have been freed. -/
def updateDepsAfterIss (isEmpty : Cst → Bool) (p : Prog) (cuts : List Cst) (id base : Nat) : Option Prog :=
  if cuts = [] then some p
  else
    let ds := p.deps.flatMap (issSplitDep isEmpty p cuts id base)
    if ds = [] ∧ p.deps ≠ [] then none else some { p with deps := ds }

/-- `pluto_iss`, lib/iss.c:391-408: the pieces of statement `i` go to the end. -/
def iss (isEmpty : Cst → Bool) (cuts : List Cst) (p : Prog) (i : Nat) : Option Prog := do
  let p1 ← cuts.foldlM (fun p c => do
    let st ← p.stmts[i]?
    return addGivenStmt p (issPiece st c)) p
  updateDepsAfterIss isEmpty p1 cuts i p.stmts.length

/-- The last part of `pluto_iss_dep`, lib/iss.c:413-544: all statements are split, then the old ones are
removed. -/
def issAll (isEmpty : Cst → Bool) (cuts : List Cst) (p : Prog) : Option Prog := do
  let p1 ← (List.range p.stmts.length).foldlM (iss isEmpty cuts) p
  (List.range p.stmts.length).foldlM (fun p _ => removeStmt p 0) p1

/-- One dimension of the loop that makes the cuts, `pluto_iss_dep`, lib/iss.c:413-544: a second hyperplane
doubles the cuts, further ones are ignored. -/
def addCut (cuts : List Cst) (h : Cst) : Option (List Cst) := do
  let neg ← negHalfSpace h
  let pos ← nonNegHalfSpace h
  if cuts.length = 0 then return [neg, pos]
  else if cuts.length ≤ 2 then return cuts.map (addCst · neg) ++ cuts.map (addCst · pos)
  else return cuts

/-- `pluto_are_stmts_fused`, lib/pluto.c:2133-2149, on all statements. -/
def areAllFused (p : Prog) : Option Bool := do
  let st0 ← p.stmts[0]?
  let sc ← (List.range p.hProps.length).mapM (isHyperplaneScalar st0)
  match (List.range p.hProps.length).reverse.find? (fun d => !(sc.getD d true)) with
  | none => return false
  | some d => return (← getLoopsUnder p (List.range p.stmts.length) d).length == 1

/-- `pluto_iss_dep`, lib/iss.c:413-544. The loop over the dimensions reuses its index `i` once the second
hyperplane is found, so dimensions may be skipped or visited again, but from then on there are four cuts
and nothing changes; the model visits every dimension once. -/
def issDep (proj : Cst → Nat → Nat → Cst) (solve : Cst → Option (List Int)) (isEmpty : Cst → Bool)
    (p : Prog) : Option Prog :=
  match p.stmts with
  | [] => some p
  | st0 :: _ =>
    if p.stmts.any (fun st => st.dim != st0.dim) then some p
    else do
      if !(← areAllFused p) then return p
      else if p.deps = [] then return p
      else
        let cuts ← (List.range st0.dim).foldlM (fun (cuts : List Cst) j => do
          let long := p.deps.filter (fun d => decide (d.src = d.dest) && isLongDep proj p.npar d j)
          match ← findIss solve (long.map (·.dpoly)) p.npar with
          | some h => addCut cuts h
          | none => return cuts) []
        if cuts.length < 2 then return p else issAll isEmpty cuts p

end Pluto
