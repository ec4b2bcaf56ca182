import Verif.Model.Diamond

/-! Model of the stencil test of typed fusion, `is_scc_stencil` (lib/framework.cpp). Strongly connected components are lists of
statement numbers in increasing order. `none` stands for the use of a null pointer or a failed assertion. -/

namespace Pluto

/-- Template for `phi(t) - phi(s) + u.p + w >= 0`, different statements,
lib/framework.cpp:1605-1628. -/
def phiLowerInter (nvar npar : Nat) : List (List Int) :=
  let w := npar + 1 + 2 * (nvar + 1) + 1
  (List.range nvar).map (fun r => (zrow w).set (npar + 1 + r) (-1)) ++
  (List.range nvar).map (fun r => (zrow w).set (npar + 1 + (nvar + 1) + r) 1) ++
  (List.range npar).map (fun r => (zrow w).set r 1) ++
  [(((zrow w).set (npar + 1 + nvar) (-1)).set (npar + 1 + (nvar + 1) + nvar) 1).set npar 1]

/-- Template for `phi(t) - phi(s) + u.p + w >= 0`, same statement, lib/framework.cpp:1629-1651. -/
def phiLowerIntra (nvar npar : Nat) : List (List Int) :=
  let w := npar + 1 + (nvar + 1) + 1
  (List.range nvar).map (fun r => (zrow w).set (npar + 1 + r) (-1)) ++
  (List.range nvar).map (fun r => (zrow w).set (npar + 1 + r) 1) ++
  (List.range npar).map (fun r => (zrow w).set r 1) ++
  [(zrow w).set npar 1]

/-- `compute_dep_dist_lb_constraints_for_stencil_check`, lib/framework.cpp:1596-1687. -/
def lowerRows (p : Prog) (d : Dep) : List Row :=
  let loc := if d.src = d.dest then
      farkasLemmaAffine d.bpoly (p.npar + 1 + (p.nvar + 1) + 1) (phiLowerIntra p.nvar p.npar)
    else farkasLemmaAffine d.bpoly (p.npar + 1 + 2 * (p.nvar + 1) + 1) (phiLowerInter p.nvar p.npar)
  mapRows (scatterRow p.nvar p.npar p.stmts.length d.src d.dest (p.npar + 1)) loc.rows

/-- The dependences looked at in `get_dep_distance_bounding_constraints_for_scc` and
`get_dep_dist_lower_bound_constraints_for_scc`, lib/framework.cpp:1568-1575 and lib/framework.cpp:1699-1706. -/
def depsInside (p : Prog) (S : List Nat) : List Dep :=
  p.deps.filter (fun d => !d.rar && S.contains d.src && S.contains d.dest)

/-- `get_dep_distance_bounding_constraints_for_scc`, lib/framework.cpp:1561-1590: the bounding constraints of the dependences,
as they are before the columns of padding dimensions are set to zero. With `--nodepbound` there are none (a null pointer), and without dependences the
result is null; both are used afterwards. -/
def boundInside (nodepbound : Bool) (p : Prog) (S : List Nat) : Option Cst :=
  if depsInside p S = [] ∨ nodepbound = true then none
  else some ⟨cstWidth p.nvar p.npar p.stmts.length, (depsInside p S).flatMap (boundRows p)⟩

/-- `get_dep_dist_lower_bound_constraints_for_scc`, lib/framework.cpp:1693-1720. The number of rows is 1 at first, so that there is a
zero row before the others. -/
def lowerInside (p : Prog) (S : List Nat) : Cst :=
  ⟨cstWidth p.nvar p.npar p.stmts.length,
    ⟨false, zrow (cstWidth p.nvar p.npar p.stmts.length)⟩ :: (depsInside p S).flatMap (lowerRows p)⟩

/-- `coeff_bound_cst`, lib/framework.cpp:1750-1767: no coefficient nor `w` negative, `u` zero, `w` at most
`MAX_SHORT_DEP_DISTANCE`. -/
def shortBounds (p : Prog) : Cst :=
  let n := cstWidth p.nvar p.npar p.stmts.length
  let c := (List.range' p.npar (n - 1 - p.npar)).foldl (fun c i => addLb c i 0) ⟨n, []⟩
  let c : Cst := ⟨n, c.rows ++ (List.range p.npar).map (fun i => ⟨true, (zrow n).set i 1⟩)⟩
  addUb c p.npar 10

/-- Row `count` of `orthocst`, lib/framework.cpp:1781-1791: the sum of the coefficients outside the face is at least 1. -/
def orthoSum (p : Prog) (i : Nat) (f : List Int) : Row :=
  let n := cstWidth p.nvar p.npar p.stmts.length
  ⟨false, ((List.range p.nvar).foldl (fun r k => if f.getD k 0 = 0 then r.set (stmtOffset p.nvar p.npar i + k) 1 else r) (zrow n)).set (n - 1) (-1)⟩

/-- The rows of `orthocst` for the dimensions of the face, lib/framework.cpp:1785-1789: the coefficient is zero. -/
def orthoZero (p : Prog) (i : Nat) (f : List Int) : List Row :=
  ((List.range p.nvar).filter (fun k => decide (f.getD k 0 ≠ 0))).map
    (fun k => ⟨true, (zrow (cstWidth p.nvar p.npar p.stmts.length)).set (stmtOffset p.nvar p.npar i + k) 1⟩)

/-- `orthocst`, lib/framework.cpp:1772-1793. -/
def orthoFaces (p : Prog) (S : List Nat) (faces : List (List Int)) : Cst :=
  ⟨cstWidth p.nvar p.npar p.stmts.length,
    (S.zip faces).map (fun x => orthoSum p x.1 x.2) ++ (S.zip faces).flatMap (fun x => orthoZero p x.1 x.2)⟩

/-- The system solved by `is_scc_stencil`, lib/framework.cpp:1740-1797. -/
def stencilSystem (nodepbound : Bool) (p : Prog) (S : List Nat) (faces : List (List Int)) : Option Cst := do
  let b ← boundInside nodepbound p S
  return addCst (addCst (addCst b (orthoFaces p S faces)) (lowerInside p S)) (shortBounds p)

/-- `is_scc_stencil`, lib/framework.cpp:1729-1815. `solve` is `pluto_constraints_lexmin` without sign restriction. -/
def isSccStencil (o : SearchOpts) (L : Libs) (solve : Cst → Option (List Int)) (p : Prog) (S : List Nat) : Option Bool := do
  match (← concStartFaces o L p S) with
  | none => return false
  | some faces => do
    let c ← stencilSystem o.nodepbound p S faces
    match solve c with
    | none => return false
    | some sol => return decide (sol.getD p.npar 0 ≠ 0)

end Pluto
