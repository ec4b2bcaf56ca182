import Verif.Model.Prog

/-!
Model of lib/framework.cpp: legality, bounding and Feautrier constraints. Inside the search every
statement has dimensionality `nvar` (see `normalize_domains`).
-/

namespace Pluto

/-- A zero row (`pluto_matrix_set(phi, 0)`, `pluto_constraints_alloc`). -/
def zrow (n : Nat) : List Int := List.replicate n 0

/-- `CST_WIDTH`, lib/pluto.h:71. -/
def cstWidth (nvar npar nstmts : Nat) : Nat := npar + 1 + nstmts * (nvar + 1) + 1

/-- Template for `phi(t) - phi(s) + k >= 0`, source and target statement different,
lib/framework.cpp:83-100 (`k = 0`) and lib/framework.cpp:510-529 (`k = -1`). -/
def phiValidInter (nvar npar : Nat) (k : Int) : List (List Int) :=
  let w := 2 * (nvar + 1) + 1
  (List.range nvar).map (fun r => (zrow w).set r (-1)) ++
  (List.range nvar).map (fun r => (zrow w).set (nvar + 1 + r) 1) ++
  List.replicate npar (zrow w) ++
  [(((zrow w).set (nvar + 1 + nvar) 1).set nvar (-1)).set (2 * (nvar + 1)) k]

/-- Template for `phi(t) - phi(s) + k >= 0`, same statement: row `r` of the source iterators holds
-1 and row `nvar + r` of the target iterators +1 in the same column; the translation cancels,
lib/framework.cpp:101-117 and lib/framework.cpp:530-550. -/
def phiValidIntra (nvar npar : Nat) (k : Int) : List (List Int) :=
  let w := nvar + 1 + 1
  (List.range nvar).map (fun r => (zrow w).set r (-1)) ++
  (List.range nvar).map (fun r => (zrow w).set r 1) ++
  List.replicate npar (zrow w) ++
  [(zrow w).set (nvar + 1) k]

/-- Template for `u.p + w - (phi(t) - phi(s)) >= 0`, different statements,
lib/framework.cpp:124-147. -/
def phiBoundInter (nvar npar : Nat) : List (List Int) :=
  let w := npar + 1 + 2 * (nvar + 1) + 1
  (List.range nvar).map (fun r => (zrow w).set (npar + 1 + r) 1) ++
  (List.range nvar).map (fun r => (zrow w).set (npar + 1 + (nvar + 1) + r) (-1)) ++
  (List.range npar).map (fun r => (zrow w).set r 1) ++
  [(((zrow w).set (npar + 1 + nvar) 1).set (npar + 1 + (nvar + 1) + nvar) (-1)).set npar 1]

/-- Template for `u.p + w - (phi(t) - phi(s)) >= 0`, same statement, lib/framework.cpp:148-170. -/
def phiBoundIntra (nvar npar : Nat) : List (List Int) :=
  let w := npar + 1 + (nvar + 1) + 1
  (List.range nvar).map (fun r => (zrow w).set (npar + 1 + r) 1) ++
  (List.range nvar).map (fun r => (zrow w).set (npar + 1 + r) (-1)) ++
  (List.range npar).map (fun r => (zrow w).set r 1) ++
  [(zrow w).set npar 1]

/-- Effect of a loop `row[off + j] = vals[j]`. -/
def writeSlice (row : List Int) (off : Nat) (vals : List Int) : List Int :=
  row.take off ++ vals ++ row.drop (off + vals.length)

/-- Offset of the coefficients of statement `i` in the global layout,
`npar + 1 + i * (nvar + 1)` (lib/framework.cpp:187-188). -/
def stmtOffset (nvar npar i : Nat) : Nat := npar + 1 + i * (nvar + 1)

/-- One local Farkas row put into the global layout, lib/framework.cpp:190-215 (`lead = 0`: no bound
columns) and lib/framework.cpp:225-249 (`lead = npar + 1`). -/
def scatterRow (nvar npar nstmts src dest lead : Nat) (v : List Int) : List Int :=
  let w := cstWidth nvar npar nstmts
  let r0 := writeSlice (zrow w) 0 (v.take lead)
  let r1 := writeSlice r0 (stmtOffset nvar npar src) ((v.drop lead).take (nvar + 1))
  let r2 := if src = dest then r1
    else writeSlice r1 (stmtOffset nvar npar dest) ((v.drop (lead + (nvar + 1))).take (nvar + 1))
  r2.set (w - 1) (coef v (if src = dest then lead + nvar + 1 else lead + 2 * nvar + 2))

/-- Zeroing of the columns of padding dimensions, lib/framework.cpp:256-271. The C test
`src_stmt != dest_offset` compares a statement number with a column offset; it is kept as is. -/
def zeroPad (nvar npar src dest : Nat) (origSrc origDest : List Bool) (row : List Int) : List Int :=
  (List.range nvar).foldl (fun row k =>
    let row := if origSrc.getD k true then row else row.set (stmtOffset nvar npar src + k) 0
    if src ≠ stmtOffset nvar npar dest ∧ origDest.getD k true = false then
      row.set (stmtOffset nvar npar dest + k) 0
    else row) row

/-- A system mapped row by row. -/
def mapRows (f : List Int → List Int) (rows : List Row) : List Row :=
  rows.map (fun r => { r with val := f r.val })

/-- Rows of the tiling validity constraints of a dependence in global layout (before zeroing),
lib/framework.cpp:61-215. -/
def validRows (p : Prog) (d : Dep) : List Row :=
  let loc := if d.src = d.dest then
      farkasLemmaAffine d.dpoly (p.nvar + 1 + 1) (phiValidIntra p.nvar p.npar 0)
    else farkasLemmaAffine d.dpoly (2 * (p.nvar + 1) + 1) (phiValidInter p.nvar p.npar 0)
  mapRows (scatterRow p.nvar p.npar p.stmts.length d.src d.dest 0) loc.rows

/-- Rows of the bounding function constraints, lib/framework.cpp:121-253. -/
def boundRows (p : Prog) (d : Dep) : List Row :=
  let loc := if d.src = d.dest then
      farkasLemmaAffine d.bpoly (p.npar + 1 + (p.nvar + 1) + 1) (phiBoundIntra p.nvar p.npar)
    else farkasLemmaAffine d.bpoly (p.npar + 1 + 2 * (p.nvar + 1) + 1) (phiBoundInter p.nvar p.npar)
  mapRows (scatterRow p.nvar p.npar p.stmts.length d.src d.dest (p.npar + 1)) loc.rows

/-- `is_orig_loop` of a statement of the program. -/
def origOf (p : Prog) (i : Nat) : List Bool := (p.stmts[i]?.map (·.isOrig)).getD []

/-- `compute_permutability_constraints_dep`, lib/framework.cpp:62-272: the value of `dep->cst`. -/
def depCst (nodepbound : Bool) (p : Prog) (d : Dep) : Cst :=
  ⟨cstWidth p.nvar p.npar p.stmts.length,
   mapRows (zeroPad p.nvar p.npar d.src d.dest (origOf p d.src) (origOf p d.dest))
     ((if d.rar then [] else validRows p d) ++ (if nodepbound then [] else boundRows p d))⟩

/-- `CONSTRAINTS_SIMPLIFY_THRESHOLD`, lib/framework.cpp:32. -/
def simplifyThreshold : Nat := 10000

/-- One step of the accumulation loop of `get_permutability_constraints`: state is the system built
so far and the counter `inc`. -/
def permStep (rarOpt nodepbound : Bool) (p : Prog) (st : Cst × Nat) (d : Dep) : Cst × Nat :=
  if rarOpt = false ∧ d.rar = true then st
  else if d.satisfied then st
  else
    let c := depCst nodepbound p d
    let g := addCst st.1 c
    if g.rows.length ≥ simplifyThreshold + 3000 * st.2 ∧
        g.rows.length - c.rows.length < simplifyThreshold + 3000 * st.2 then
      (simplify g, st.2 + 1)
    else (g, st.2)

/-- `get_permutability_constraints`, lib/framework.cpp:348-485. Without `skipdeps.txt` and without
`--per-cc-obj` (their default); `dep->cst` is computed on first use and does not change afterwards. -/
def permutabilityConstraints (rarOpt nodepbound : Bool) (p : Prog) : Cst :=
  simplify (p.deps.foldl (permStep rarOpt nodepbound p)
    (⟨cstWidth p.nvar p.npar p.stmts.length, []⟩, 0)).1

/-- `get_feautrier_schedule_constraints_dep`, lib/framework.cpp:489-610. -/
def feautrierDep (p : Prog) (d : Dep) : Cst :=
  let loc := if d.src = d.dest then
      farkasLemmaAffine d.dpoly (p.nvar + 1 + 1) (phiValidIntra p.nvar p.npar (-1))
    else farkasLemmaAffine d.dpoly (2 * (p.nvar + 1) + 1) (phiValidInter p.nvar p.npar (-1))
  ⟨cstWidth p.nvar p.npar p.stmts.length,
   mapRows (zeroPad p.nvar p.npar d.src d.dest (origOf p d.src) (origOf p d.dest))
     (if d.rar then []
      else mapRows (scatterRow p.nvar p.npar p.stmts.length d.src d.dest 0) loc.rows)⟩

/-- `get_feautrier_schedule_constraints`, lib/framework.cpp:613-671. `stmts` is the list of statement
numbers it is restricted to. The intermediate simplification is left out: it reads a freed object
(line 647) and only removes redundant rows. -/
def feautrierConstraints (rarOpt : Bool) (p : Prog) (stmts : List Nat) : Cst :=
  simplify (p.deps.foldl (fun g d =>
      if rarOpt = false ∧ d.rar = true then g
      else if d.src ∈ stmts ∧ d.dest ∈ stmts then addCst g (feautrierDep p d) else g)
    ⟨cstWidth p.nvar p.npar p.stmts.length, []⟩)

/-- Row added for one statement by `pluto_add_hyperplane_from_ilp_solution`,
lib/framework.cpp:1416-1449. -/
def hyperplaneRow (nvar npar : Nat) (sol : List Int) (j : Nat) : List Int :=
  (sol.drop (stmtOffset nvar npar j)).take nvar ++ zrow npar ++
    [coef sol (stmtOffset nvar npar j + nvar)]

end Pluto
