import Verif.Model.Constraints

/-!
Model of the linked-list (union) versions of the functions of lib/constraints.c. A PlutoConstraints
list is a Lean list of systems, head first.
-/

namespace Pluto

/-- `pluto_constraints_simplify`, lib/constraints.c:378-474, on a list. An element without rows
returns early (line 381), so the elements behind it are left as they are. -/
def simplifyList : List Cst → List Cst
  | [] => []
  | c :: cs => if c.rows = [] then c :: cs else simplify c :: simplifyList cs

/-- `fourier_motzkin_eliminate`, lib/constraints.c:485-581, on a list: every element. The elements
are simplified one by one before being linked (line 575 runs on an unlinked copy). -/
def fmEliminateList (l : List Cst) (pos : Nat) : List Cst := l.map (fun c => fmEliminate c pos)

/-- `pluto_constraints_gaussian_eliminate`, lib/constraints.c:2565-2608, on a list: every element,
`none` when some element has no pivot (the assertion fails). -/
def gaussEliminateList : List Cst → Nat → Option (List Cst)
  | [], _ => some []
  | c :: cs, pos =>
    match gaussEliminate c pos, gaussEliminateList cs pos with
    | some c', some cs' => some (c' :: cs')
    | _, _ => none

/-- Repeated elimination of the first variable, the loop lib/pluto.c:1166-1170 that projects a
domain onto the parameters. -/
def fmEliminateFront (c : Cst) : Nat → Cst
  | 0 => c
  | n + 1 => fmEliminateFront (fmEliminate c 0) n

/-! ### Union lists -/

/-- `pluto_constraints_add_dim`, lib/constraints.c:1601-1636, on a list. -/
def addDimList (l : List Cst) (pos : Nat) : List Cst := l.map (fun c => addDim c pos)

/-- `pluto_constraints_remove_dim`, lib/constraints.c:1535-1561, on a list. -/
def removeDimList (l : List Cst) (pos : Nat) : List Cst := l.map (fun c => removeDim c pos)

/-- `pluto_constraints_interchange_cols`, lib/constraints.c:1825-1839, on a list. -/
def interchangeColsList (l : List Cst) (i j : Nat) : List Cst := l.map (fun c => interchangeCols c i j)

/-- `pluto_constraints_add_lb`, lib/constraints.c:1649-1659, on a list (`add_inequality` and the loop
both visit every element). -/
def addLbList (l : List Cst) (v : Nat) (lb : Int) : List Cst := l.map (fun c => addLb c v lb)

/-- `pluto_constraints_add_ub`, lib/constraints.c:1662-1672, on a list. -/
def addUbList (l : List Cst) (v : Nat) (ub : Int) : List Cst := l.map (fun c => addUb c v ub)

/-- `pluto_constraints_set_var`, lib/constraints.c:1675-1685, on a list. -/
def setVarList (l : List Cst) (v : Nat) (x : Int) : List Cst := l.map (fun c => setVar c v x)

/-- `pluto_constraints_unionize_simple`, lib/constraints.c:1930-1938. First component: the list that
`cst1` now heads. Second component: the list headed by the *returned* pointer, which is the last
element of the old `cst1` list (the loop advances `cst1`). -/
def unionizeSimple (l1 l2 : List Cst) : List Cst × List Cst :=
  (l1 ++ l2, l1.drop (l1.length - 1) ++ l2)

/-- `isl_set_to_pluto_constraints`, lib/constraints_isl.c:176-187, given the basic sets isl enumerates:
the callback `extract_basic_set_constraints` (lib/constraints_isl.c:154-173) ignores the returned
pointer. No basic set: the empty system. -/
def islSetToCst (ncols : Nat) (pieces : List Cst) : List Cst :=
  let l := pieces.foldl (fun acc b => if acc = [] then [b] else (unionizeSimple acc [b]).1) []
  if l = [] then [emptyCst ncols] else l

/-- Statement domain built by `extract_basic_set`, lib/plutolib.c:114-131, from the basic sets isl
enumerates: the callback replaces the domain by the returned pointer. -/
def extractDomain (pieces : List Cst) : List Cst :=
  pieces.foldl (fun acc b => if acc = [] then [b] else (unionizeSimple acc [b]).2) []

/-- `pluto_constraints_is_empty`, lib/constraints.c:1903-1927, without `--islsolve`: the head is tested
by PIP (`isEmpty`, asked about the head only), then the rest. -/
def isEmptyList (isEmpty : Cst → Bool) : List Cst → Bool
  | [] => true
  | [c] => isEmpty c
  | c :: cs => if isEmpty c then isEmptyList isEmpty cs else false

/-- A list element together with `alloc_nrows` (lib/constraints.h:24-52). -/
structure ACst where
  cst : Cst
  alloc : Nat
deriving DecidableEq, Repr

/-- `pluto_constraints_resize_single`, lib/constraints.c:127-170, with `ncols` unchanged: the number
of rows becomes `n`, dropping or appending rows (new rows are `0 >= 0`). -/
def resizeSingle (a : ACst) (n : Nat) : ACst :=
  ⟨{ a.cst with rows := a.cst.rows.take n ++
      List.replicate (n - a.cst.rows.length) ⟨false, List.replicate a.cst.ncols 0⟩ }, max n a.alloc⟩

/-- `pluto_constraints_add_to_each`, lib/constraints.c:310-333. When the head has no room,
`pluto_constraints_resize` (lib/constraints.c:114-120) gives *every* following element the row count of
the head. -/
def addToEach : List ACst → Cst → List ACst
  | [], _ => []
  | a :: rest, c =>
    let n := a.cst.rows.length + c.rows.length
    if n > a.alloc then
      ⟨addCst a.cst c, max n a.alloc⟩ :: addToEach (rest.map (fun b => resizeSingle b n)) c
    else ⟨addCst a.cst c, a.alloc⟩ :: addToEach rest c
termination_by l => l.length

/-! ### PolyLib matrices and text -/

/-- `pluto_constraints_to_matrix`, lib/constraints.c:721-733 (first element of the list). -/
def toMatrix (c : Cst) : List (List Int) := c.rows.map fun r => (if r.eq then 0 else 1) :: r.val

/-- `pluto_constraints_from_matrix`, lib/constraints.c:755-770; `ncols` is the column count of the
matrix. -/
def fromMatrix (ncols : Nat) (m : List (List Int)) : Cst :=
  ⟨ncols - 1, m.map fun v => ⟨decide (coef v 0 = 0), v.drop 1⟩⟩

/-- `pluto_constraints_from_mixed_matrix`, lib/constraints.c:736-752. -/
def fromMixedMatrix (ncols : Nat) (m : List (List Int)) (isEq : List Bool) : Cst :=
  ⟨ncols, List.zipWith (fun v e => ⟨e, v⟩) m isEq⟩

/-- A word of a text file, as `fscanf` sees it: something `%d`/`%ld` accepts, or another word. -/
inductive Tok where
  | num (n : Int)
  | word (s : String)
deriving DecidableEq, Repr

/-- `pluto_constraints_print_polylib_without_num`, lib/constraints.c:691-707. White space is not
represented. -/
def printWithoutNum : List Cst → List Tok
  | [] => []
  | c :: cs => [.num c.rows.length, .num (c.ncols + 1)] ++
      c.rows.flatMap (fun r => .num (if r.eq then 0 else 1) :: r.val.map .num) ++ printWithoutNum cs

/-- `pluto_constraints_print_polylib`, lib/constraints.c:709-718: the number of elements is printed
first when there are at least two. -/
def printPolylib (l : List Cst) : List Tok :=
  (if 2 ≤ l.length then [.num l.length] else []) ++ printWithoutNum l

/-- Outcome of `pluto_constraints_read`: NULL, use of an uninitialised value or a buffer overflow, or a
system with its names and the unread rest of the file. -/
inductive ReadResult where
  | null
  | undef
  | ok (c : Cst) (names : List String) (rest : List Tok)
deriving DecidableEq, Repr

/-- `n` times `fscanf("%ld")`; `none`: a conversion failed, the value stays uninitialised. -/
def readNums : Nat → List Tok → Option (List Int × List Tok)
  | 0, ts => some ([], ts)
  | n + 1, .num v :: ts => (readNums n ts).map fun (vs, r) => (v :: vs, r)
  | _ + 1, _ => none

/-- The row loop, lib/constraints.c:803-809. `ineq ^ 1` is the equality flag: anything but 1 makes the
flag non-zero. -/
def readRows : Nat → Nat → List Tok → Option (List Row × List Tok)
  | 0, _, ts => some ([], ts)
  | n + 1, ncols, .num q :: ts =>
    match readNums ncols ts with
    | some (v, ts') => (readRows n ncols ts').map fun (rs, r) => (⟨decide (q ≠ 1), v⟩ :: rs, r)
    | none => none
  | _ + 1, _, _ => none

/-- The names, lib/constraints.c:814-817: each goes to a 6 byte buffer. -/
def readNames : Nat → List Tok → Option (List String × List Tok)
  | 0, ts => some ([], ts)
  | n + 1, t :: ts =>
    let s := match t with | .num v => toString v | .word s => s
    if s.length ≤ 5 then (readNames n ts).map fun (ss, r) => (s :: ss, r) else none
  | _ + 1, [] => none

/-- `pluto_constraints_read`, lib/constraints.c:789-821. Negative counts are treated as undefined
(`pluto_constraints_alloc` with a negative size). -/
def readCst (ts : List Tok) : ReadResult :=
  match ts with
  | .num nr :: .num nc :: ts =>
    if nr < 0 ∨ nc < 1 then .undef
    else match readRows nr.toNat (nc.toNat - 1) ts with
      | none => .undef
      | some (rs, ts') =>
        let c : Cst := ⟨nc.toNat - 1, rs⟩
        match ts' with
        | [] => .ok c [] []
        | .word _ :: _ => .undef
        | .num k :: ts'' =>
          match readNames k.toNat ts'' with
          | none => .undef
          | some (ss, r) => .ok c ss r
  | _ => .null

end Pluto
