import Verif.Model.Mark
import Verif.Model.Reuse

/-!
Model of the printing of affine functions (lib/math_support.c), of the recognition of tile dimensions and the printing of
hyperplanes (lib/program.cpp), of the `--bee` schedules (tool/pluto_codegen_if.c) and of the choice of loops for unroll-jam with
its tests (lib/polyloop.c). Texts are lists of characters. `none` stands for an access outside an array or for writing past the end
of a buffer.
-/

namespace Pluto

/-- The digits that `%ld` prints for a non-negative number. -/
def natDec (n : Nat) : List Char :=
  if n < 10 then [Char.ofNat (48 + n)] else natDec (n / 10) ++ [Char.ofNat (48 + n % 10)]
termination_by n

/-- The text that `%ld` prints. -/
def intDec (z : Int) : List Char := if z < 0 then '-' :: natDec z.natAbs else natDec z.natAbs

/-- The names used by the two printing functions, lib/math_support.c:537-544 and 594-601: `x1`, `x2`, ... where the caller gives no
name; the buffer for such a name has 5 bytes. A list of names that is too short stands for missing names. -/
def varName (vars : List (List Char)) (j : Nat) : Option (List Char) :=
  match vars[j]? with
  | some s => some s
  | none => if j < 999 then some ('x' :: natDec (j + 1)) else none

/-- One step of the loop of `pluto_affine_function_print`, lib/math_support.c:547-563; `first` is the flag of that name: something
has been printed before. -/
def printTerm (first : Bool) (c : Int) (v : List Char) : List Char :=
  if c = 1 then (if first then ['+'] else []) ++ v
  else if c = -1 then '-' :: v
  else if c ≠ 0 then
    if c > 0 then (if first then ['+'] else []) ++ intDec c ++ v else intDec c ++ v
  else []

/-- The loop of `pluto_affine_function_print`, lib/math_support.c:547-563: the text and the final flag. -/
def printTerms : Bool → List (Int × List Char) → List Char × Bool
  | first, [] => ([], first)
  | first, (c, v) :: l =>
    let r := printTerms (first || decide (c ≠ 0)) l
    (printTerm first c v ++ r.1, r.2)

/-- The constant part, lib/math_support.c:564-575. -/
def printConst (first : Bool) (c : Int) : List Char :=
  if c ≥ 1 then (if first then ['+'] else []) ++ intDec c
  else if c ≤ -1 then intDec c
  else if first then [] else ['0']

/-- `pluto_affine_function_print`, lib/math_support.c:532-580. -/
def printAff (func : List Int) (ndims : Nat) (vars : List (List Char)) : Option (List Char) := do
  let names ← (List.range ndims).mapM (varName vars)
  let k ← func[ndims]?
  let r := printTerms false ((func.take ndims).zip names)
  return r.1 ++ printConst r.2 k

/-- `strcat` of a text onto the contents `out` of a buffer of `n` bytes. -/
def bufCat (n : Nat) (out s : List Char) : Option (List Char) :=
  if out.length + s.length + 1 ≤ n then some (out ++ s) else none

/-- `snprintf` with size `k` at the end of the contents `out` of a buffer of `n` bytes: at most `k - 1` characters. -/
def bufPrint (n : Nat) (out : List Char) (k : Nat) (s : List Char) : Option (List Char) := bufCat n out (s.take (k - 1))

/-- One step of the loop of `pluto_affine_function_sprint`, lib/math_support.c:604-622. -/
def sprintTerm (n : Nat) (out : List Char) (first : Bool) (c : Int) (v : List Char) : Option (List Char) :=
  if c = 1 then do
    let out ← if first then bufCat n out ['+'] else some out
    bufPrint n out 5 v
  else if c = -1 then bufPrint n out 6 ('-' :: v)
  else if c ≠ 0 then
    if c ≥ 1 then bufPrint n out (n - out.length) ((if first then ['+'] else []) ++ intDec c ++ v)
    else bufPrint n out (n - out.length) (intDec c ++ v)
  else some out

/-- The loop of `pluto_affine_function_sprint`, lib/math_support.c:604-622. -/
def sprintTerms (n : Nat) : List Char → Bool → List (Int × List Char) → Option (List Char × Bool)
  | out, first, [] => some (out, first)
  | out, first, (c, v) :: l => do
    let out ← sprintTerm n out first c v
    sprintTerms n out (first || decide (c ≠ 0)) l

/-- The constant part, lib/math_support.c:623-634. -/
def sprintConst (n : Nat) (out : List Char) (first : Bool) (c : Int) : Option (List Char) :=
  if c ≥ 1 then do
    let out ← if first then bufCat n out ['+'] else some out
    bufPrint n out 3 (intDec c)
  else if c ≤ -1 then bufPrint n out 3 (intDec c)
  else if first then some out else bufCat n out ['0']

/-- `pluto_affine_function_sprint`, lib/math_support.c:583-641: the buffer has `9 * ndims + 2` bytes. -/
def sprintAff (func : List Int) (ndims : Nat) (vars : List (List Char)) : Option (List Char) := do
  let names ← (List.range ndims).mapM (varName vars)
  let k ← func[ndims]?
  let r ← sprintTerms (9 * ndims + 2) [] false ((func.take ndims).zip names)
  sprintConst (9 * ndims + 2) r.1 r.2 k

/-- The loop of `pluto_check_supernode`, lib/program.cpp:186-197: the last rows that look like the upper and the lower bound. -/
def superRows (pos : Nat) (ncols : Nat) (rows : List Row) : Option (List Int) × Option (List Int) :=
  rows.foldl (fun s r =>
    let v := r.val.getD pos 0
    let k := r.val.getD (ncols - 1) 0
    (if v ≥ 1 ∧ k = v - 1 then some r.val else s.1, if v ≤ -1 ∧ k = 0 then some r.val else s.2)) (none, none)

/-- `pluto_check_supernode`, lib/program.cpp:175-219: the tile size and the tiled function, `some none` for the result NULL. The
tile size is an `int` in the code. -/
def checkSupernode (dom : Cst) (pos : Nat) : Option (Option (Int × List Int)) :=
  if dom.ncols ≤ pos ∧ dom.rows ≠ [] then none
  else
    match superRows pos dom.ncols dom.rows with
    | (some ub, some lb) =>
      if ub.take (dom.ncols - 1) = (lb.take (dom.ncols - 1)).map (fun v => -v) then some (some (ub.getD pos 0, lb.set pos 0))
      else some none
    | _ => some none

/-- `is_tile_space_loop`, lib/program.cpp:222-231: the depth of the loop is taken as a position in the domain of the first
statement. -/
def isTileSpaceLoop (p : Prog) (l : Loop) : Option Bool := do
  let i ← l.stmts.head?
  let st ← p.stmts[i]?
  let r ← checkSupernode st.domain l.depth
  return r.isSome

/-- `is_skewed`, lib/program.cpp:233-244. -/
def isSkewed (f : List Int) : Bool := decide (1 < (f.filter (fun v => decide (v ≠ 0))).length)

/-- The text for a tile dimension, lib/program.cpp:277-293. -/
def tileText (f : List Int) (T : Int) (s : List Char) : List Char :=
  if isSkewed f then '(' :: s ++ [')', '/'] ++ intDec T else s ++ '/' :: intDec T

/-- One step of the loop over the dimensions, lib/program.cpp:266-295. -/
def tileName (st : Stmt) (n : Nat) (vars : List (List Char)) (j : Nat) : Option (List (List Char)) := do
  match ← checkSupernode st.domain j with
  | none => return vars
  | some (T, f) => do
    let s ← sprintAff f n vars
    return vars.set j (tileText f T s)

/-- `pluto_stmt_print_hyperplane`, lib/program.cpp:249-304. `iters` are the iterator names of the statement; `params` the names of
the parameters, `p?` where there is none. -/
def printHyperplane (st : Stmt) (iters : List (List Char)) (params : List (Option (List Char))) (level : Nat) : Option (List Char) := do
  let n := st.dim + (st.domain.ncols - st.dim - 1)
  if iters.length ≠ st.dim then none
  else do
    let vars ← (List.range st.dim).foldlM (tileName st n) (iters ++ params.map (fun s => s.getD ['p', '?']))
    let row ← st.trans[level]?
    printAff row n vars

/-- The schedule dimensions printed for `--bee`, tool/pluto_codegen_if.c:149-157. -/
def beeSchedule (st : Stmt) (iters : List (List Char)) : Option (List Char) := do
  let l ← st.trans.mapM (fun r => printAff r st.dim iters)
  return (l.map (fun s => '[' :: s ++ [']'])).flatten

/-- The tests on a loop in `pluto_get_unroll_jam_loops`, lib/polyloop.c:588-597, in their order. -/
def unrollJamTest (p : Prog) (A : Accs) (ufactor : Nat) (l : Loop) : Option Bool := do
  if ← isTileSpaceLoop p l then return false
  else if ← loopIsInnermost p l then return false
  else unrollJamProfitable p A ufactor l

/-- `pluto_get_unroll_jam_loops`, lib/polyloop.c:576-606, with all its tests. -/
def getUnrollJamLoops (p : Prog) (A : Accs) (ufactor : Nat) : Option (List Loop) := do
  let bands ← innermostBands p 1
  let ls ← bands.mapM (fun b => do
    let loops ← getLoopsUnder p b.loop.stmts b.loop.depth
    let t ← loops.mapM (unrollJamTest p A ufactor)
    return ((loops.zip t).filter (·.2)).map (·.1))
  return ls.flatten

end Pluto
