import Verif.Model.IslConv
import Verif.Model.Remap
import Verif.Model.Mark

/-!
Output of the tool: the input file for CLooG, the levels that CLooG is to optimize, and the clauses of parallel
loops (tool/pluto_codegen_if.c, tool/ast_transform.c).
-/

namespace Pluto

/-- What the file consists of: numbers and names. -/
inductive CTok | num (n : Int) | name (s : String)
deriving DecidableEq, Repr

/-- A line of the file: a comment (starting with `#`) or numbers and names (none: an empty line). -/
inductive Line | comment | data (ts : List CTok)
deriving DecidableEq, Repr

/-- One row as printed by `pluto_constraints_print_polylib_without_num`, lib/constraints.c:691-707. -/
def rowLine (r : Row) : Line := .data (.num (if r.eq then 0 else 1) :: r.val.map .num)

/-- `pluto_constraints_print_polylib_without_num`, lib/constraints.c:691-707, for one element of the list. -/
def polyLines (c : Cst) : List Line := .data [.num c.rows.length, .num (c.ncols + 1)] :: c.rows.map rowLine

/-- `pluto_constraints_print_polylib`, lib/constraints.c:709-718. -/
def unionLines (cs : List Cst) : List Line :=
  (if 2 ≤ cs.length then [.data [.num cs.length]] else []) ++ cs.flatMap polyLines

/-- The domain of statement `i` in the file, tool/pluto_codegen_if.c:92-96. The comment line holds the text of the
statement: `rest` are the lines of the text after its first. -/
def domainLines (st : Stmt) (rest : List Line) : List Line :=
  .comment :: rest ++ unionLines [st.domain] ++ [.data [.num 0, .num 0, .num 0], .data []]

/-- The scattering of a statement in the file, tool/pluto_codegen_if.c:107-113. -/
def schedLines (st : Stmt) : List Line := .comment :: unionLines [stmtGetSchedule st.domain.ncols st.trans] ++ [.data []]

/-- The scatterings in the file and the names of their dimensions, tool/pluto_codegen_if.c:101-123. -/
def scatLines : List Stmt → List Line
  | [] => [.data [.num 0], .data []]
  | st :: sts => [.data [.num (sts.length + 1)], .data []] ++ (st :: sts).flatMap schedLines ++
      [.comment, .data [.num st.trans.length], .data ((List.range st.trans.length).map (fun i => .name s!"t{i + 1}"))]

/-- `pluto_gen_cloog_file`, tool/pluto_codegen_if.c:62-125. `params` are the names of the parameters, `pctx` and
`cctx` the parameter and code generation contexts (lists denote unions), `texts i` the lines of the text
of statement `i` after its first. -/
def genCloogFile (ops : IslOps) (params : List String) (pctx cctx : List Cst) (texts : Nat → List Line) (p : Prog) : List Line :=
  [.comment, .comment, .data [.name "c"], .data []] ++
  unionLines (intersectIsl ops pctx cctx) ++
  [.data [], .data [.num 1], .data (params.map .name), .data []] ++
  [.comment, .data [.num p.stmts.length], .data []] ++
  (p.stmts.mapIdx (fun i st => domainLines st (texts i))).flatten ++
  [.comment, .data [.num 0], .data [], .comment] ++
  scatLines p.stmts

/-- `get_first_point_loop`, tool/pluto_codegen_if.c:32-59, for statements of type ORIG (all that the modelled code
creates); `last` is `last_tile_dim`. -/
def firstPointLoop (p : Prog) (st : Stmt) (last : Int) : Nat :=
  let start := (last + 1).toNat
  match (List.range' start (st.trans.length - start)).find? (fun i => st.hypTypes[i]? == some .loop) with
  | some i => if i < p.hProps.length then i else 0
  | none => if max start st.trans.length < p.hProps.length then max start st.trans.length else 0

/-- `sprintf(private_vars + strlen(private_vars), ",t%u", depth)` for the given depths,
tool/ast_transform.c:23-127. -/
def commaLevels (ds : List Nat) : List Char := ds.flatMap (fun d => ',' :: 't' :: (Nat.repr d).toList)

/-- `sprintf(private_vars + strlen(private_vars), "t%d,", depth)` for the given depths,
tool/pluto_codegen_if.c:414-464. -/
def levelsComma (ds : List Nat) : List Char := ds.flatMap (fun d => 't' :: (Nat.repr d).toList ++ [','])

/-- `max_depth`: the largest number of rows of a schedule of the loop's statements. -/
def maxDepth (p : Prog) (l : Loop) : Nat := ((l.stmts.filterMap (fun i => p.stmts[i]?)).map (·.trans.length)).foldl max 0

/-- The levels `depth + 2, ..., max_depth` (counted from 1) inside a loop. -/
def innerLevels (p : Prog) (l : Loop) : List Nat := List.range' (l.depth + 2) (maxDepth p l - (l.depth + 1))

/-- The private variables given to a loop by `pluto_mark_parallel`, tool/ast_transform.c:23-127, with `--parallel`.
`none`: more than the 512 bytes of the buffer are written. -/
def markPrivate (p : Prog) (l : Loop) : Option (List Char) :=
  let s := "lbv,ubv".toList ++ commaLevels (innerLevels p l)
  if s.length < 512 then some s else none

/-- The private variables of a loop of `pluto_get_parallel_loop_list`, tool/pluto_codegen_if.c:414-464. `none`: more
than the 128 bytes of the buffer are written. -/
def listPrivate (vloopsfound : Bool) (p : Prog) (l : Loop) : Option (List Char) :=
  let s := (if vloopsfound then "lbv, ubv".toList else []) ++ levelsComma (innerLevels p l)
  if s.length < 128 then some s.dropLast else none

/-- `pluto_mark_unroll_jam`, tool/ast_transform.c:131-188: the AST loops that are marked (with the unroll factor). `want` as
for `unrollJamLoops`. -/
def markUnrollJam (p : Prog) (want : Loop → Bool) (ast : List AstLoop) : Option (List AstLoop) := do
  return ((← unrollJamLoops p want).map (clastFilter ast)).flatten

/-- A line of the file `.pragmas` written by `pluto_omp_parallelize`, tool/pluto_codegen_if.c:336-409: the loop (its
level, from 1) and the variables of the clauses. -/
structure Pragma where
  loop : Nat
  shared : List String
  priv : List String
deriving DecidableEq, Repr

/-- `lb<i>,ub<i>` for `i` from `a + 1` to `b`. -/
def boundVars (a b : Nat) : List String := (List.range' a (b - a)).flatMap (fun i => [s!"lb{i + 1}", s!"ub{i + 1}"])

/-- The line for one loop, tool/pluto_codegen_if.c:336-409: `n` is `num_parallel_loops`. -/
def pragma (prevector multipar : Bool) (hyps n loop : Nat) : Pragma :=
  ⟨loop + 1, (List.range loop).map (fun i => s!"t{i + 1}") ++ boundVars 0 (n + 1),
   (if prevector then ["ubv", "lbv"] else []) ++ (if multipar then boundVars (n + 1) 2 else []) ++
   (List.range' loop (hyps - loop)).map (fun i => s!"t{i + 1}")⟩

/-- The loop of `pluto_omp_parallelize`, tool/pluto_codegen_if.c:336-409, over the levels `ls` still to come. `par l` is
`hProps[l].dep_prop == PARALLEL && hProps[l].type != H_SCALAR`. -/
def ompLoop (prevector multipar : Bool) (hyps : Nat) (par : Nat → Bool) : Nat → List Nat → List Pragma
  | _, [] => []
  | n, l :: ls =>
    if par l then
      pragma prevector multipar hyps n l ::
        (if multipar && n + 1 != 2 then ompLoop prevector multipar hyps par (n + 1) ls else [])
    else ompLoop prevector multipar hyps par n ls

/-- `pluto_omp_parallelize`, tool/pluto_codegen_if.c:336-409; the return value is the number of lines. -/
def ompParallelize (prevector multipar : Bool) (hyps : Nat) (par : Nat → Bool) : List Pragma :=
  ompLoop prevector multipar hyps par 0 (List.range hyps)

end Pluto
