import Verif.Model.Codegen
import Verif.Spec.Pipeline

/-! The format of CLooG's input, what it stands for, and what generated code is allowed to do. -/

namespace Pluto

/-- What the reader sees: comments and empty lines are skipped. -/
def dataLines : List Line → List (List CTok)
  | [] => []
  | .comment :: ls => dataLines ls
  | .data [] :: ls => dataLines ls
  | .data (t :: ts) :: ls => (t :: ts) :: dataLines ls

/-- The numbers of a line. -/
def nums : List CTok → Option (List Int)
  | [] => some []
  | .num n :: ts => (nums ts).map (n :: ·)
  | .name _ :: _ => none

/-- The names of a line. -/
def names : List CTok → Option (List String)
  | [] => some []
  | .name s :: ts => (names ts).map (s :: ·)
  | .num _ :: _ => none

/-- A polyhedron as written in the file: rows of a flag (0: equality, 1: inequality) and coefficients. -/
abbrev Poly := List (List Int)

abbrev Lines := List (List CTok)

/-- `r` rows of `c` numbers. -/
def rowsIn (c : Nat) : Nat → Lines → Option (Poly × Lines)
  | 0, ls => some ([], ls)
  | r + 1, l :: ls => do
    let v ← nums l
    if v.length = c then
      let (rs, ls') ← rowsIn c r ls
      return (v :: rs, ls')
    else none
  | _ + 1, [] => none

/-- A polyhedron: a line with the numbers of rows and columns, and the rows. -/
def polyIn : Lines → Option (Poly × Lines)
  | [.num r, .num c] :: ls => if 0 ≤ r ∧ 0 ≤ c then rowsIn c.toNat r.toNat ls else none
  | _ => none

/-- `n` polyhedra. -/
def polysIn : Nat → Lines → Option (List Poly × Lines)
  | 0, ls => some ([], ls)
  | n + 1, ls => do
    let (p, ls) ← polyIn ls
    let (ps, ls) ← polysIn n ls
    return (p :: ps, ls)

/-- A union of polyhedra: a line with their number followed by the polyhedra, or just one polyhedron. -/
def unionIn : Lines → Option (List Poly × Lines)
  | [.num n] :: ls => if 0 ≤ n then polysIn n.toNat ls else none
  | ls => polysIn 1 ls

/-- `n` unions, each followed by a line that is skipped (`0 0 0`). -/
def domainsIn : Nat → Lines → Option (List (List Poly) × Lines)
  | 0, ls => some ([], ls)
  | n + 1, ls => do
    let (u, ls) ← unionIn ls
    match ls with
    | [.num 0, .num 0, .num 0] :: ls => do
      let (us, ls) ← domainsIn n ls
      return (u :: us, ls)
    | _ => none

/-- `n` unions. -/
def scatsIn : Nat → Lines → Option (List (List Poly) × Lines)
  | 0, ls => some ([], ls)
  | n + 1, ls => do
    let (u, ls) ← unionIn ls
    let (us, ls) ← scatsIn n ls
    return (u :: us, ls)

/-- The contents of an input file of CLooG. -/
structure CloogInput where
  ctx : List Poly
  params : List String
  doms : List (List Poly)
  scats : List (List Poly)
  scatNames : List String

/-- A line of `n` names (no line if there are none). -/
def namesIn (n : Nat) (ls : Lines) : Option (List String × Lines) :=
  if n = 0 then some ([], ls)
  else match ls with
  | l :: ls => (names l).bind (fun s => if s.length = n then some (s, ls) else none)
  | [] => none

/-- CLooG's input format: language, context, names of the parameters, number of statements and their domains,
no names for iterators, number of scattering functions and the functions, names of the scattering
dimensions (all functions have the same number of these). `npar` is the number of parameters. -/
def readCloog (npar : Nat) (nscat : Nat) (file : List Line) : Option CloogInput :=
  match dataLines file with
  | [.name "c"] :: ls => do
    let (ctx, ls) ← unionIn ls
    match ls with
    | [.num 1] :: ls => do
      let (params, ls) ← namesIn npar ls
      match ls with
      | [.num n] :: ls => do
        if n < 0 then none
        else do
        let (doms, ls) ← domainsIn n.toNat ls
        match ls with
        | [.num 0] :: [.num k] :: ls => do
          if k < 0 then none
          else if k = 0 then return ⟨ctx, params, doms, [], []⟩
          else do
          let (scats, ls) ← scatsIn k.toNat ls
          match ls with
          | [.num f] :: ls => do
            let (ns, ls) ← if f = 0 then some ([], ls) else namesIn nscat ls
            if ls = [] then return ⟨ctx, params, doms, scats, ns⟩ else none
          | _ => none
        | _ => none
      | _ => none
    | _ => none
  | _ => none

/-- The row holds at the point. -/
def RowHolds (row : List Int) (v : List Int) : Prop :=
  match row with
  | 0 :: r => aff r v = 0
  | 1 :: r => 0 ≤ aff r v
  | _ => False

/-- The point is in the union. -/
def InUnion (u : List Poly) (v : List Int) : Prop := ∃ p ∈ u, ∀ r ∈ p, RowHolds r v

/-- The parameters meet the context. -/
def CloogInput.Context (c : CloogInput) (q : List Int) : Prop := InUnion c.ctx q

/-- `x` (of `dim` entries) is an instance of statement `i`. -/
def CloogInput.Runs (c : CloogInput) (q : List Int) (i : Nat) (x : List Int) : Prop := ∃ u, c.doms[i]? = some u ∧ InUnion u (x ++ q)

/-- The instance `x` of statement `i` is scheduled at `t`. -/
def CloogInput.At (c : CloogInput) (q : List Int) (i : Nat) (x t : List Int) : Prop :=
  t.length = c.scatNames.length ∧ ∃ u, c.scats[i]? = some u ∧ InUnion u (t ++ x ++ q)

/-- What CLooG guarantees of the code it generates from the input, for parameters `q` in the context: it runs
the instances (statement, iterators; `dim i` many for statement `i`) of `run`, in this order, where every
instance in the domains occurs exactly once, nothing else does, and no instance comes after one with a
lexicographically later time. -/
structure Generated (c : CloogInput) (dim : Nat → Nat) (q : List Int) (run : List (Nat × List Int)) : Prop where
  all : ∀ i x, (i, x) ∈ run ↔ x.length = dim i ∧ c.Runs q i x
  once : run.Nodup
  order : run.Pairwise (fun a b => ∀ t u, c.At q a.1 a.2 t → c.At q b.1 b.2 u → ¬ LexBefore u t)

/-- `a` comes before `b` in the list. -/
def ComesBefore {α : Type*} (l : List α) (a b : α) : Prop := ∃ (i j : Nat), i < j ∧ l[i]? = some a ∧ l[j]? = some b

/-- The pieces of a text between commas. -/
def splitComma : List Char → List (List Char)
  | [] => [[]]
  | c :: cs => if c = ',' then [] :: splitComma cs else
    match splitComma cs with
    | w :: ws => (c :: w) :: ws
    | [] => [[c]]

/-- The names in a clause: separated by commas, spaces do not matter. -/
def clauseNames (s : List Char) : List (List Char) := (splitComma s).map (fun w => w.filter (fun c => c != ' '))

/-- The name of the iterator of a level (counted from 1). -/
def levelName (k : Nat) : List Char := 't' :: (Nat.repr k).toList

end Pluto
