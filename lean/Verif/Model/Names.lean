/-! The names of the variables of a system of constraints: the array `names` of `PlutoConstraints` and the functions
of lib/constraints.c that move, free and copy its entries. Only the fields these functions use are modelled (the
coefficients are in Model/Constraints.lean and others); one element of a list of systems is modelled, the functions
that go on with `next` treat each element the same way. Anything with an undefined effect (reading, writing or freeing
outside the array, using or freeing freed memory, writing through a null pointer, a failed assertion) is `none`. -/

namespace Pluto

/-- A `char *` in an array of names: never written, null, or the address of a string. -/
inductive NameSlot where
  | undef
  | null
  | ptr (k : Nat)
deriving DecidableEq, Repr

/-- The strings in memory. `next` is the next address handed out; a freed address has no string. -/
structure NameHeap where
  next : Nat
  at_ : Nat → Option String

/-- The fields of `PlutoConstraints` used here (include/pluto/internal/constraints.h `struct pluto_constraints`). -/
structure NamedCst where
  nrows : Nat
  ncols : Nat
  allocRows : Nat
  allocCols : Nat
  names : Option (List NameSlot)

/-- `strdup` (and `malloc` followed by `sprintf` at lib/plutolib.c:179-180): a new string. -/
def nameDup (h : NameHeap) (s : String) : NameHeap × NameSlot :=
  ({ next := h.next + 1, at_ := fun i => if i = h.next then some s else h.at_ i }, .ptr h.next)

/-- `free(names[i])`. -/
def freeName (h : NameHeap) (arr : List NameSlot) (i : Nat) : Option NameHeap :=
  match arr[i]? with
  | some .null => some h
  | some (.ptr k) =>
    if (h.at_ k).isSome then some { h with at_ := fun j => if j = k then none else h.at_ j } else none
  | _ => none

/-- `for (i = from; i < from + n; i++) free(names[i]);` -/
def freeNames (h : NameHeap) (arr : List NameSlot) (i : Nat) : Nat → Option NameHeap
  | 0 => some h
  | n + 1 => do
    let h ← freeName h arr i
    freeNames h arr (i + 1) n

/-- `names[i] = v;` -/
def writeName (arr : List NameSlot) (i : Nat) (v : NameSlot) : Option (List NameSlot) :=
  if i < arr.length then some (arr.set i v) else none

/-- `for (i = from; i < from + n; i++) names[i] = NULL;` -/
def nullNames (arr : List NameSlot) (i : Nat) : Nat → Option (List NameSlot)
  | 0 => some arr
  | n + 1 => do
    let arr ← writeName arr i .null
    nullNames arr (i + 1) n

/-- `realloc(names, n * sizeof(char *))`; with `n = 0` the array is freed and the result is null (glibc). -/
def reallocNames (arr : List NameSlot) (n : Nat) : Option (List NameSlot) :=
  if n = 0 then none else some (arr.take n ++ List.replicate (n - arr.length) .undef)

/-- lib/constraints.c:127-170 `pluto_constraints_resize_single`, names and sizes. `ncols ≥ 1`. -/
def resizeNames (h : NameHeap) (c : NamedCst) (nrows ncols : Nat) : Option (NameHeap × NamedCst) :=
  let c' := { c with nrows := nrows, ncols := ncols, allocRows := max nrows c.allocRows,
                     allocCols := max ncols c.allocCols }
  match c.names with
  | none => some (h, c')
  | some arr => do
    let h ← freeNames h arr (ncols - 1) (c.ncols - ncols)
    match reallocNames arr (ncols - 1) with
    | none => some (h, { c' with names := none })
    | some arr => do
      let arr ← nullNames arr (c.ncols - 1) (ncols - c.ncols)
      some (h, { c' with names := some arr })

/-- lib/constraints.c:2267-2277 `pluto_constraints_remove_names_single`. -/
def removeNames (h : NameHeap) (c : NamedCst) : Option (NameHeap × NamedCst) :=
  match c.names with
  | none => some (h, c)
  | some arr => do
    let h ← freeNames h arr 0 (c.ncols - 1)
    some (h, { c with names := none })

/-- `names[d] = src[s] ? strdup(src[s]) : NULL` (lib/constraints.c:2297-2299, 2326-2332). -/
def copyName (h : NameHeap) (arr src : List NameSlot) (d s : Nat) : Option (NameHeap × List NameSlot) :=
  match src[s]? with
  | some .null => do
    let arr ← writeName arr d .null
    some (h, arr)
  | some (.ptr k) => do
    let str ← h.at_ k
    let (h, v) := nameDup h str
    let arr ← writeName arr d v
    some (h, arr)
  | _ => none

/-- The loop around `copyName`. -/
def copyNames (h : NameHeap) (arr src : List NameSlot) (d s : Nat) : Nat → Option (NameHeap × List NameSlot)
  | 0 => some (h, arr)
  | n + 1 => do
    let (h, arr) ← copyName h arr src d s
    copyNames h arr src (d + 1) (s + 1) n

/-- lib/constraints.c:2285-2293: the old names are freed, or the array is allocated. -/
def setNamesInit (h : NameHeap) (c : NamedCst) : Option (NameHeap × List NameSlot) :=
  match c.names with
  | some arr => do
    let h ← freeNames h arr 0 (c.ncols - 1)
    some (h, arr)
  | none => some (h, List.replicate (c.ncols - 1) .undef)

/-- lib/constraints.c:2282-2300 `pluto_constraints_set_names`. -/
def setNames (h : NameHeap) (c : NamedCst) (src : List NameSlot) : Option (NameHeap × NamedCst) := do
  let (h, arr) ← setNamesInit h c
  let (h, arr) ← copyNames h arr src 0 0 (c.ncols - 1)
  some (h, { c with names := some arr })

/-- lib/constraints.c:2312-2321: the array is allocated with null entries, or the old names of the range are freed. -/
def setNamesRangeInit (h : NameHeap) (c : NamedCst) (dOff num : Nat) : Option (NameHeap × List NameSlot) :=
  match c.names with
  | none => do
    let arr ← nullNames (List.replicate (c.ncols - 1) .undef) 0 (c.ncols - 1)
    some (h, arr)
  | some arr => do
    let h ← freeNames h arr dOff num
    some (h, arr)

/-- lib/constraints.c:2302-2333 `pluto_constraints_set_names_range`; `src = none` is a null pointer. -/
def setNamesRange (h : NameHeap) (c : NamedCst) (src : Option (List NameSlot)) (dOff sOff num : Nat) :
    Option (NameHeap × NamedCst) :=
  if num = 0 then some (h, c) else do
    let src ← src
    if ¬ dOff + num ≤ c.ncols - 1 then none else
    let (h, arr) ← setNamesRangeInit h c dOff num
    let (h, arr) ← copyNames h arr src dOff sOff num
    some (h, { c with names := some arr })

/-- `names[j + 1] = names[j]` for `j = pos + n - 1` down to `pos` (lib/constraints.c:1617-1624). -/
def shiftNamesUp (arr : List NameSlot) (pos : Nat) : Nat → Option (List NameSlot)
  | 0 => some arr
  | n + 1 => do
    let v ← arr[pos + n]?
    let arr ← writeName arr (pos + n + 1) v
    shiftNamesUp arr pos n

/-- lib/constraints.c:1609-1613: room for one more column. -/
def addDimSize (h : NameHeap) (c : NamedCst) : Option (NameHeap × NamedCst) :=
  if c.ncols = c.allocCols then resizeNames h c c.nrows (c.ncols + 1) else some (h, { c with ncols := c.ncols + 1 })

/-- lib/constraints.c:1601-1636 `pluto_constraints_add_dim`, names and sizes. -/
def addDimNames (h : NameHeap) (c : NamedCst) (pos : Nat) (name : Option String) : Option (NameHeap × NamedCst) :=
  if ¬ pos + 1 ≤ c.ncols then none else do
    let (h, c) ← addDimSize h c
    match c.names with
    | none => some (h, c)
    | some arr => do
      let arr ← reallocNames arr (c.ncols - 1)
      let arr ← shiftNamesUp arr pos (c.ncols - 2 - pos)
      let (h, v) := nameDup h (name.getD "_u")
      let arr ← writeName arr pos v
      some (h, { c with names := some arr })

/-- `if (names[j + 1]) names[j] = names[j + 1]` for `j = pos, …, pos + n - 1` (lib/constraints.c:1547-1551). -/
def shiftNamesDown (arr : List NameSlot) (pos : Nat) : Nat → Option (List NameSlot)
  | 0 => some arr
  | n + 1 => do
    let v ← arr[pos + 1]?
    let arr ← if v = .null then some arr else writeName arr pos v
    shiftNamesDown arr (pos + 1) n

/-- lib/constraints.c:1535-1561 `pluto_constraints_remove_dim`, names and sizes. -/
def removeDimNames (h : NameHeap) (c : NamedCst) (pos : Nat) : Option (NameHeap × NamedCst) :=
  if ¬ pos + 2 ≤ c.ncols then none else
  match c.names with
  | none => some (h, { c with ncols := c.ncols - 1 })
  | some arr => do
    let h ← freeName h arr pos
    let arr ← shiftNamesDown arr pos (c.ncols - 2 - pos)
    some (h, { c with ncols := c.ncols - 1, names := reallocNames arr (c.ncols - 2) })

/-- lib/constraints.c:608-611: room for the rows and columns of the source. -/
def copySize (h : NameHeap) (dest src : NamedCst) : Option (NameHeap × NamedCst) :=
  if src.nrows > dest.allocRows ∨ src.ncols > dest.allocCols then
    resizeNames h dest (max src.nrows dest.allocRows) (max src.ncols dest.allocCols)
  else some (h, dest)

/-- lib/constraints.c:615-620: the names of the destination are freed and set to null. -/
def copyClear (h : NameHeap) (dest : NamedCst) : Option (NameHeap × NamedCst) :=
  match dest.names with
  | none => some (h, dest)
  | some arr => do
    let h ← freeNames h arr 0 (dest.ncols - 1)
    let arr ← nullNames arr 0 (dest.ncols - 1)
    some (h, { dest with names := some arr })

/-- lib/constraints.c:606-636 `pluto_constraints_copy_single`, names and sizes. -/
def copySingleNames (h : NameHeap) (dest src : NamedCst) : Option (NameHeap × NamedCst) := do
  let (h, dest) ← copySize h dest src
  let (h, dest) ← copyClear h dest
  let dest := { dest with nrows := src.nrows, ncols := src.ncols }
  match src.names with
  | some s => setNames h dest s
  | none => removeNames h dest

/-- The parameters' names at lib/plutolib.c:178-182: `names[dim + i] = param` for `i = k, …, k + n - 1`. -/
def paramNames (h : NameHeap) (arr : List NameSlot) (dim k : Nat) : Nat → Option (NameHeap × List NameSlot)
  | 0 => some (h, arr)
  | n + 1 => do
    let (h, v) := nameDup h ("p" ++ toString k)
    let arr ← writeName arr (dim + k) v
    paramNames h arr dim (k + 1) n

/-- lib/plutolib.c:175-182, the names `extract_stmt` gives to the variables of the domain of a statement.
`iters` are the strings at 167-171. -/
def extractStmtNames (h : NameHeap) (c : NamedCst) (iters : List NameSlot) (dim npar : Nat) :
    Option (NameHeap × NamedCst) := do
  let (h, c) ← setNamesRange h c (some iters) 0 0 dim
  if npar = 0 then some (h, c) else do
    let arr ← c.names
    let (h, arr) ← paramNames h arr dim 0 npar
    some (h, { c with names := some arr })

end Pluto
