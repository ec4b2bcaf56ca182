import Verif.Model.Names

/-! The names of the variables of a dependence polyhedron. -/

namespace Pluto

/-- lib/program.cpp:411-416: the iterators of the destination with a prime, in strings of their own
(entries `i`, …, `i + n - 1`). -/
def primeNames (h : NameHeap) (it : List NameSlot) (i : Nat) : Nat → Option (NameHeap × List NameSlot)
  | 0 => some (h, [])
  | n + 1 =>
    match it[i]? with
    | some (.ptr k) => do
      let str ← h.at_ k
      let (h, v) := nameDup h (str ++ "'")
      let (h, vs) ← primeNames h it (i + 1) n
      some (h, v :: vs)
    | _ => none

/-- lib/program.cpp:407-428 (`basic_map_extract_dep`): the names of the variables of `dep->dpolytope`. `sd` and `dd` are
the dimensions of the statements, `npar` the number of parameters, `dnm` the names of the destination's domain. -/
def depNames (h : NameHeap) (c : NamedCst) (sit dit : List NameSlot) (dnm : Option (List NameSlot))
    (sd dd npar : Nat) : Option (NameHeap × NamedCst) := do
  let (h, c) ← setNamesRange h c (some sit) 0 0 sd
  let (h, pr) ← primeNames h dit 0 dd
  let (h, c) ← setNamesRange h c (some pr) sd 0 dd
  let h ← freeNames h pr 0 dd
  setNamesRange h c dnm (sd + dd) dd npar

end Pluto
