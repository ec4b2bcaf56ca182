import Verif.Props.NamesCopy

/-! C89: cases that meet the hypotheses, and cases where the code goes wrong. -/

namespace Pluto

/-- Memory with strings at the first addresses. -/
def memOf (l : List String) : NameHeap := ⟨l.length, fun i => l[i]?⟩

/-- Nothing in memory. -/
def noMem : Nat → Option String := fun _ => none

/-- The names of the variables as a reader of the array finds them. -/
def readAll (h : NameHeap) (c : NamedCst) : Option (List (Option String)) :=
  c.names.map fun arr => (arr.take (c.ncols - 1)).map fun
    | .ptr k => h.at_ k
    | _ => none

theorem memOf_fresh (l : List String) (i : Nat) (hi : (memOf l).next ≤ i) : (memOf l).at_ i = none :=
  List.getElem?_eq_none hi

/-- A system in `i`, `j` and the parameter `N`. -/
def nmNamed : NamedCst := ⟨0, 4, 5, 6, some [.ptr 0, .ptr 1, .ptr 2]⟩

theorem nmNamed_named : Named (memOf ["i", "j", "N"]) nmNamed noMem [some "i", some "j", some "N"] := by
  refine ⟨memOf_fresh _, rfl, [.ptr 0, .ptr 1, .ptr 2], [], rfl, rfl, rfl, rfl, ?_⟩
  funext j
  simp only [memOf, noMem]
  rcases j with _ | _ | _ | j <;> simp

/-- A system in `i` and a parameter without a name, as after `pluto_create_stmt` (lib/program.cpp:1199-1203). -/
def nmNoParam : NamedCst := ⟨0, 3, 5, 6, some [.ptr 0, .null]⟩

theorem nmNoParam_named : Named (memOf ["i"]) nmNoParam noMem [some "i", none] := by
  refine ⟨memOf_fresh _, rfl, [.ptr 0, .null], [], rfl, rfl, ?_⟩
  show _ = _
  funext j
  simp only [memOf, noMem]
  rcases j with _ | j <;> simp

/-- C89 is violated by `pluto_constraints_remove_dim`: when the variable behind the one removed has no name, the string
that was freed stays in the array; freeing the system frees it a second time, and a copy of the system reads it. -/
theorem C89_violated_remove : ∃ h c rest l, Named h c rest l ∧ ∃ h' c', removeDimNames h c 0 = some (h', c') ∧
    c'.names = some [.ptr 0] ∧ h'.at_ 0 = none ∧ removeNames h' c' = none ∧
    ∀ dest : NamedCst, dest.names = none → copySingleNames h' dest c' = none := by
  refine ⟨_, _, _, _, nmNoParam_named, ⟨1, fun j => if j = 0 then none else (memOf ["i"]).at_ j⟩,
    ⟨0, 2, 5, 6, some [.ptr 0]⟩, rfl, rfl, rfl, rfl, ?_⟩
  intro dest hd
  have hc : ∀ (h : NameHeap) (src : NamedCst), ∃ c1, copySize h dest src = some (h, c1) ∧ c1.names = none := by
    intro h src
    unfold copySize
    split
    · exact ⟨{ dest with
        nrows := max src.nrows dest.allocRows
        ncols := max src.ncols dest.allocCols
        allocRows := max (max src.nrows dest.allocRows) dest.allocRows
        allocCols := max (max src.ncols dest.allocCols) dest.allocCols }, by simp only [resizeNames, hd], hd⟩
    · exact ⟨dest, rfl, hd⟩
  obtain ⟨c1, h1, h2⟩ := hc ⟨1, fun j => if j = 0 then none else (memOf ["i"]).at_ j⟩ ⟨0, 2, 5, 6, some [.ptr 0]⟩
  unfold copySingleNames
  rw [h1]
  simp [copyClear, h2, setNames, setNamesInit, copyNames, copyName]

example : ∃ h' c', addDimNames (memOf ["i", "j", "N"]) nmNamed 1 none = some (h', c') ∧
    Named h' c' noMem [some "i", some "_u", some "j", some "N"] := by
  obtain ⟨h', c', h1, _, h2⟩ := C89_add nmNamed_named 1 (by decide) none
  exact ⟨h', c', h1, h2⟩

example : ((addDimNames (memOf ["i", "j", "N"]) nmNamed 1 (some "t")).bind fun r => readAll r.1 r.2) =
    some [some "i", some "t", some "j", some "N"] := by decide +kernel

example : ∃ h' c', removeDimNames (memOf ["i", "j", "N"]) nmNamed 0 = some (h', c') ∧
    Named h' c' noMem [some "j", some "N"] := by
  obtain ⟨h', c', h1, _, h2, _⟩ := C89_remove_partial nmNamed_named 0 (by decide) (by decide)
  exact ⟨h', c', h1, h2 (by decide)⟩

/-- Strings of somebody else: `x` at address 0; the system has `i` at address 1. -/
def nmTwo : NamedCst := ⟨0, 2, 5, 3, some [.ptr 1]⟩

/-- The string `x` only. -/
def nmRest : Nat → Option String := fun i => if i = 0 then some "x" else none

theorem nmTwo_named : Named (memOf ["x", "i"]) nmTwo nmRest [some "i"] := by
  refine ⟨memOf_fresh _, rfl, [.ptr 1], [], rfl, rfl, ?_⟩
  show _ = _
  funext j
  simp only [memOf, nmRest]
  rcases j with _ | _ | j <;> simp

example : ∃ h' c', setNames (memOf ["x", "i"]) nmTwo [.ptr 0] = some (h', c') ∧ Named h' c' nmRest [some "x"] := by
  obtain ⟨h', c', h1, _, h2⟩ := C89_set_names (src := [.ptr 0]) (more := []) (l' := [some "x"]) (.inl ⟨_, nmTwo_named⟩)
    ⟨rfl, trivial⟩ rfl
  exact ⟨h', c', h1, h2⟩

example : ∃ h' c', setNamesRange (memOf ["x", "i"]) nmTwo (some [.null, .ptr 0]) 0 1 1 = some (h', c') ∧
    Named h' c' nmRest [some "x"] := by
  obtain ⟨h', c', h1, _, h2⟩ := C89_set_range (pre := [.null]) (src := [.ptr 0]) (more := []) (l' := [some "x"])
    nmTwo_named ⟨rfl, trivial⟩ 0 (by decide)
  exact ⟨h', c', h1, h2⟩

/-- The source of a copy, with one variable. -/
def nmSrc : NamedCst := ⟨0, 2, 1, 2, some [.ptr 0]⟩

/-- The source of a copy, with two variables. -/
def nmSrc2 : NamedCst := ⟨0, 3, 1, 3, some [.ptr 0, .ptr 0]⟩

/-- A copy to a system with as many columns. -/
example : ∃ h' c', copySingleNames (memOf ["x", "i"]) nmTwo nmSrc = some (h', c') ∧ Named h' c' nmRest [some "x"] := by
  obtain ⟨h', c', h1, _, h2⟩ := (C89_copy_partial (dest := nmTwo) (src := nmSrc) (.inl ⟨_, nmTwo_named⟩) (by decide)
    (by decide) (.inr (.inl (by decide)))).1 [.ptr 0] [] [some "x"] rfl ⟨rfl, trivial⟩ rfl
  exact ⟨h', c', h1, h2⟩

/-- A copy to a system without names, one that is too small. -/
example : ∃ h' c', copySingleNames (memOf ["x"]) ⟨0, 2, 0, 2, none⟩ nmSrc2 = some (h', c') ∧
    Named h' c' nmRest [some "x", some "x"] := by
  have hu : Unnamed (memOf ["x"]) ⟨0, 2, 0, 2, none⟩ nmRest := by
    refine ⟨memOf_fresh _, rfl, ?_⟩
    funext j
    simp only [memOf, nmRest]
    rcases j with _ | j <;> simp
  obtain ⟨h', c', h1, _, h2⟩ := (C89_copy_partial (src := nmSrc2) (.inr hu) (by decide) (by decide) (.inl rfl)).1
    [.ptr 0, .ptr 0] [] [some "x", some "x"] rfl ⟨rfl, rfl, trivial⟩ rfl
  exact ⟨h', c', h1, h2⟩

/-- The hypotheses of `C89_violated_copy` are met. -/
example : copySingleNames (memOf ["x", "i"]) nmTwo nmSrc2 = none :=
  C89_violated_copy nmTwo_named (fun arr h => by cases h; rfl) (by decide) (by decide) (by decide)

/-- They are met after a variable was removed: the system keeps its room. -/
example : ((removeDimNames (memOf ["i", "j", "N"]) nmNamed 0).bind fun r =>
    (copySingleNames r.1 r.2 ⟨0, 4, 5, 4, none⟩).map fun r => r.2.ncols) = none := by decide +kernel

/-- A statement with one loop and a parameter. -/
example : ∃ h' c', extractStmtNames (memOf ["x"]) ⟨0, 3, 2, 3, none⟩ [.ptr 0] 1 1 = some (h', c') ∧
    Named h' c' nmRest [some "x", some "p0"] := by
  have hu : Unnamed (memOf ["x"]) ⟨0, 3, 2, 3, none⟩ nmRest := by
    refine ⟨memOf_fresh _, rfl, ?_⟩
    funext j
    simp only [memOf, nmRest]
    rcases j with _ | j <;> simp
  obtain ⟨h', c', h1, _, h2⟩ := C89_library_partial (iters := [.ptr 0]) (l := [some "x"]) hu ⟨rfl, trivial⟩ 1 rfl (by decide)
  exact ⟨h', c', h1, h2⟩

/-- A statement without loops. -/
example : extractStmtNames ⟨0, noMem⟩ ⟨0, 2, 2, 2, none⟩ [] 0 1 = none :=
  C89_violated_library (rest := noMem) ⟨fun _ _ => rfl, rfl, rfl⟩ [] 1 (by decide)

/-- Without names. -/
example : ∃ c', addDimNames ⟨0, noMem⟩ ⟨0, 2, 2, 2, none⟩ 1 (some "t") = some (⟨0, noMem⟩, c') ∧ c'.ncols = 3 ∧
    Unnamed ⟨0, noMem⟩ c' noMem :=
  (C89_unnamed (rest := noMem) ⟨fun _ _ => rfl, rfl, rfl⟩ 1).1 (some "t") (by decide)

end Pluto
