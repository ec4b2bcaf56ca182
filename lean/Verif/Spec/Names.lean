import Verif.Model.Names

/-! What it means that an array of pointers carries a list of names. -/

namespace Pluto

/-- The slots `s` carry the names `l` (`none`: no name), each in a string of its own, and the memory holds these
strings and those of `rest`, nothing else: taking away the strings one after the other leaves `rest`. -/
def Own (m rest : Nat → Option String) : List NameSlot → List (Option String) → Prop
  | [], [] => m = rest
  | .null :: s, none :: l => Own m rest s l
  | .ptr k :: s, some n :: l => m k = some n ∧ Own (fun j => if j = k then none else m j) rest s l
  | _, _ => False

/-- The variables of `c` have the names `l`, in memory of which the rest is `rest`. The array may be longer than the
number of variables. -/
structure Named (h : NameHeap) (c : NamedCst) (rest : Nat → Option String) (l : List (Option String)) : Prop where
  fresh : ∀ i, h.next ≤ i → h.at_ i = none
  len : l.length + 1 = c.ncols
  own : ∃ s extra, c.names = some (s ++ extra) ∧ Own h.at_ rest s l

/-- The variables of `c` have no names and the memory is `rest`. -/
structure Unnamed (h : NameHeap) (c : NamedCst) (rest : Nat → Option String) : Prop where
  fresh : ∀ i, h.next ≤ i → h.at_ i = none
  names : c.names = none
  mem : h.at_ = rest

/-- An array that somebody else owns: its entries are null or strings of `rest`. -/
def NamesRead (rest : Nat → Option String) : List NameSlot → List (Option String) → Prop
  | [], [] => True
  | .null :: s, none :: l => NamesRead rest s l
  | .ptr k :: s, some n :: l => rest k = some n ∧ NamesRead rest s l
  | _, _ => False

end Pluto
