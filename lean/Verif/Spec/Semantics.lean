import Mathlib.Data.Set.Basic

/-! What statement instances do to memory, and what running them one after the other does. -/

namespace Pluto

/-- What an instance does to a memory (values `V` at locations `L`), with the locations that it may read and
those that it may write. It changes no location outside `writes`, and what it does to these depends on the
locations in `reads` and `writes` only. -/
structure Action (L V : Type*) where
  run : (L → V) → (L → V)
  reads : L → Prop
  writes : L → Prop
  keeps : ∀ m l, ¬ writes l → run m l = m l
  depends : ∀ m m', (∀ l, reads l ∨ writes l → m l = m' l) → ∀ l, writes l → run m l = run m' l

/-- The memory after the instances of the list were run in this order. -/
def execute {I L V : Type*} (act : I → Action L V) (run : List I) (m : L → V) : L → V := run.foldl (fun m i => (act i).run m) m

/-- One of the two instances may write a location that the other may read or write. -/
def Action.Conflicts {L V : Type*} (a b : Action L V) : Prop :=
  ∃ l, a.writes l ∧ (b.reads l ∨ b.writes l) ∨ b.writes l ∧ (a.reads l ∨ a.writes l)

end Pluto
