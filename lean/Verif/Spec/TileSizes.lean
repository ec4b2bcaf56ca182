import Verif.Model.TileSizes
import Verif.Spec.Polyloop

/-! Specification for tile sizes. -/

namespace Pluto

/-- The file holds the numbers `ns` and no other text. -/
def SizeFile.Holds (f : SizeFile) (ns : List Int) : Prop := f.toks = ns.map some

/-- All numbers in the file are positive. -/
def SizeFile.Positive (f : SizeFile) : Prop := ∀ v, some v ∈ f.toks → 1 ≤ v

/-- The level is a loop for at least one statement of the band. -/
def Prog.LoopLevel (p : Prog) (b : Band) (m : Nat) : Prop := ∃ i ∈ b.loop.stmts, ¬ p.Scalar (b.loop.depth + m) i

open Classical in
/-- The number of levels of the band below `m` that are loops: the position in the file of the size for level `m`. -/
noncomputable def Prog.loopsBelow (p : Prog) (b : Band) (m : Nat) : Nat := (List.range m).countP (fun k => decide (p.LoopLevel b k))

end Pluto
