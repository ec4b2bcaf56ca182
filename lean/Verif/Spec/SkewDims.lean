import Verif.Model.Prog

/-! For C57: which loops are to be skewed, and by which. -/

namespace Pluto

/-- Number of loops outside level `l` (levels that are not scalar). -/
def loopsOutside (hProps : List HypType) (l : Nat) : Nat := (hProps.take l).countP (fun h => decide (h ≠ .scalar))

/-- At level `l`, which is a loop of the band that begins at `level`, the direction of the dependence may be negative. -/
def MayBeNegative (hProps : List HypType) (dirvec : List Dir) (level l : Nat) : Prop :=
  ∃ h, hProps[l]? = some h ∧ h ≠ .scalar ∧ (h = .loop → level ≤ l) ∧ (dirvec[l]? = some .minus ∨ dirvec[l]? = some .star)

/-- The first level at which the direction of the dependence may be negative is the loop with number `n`. -/
def FirstNegative (hProps : List HypType) (dirvec : List Dir) (level n : Nat) : Prop :=
  ∃ l, MayBeNegative hProps dirvec level l ∧ (∀ l' < l, ¬ MayBeNegative hProps dirvec level l') ∧ n = loopsOutside hProps l

/-- The dependences looked at for component `k`: satisfied ones inside the component; input dependences only if asked for. -/
def LooksAt (rar : Bool) (scc : Nat → Int) (k : Nat) (d : Dep) : Prop :=
  (rar = true ∨ d.rar = false) ∧ scc d.src = k ∧ scc d.dest = k ∧ d.satisfied = true

end Pluto
