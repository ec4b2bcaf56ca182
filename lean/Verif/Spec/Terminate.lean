import Verif.Model.Auto
import Verif.Spec.Search
import Verif.Spec.Pipeline

/-! Iterations of the main loop of the automatic transformation. -/

namespace Pluto

/-- `s'` is the state after `n` iterations of the main loop from `s`, none of which ends it. -/
def Iterates (o : AutoOpts) (L : Libs) (req : Nat) : Nat → LoopState → LoopState → Prop
  | 0, s, s' => s' = s
  | n + 1, s, s' => ∃ s1, autoStep o L noDiamond req s = some (.go s1) ∧
    (fullRanked s1.a.p = false ∨ depsSatCheck s1.a.p = false) ∧ Iterates o L req n s1 s'

/-- The main loop for `p0` comes to the state `s` before some iteration. -/
def ComesTo (o : AutoOpts) (L : Libs) (d0 : DfsState) (p0 : Prog) (s : LoopState) : Prop :=
  let p := { p0 with deps := p0.deps.map (fun d => { d with satisfied := false }) }
  ∃ a s0 n, (⟨p, ddgCreate p, d0, fun _ => -1, 0⟩ : Auto).computeScc = some a ∧ autoInit o L a = some s0 ∧
    Iterates o L ((s0.a.p.stmts.map (·.dim)).foldl max 0) n s0 s

/-- The search is in LAZY mode, all dependences are satisfied, some statement does not have all its loops yet, and
the search for one hyperplane finds none. -/
def EmptyHanded (o : AutoOpts) (L : Libs) (s : LoopState) : Prop :=
  s.eager = false ∧ ∃ a, noFuseCut o L s.a = some a ∧ (∀ d ∈ a.p.deps, d.rar = false → d.satisfied = true) ∧
    (∃ st ∈ a.p.stmts, NeedsLoops st) ∧ findPermutable o.toSearchOpts L false 1 a.p = some (a.p, 0)

/-- Loops of all statements and dependences (other than those between two reads). -/
def Prog.loopsAndDeps (p : Prog) : Nat := (p.stmts.map (·.dim)).sum + p.deps.countP (fun d => !d.rar)

end Pluto
