import Verif.Model.Auto
import Verif.Spec.Tile
import Verif.Spec.Polyloop

/-! Runs of the automatic transformation; programs with the same instances. -/

namespace Pluto

/-- Up to the `n`-th iteration of the main loop from state `s` on, the search stays in EAGER mode (the mode
it starts in; it leaves it when it finds no more hyperplanes and no cut would help). -/
def EagerRun (o : AutoOpts) (L : Libs) (dia : Nat → Prog → Option (Prog × Bool)) (req : Nat) : Nat → LoopState → Prop
  | 0, _ => True
  | n + 1, s => ∀ s', autoStep o L dia req s = some (.go s') →
    s'.eager = true ∧ (fullRanked s'.a.p = false ∨ depsSatCheck s'.a.p = false → EagerRun o L dia req n s')

/-- The search of `autoTransform` stays in EAGER mode. -/
def EagerAuto (o : AutoOpts) (L : Libs) (dia : Nat → Prog → Option (Prog × Bool)) (fuel : Nat) (d0 : DfsState) (p0 : Prog) : Prop :=
  let p := { p0 with deps := p0.deps.map (fun d => { d with satisfied := false }) }
  ∀ a s, (⟨p, ddgCreate p, d0, fun _ => -1, 0⟩ : Auto).computeScc = some a → autoInit o L a = some s →
    EagerRun o L dia ((s.a.p.stmts.map (·.dim)).foldl max 0) fuel s

/-- `p'` has the same statements, instances and dependences as `p`, up to further coordinates (tiles): the
instance `x` of statement `i` is the instance `T i x q ++ x` in `p'`, where `q` are the parameters. Every
instance of `p'` comes from one of `p`, and every dependent pair of `p'` from one of `p`, and conversely.
Schedules are not mentioned. -/
structure SameRuns (p p' : Prog) (T : Nat → List Int → List Int → List Int) : Prop where
  npar : p'.npar = p.npar
  len : p'.stmts.length = p.stmts.length
  coords : ∀ i x q, x.length = p.dim i → (T i x q).length + x.length = p'.dim i
  stmts : ∀ (i : Nat) (st st' : Stmt), p.stmts[i]? = some st → p'.stmts[i]? = some st' → ∀ x' q : List Int, x'.length = st'.dim →
    q.length = p.npar → (st'.domain.Sat (x' ++ q) ↔ ∃ x, x.length = st.dim ∧ st.domain.Sat (x ++ q) ∧ x' = T i x q ++ x)
  deps : List.Forall₂ (fun d d' : Dep => d'.src = d.src ∧ d'.dest = d.dest ∧ d'.rar = d.rar ∧
    ∀ s' t' q : List Int, s'.length = p'.dim d.src → t'.length = p'.dim d.dest → q.length = p.npar →
      (d'.dpoly.Sat (s' ++ t' ++ q) ↔ ∃ s t : List Int, s.length = p.dim d.src ∧ t.length = p.dim d.dest ∧
        d.dpoly.Sat (s ++ t ++ q) ∧ s' = T d.src s q ++ s ∧ t' = T d.dest t q ++ t)) p.deps p'.deps

/-- No level of a band is scalar for all statements of the band. -/
def LoopBands (p : Prog) (bands : List Band) : Prop :=
  ∀ b ∈ bands, ∀ m < b.width, ∃ i ∈ b.loop.stmts, ¬ p.Scalar (b.loop.depth + m) i

end Pluto
