import Verif.Spec.Polyloop

/-! Specification of loops that may be run in parallel, and of unroll-jam. -/

namespace Pluto

/-- The loop at level `k` around the given statements carries no dependence: dependent instances that
agree on all enclosing levels are in the same iteration of the loop. -/
def CarriesNone (p : Prog) (stmts : List Nat) (k : Nat) : Prop :=
  ∀ d ∈ p.deps, d.rar = false → d.src ∈ stmts → d.dest ∈ stmts → ∀ s t q, p.Inst d s t q →
    p.TiedBelow d k s t q → p.phi d.src k s q = p.phi d.dest k t q

/-- Order in which instances run when the loop at level `k` is unrolled by `u` and jammed into the loops
inside it, `e` being the end of the loop levels: the iterations of loop `k` are grouped by `u`, counted from
`o` on; the copies of the body come after all loops. -/
def jamTime (o u : Int) (k e : Nat) (ts : List Int) : List Int :=
  ts.take k ++ [(ts.getD k 0 - o) / u] ++ (ts.take e).drop (k + 1) ++ [(ts.getD k 0 - o) % u] ++ ts.drop e

/-- Unroll-jam of the loop at level `k` keeps all dependent pairs of the given statements in order,
wherever the grouping starts. -/
def JamLegal (p : Prog) (stmts : List Nat) (k e : Nat) (u : Int) : Prop :=
  ∀ d ∈ p.deps, d.rar = false → d.src ∈ stmts → d.dest ∈ stmts → ∀ s t q, p.Inst d s t q → ∀ o : Int,
    LexBefore (jamTime o u k e (p.timestamp d.src s q)) (jamTime o u k e (p.timestamp d.dest t q))

end Pluto
