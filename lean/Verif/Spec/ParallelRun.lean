import Verif.Spec.Codegen
import Verif.Spec.Mark

/-! Runs of generated code in which the iterations of some loops are spread over threads. -/

namespace Pluto

/-- Instances of the statements `i` and `j` at the times `t` and `u` are in different iterations of the loop, and
in the same iterations of all loops around it. -/
def OtherIters (l : Loop) (i j : Nat) (t u : List Int) : Prop :=
  i ∈ l.stmts ∧ j ∈ l.stmts ∧ (∀ k < l.depth, t[k]? = u[k]?) ∧ t[l.depth]? ≠ u[l.depth]?

/-- `run` lists the instances in an order in which they may be run by code that CLooG generates from the input if
the loops `par` are run in parallel: every instance in the domains occurs exactly once, nothing else does, and
an instance comes after one with a lexicographically later time only if the two are in different
iterations of a parallel loop. -/
structure ParGenerated (c : CloogInput) (dim : Nat → Nat) (par : List Loop) (q : List Int) (run : List (Nat × List Int)) : Prop where
  all : ∀ i x, (i, x) ∈ run ↔ x.length = dim i ∧ c.Runs q i x
  once : run.Nodup
  order : run.Pairwise (fun a b => ∀ t u, c.At q a.1 a.2 t → c.At q b.1 b.2 u → LexBefore u t → ∃ l ∈ par, OtherIters l a.1 b.1 t u)

/-- Without parallel loops, `ParGenerated` is `Generated`. -/
theorem parGenerated_nil {c : CloogInput} {dim : Nat → Nat} {q : List Int} {run : List (Nat × List Int)} :
    ParGenerated c dim [] q run ↔ Generated c dim q run := by
  constructor
  · rintro ⟨h1, h2, h3⟩
    refine ⟨h1, h2, h3.imp ?_⟩
    intro a b h t u ht hu hl
    obtain ⟨l, hl, -⟩ := h t u ht hu hl
    exact absurd hl (by simp)
  · rintro ⟨h1, h2, h3⟩
    refine ⟨h1, h2, h3.imp ?_⟩
    intro a b h t u ht hu hl
    exact absurd hl (h t u ht hu)

end Pluto
