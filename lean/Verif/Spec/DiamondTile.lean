import Verif.Model.StmtEdit
import Verif.Spec.Polyloop
import Verif.Spec.Tile

/-! Diamond tiling: the hyperplanes that were evicted. -/

namespace Pluto

/-- A statement with its evicted hyperplane in its old place. -/
def putBackStmt (st : Stmt) : Option Evicted → Stmt
  | none => st
  | some e => { st with trans := st.trans.set e.pos e.hyp }

/-- The program as it was before hyperplanes were evicted. -/
def putBack (p : Prog) (ev : List (Option Evicted)) : Prog := { p with stmts := p.stmts.zipWith putBackStmt ev }

/-- The evicted hyperplanes belong to levels of the bands: there is a place for each statement, and a statement with an evicted hyperplane is in a band
that contains the level; all levels of the band are loops for the statement, and the evicted hyperplane is not scalar either. -/
structure EvictedFrom (p : Prog) (bands : List Band) (ev : List (Option Evicted)) : Prop where
  len : ev.length = p.stmts.length
  band : ∀ i e, ev[i]? = some (some e) → ∃ b ∈ bands, i ∈ b.loop.stmts ∧ b.loop.depth ≤ e.pos ∧ e.pos < b.loop.depth + b.width ∧
    ∀ m < b.width, ¬ p.Scalar (b.loop.depth + m) i
  hyp : ∀ i e, ev[i]? = some (some e) → e.hyp.length = p.dim i + p.npar + 1 ∧ ∃ v ∈ e.hyp.take (p.dim i), v ≠ 0
  orig : ∀ (i : Nat) (st : Stmt) (e : Evicted), p.stmts[i]? = some st → ev[i]? = some (some e) → st.dimOrig = st.dim

/-- Every band is permutable: dependences inside it that are tied outside are non-negative on all its levels. -/
def NonNegBands (p : Prog) (bands : List Band) : Prop :=
  ∀ b ∈ bands, ∀ d ∈ p.deps, d.rar = false → d.src ∈ b.loop.stmts → d.dest ∈ b.loop.stmts → ∀ s t q, p.Inst d s t q →
    p.TiedBelow d b.loop.depth s t q → ∀ m < b.width, 0 ≤ p.comp d (b.loop.depth + m) s t q

end Pluto
