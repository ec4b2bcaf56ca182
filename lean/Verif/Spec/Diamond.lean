import Verif.Model.Diamond
import Verif.Spec.Auto

/-! Specification of diamond tiling. -/

namespace Pluto

/-- Conditions on one call of diamond tiling after `n` hyperplanes were found: `done` are the bands for
which concurrent start was enabled, with the level of the replaced hyperplanes. The level is one of the
last `n`, and no dependence that was unsatisfied before these `n` hyperplanes leads from a statement of
the band to another statement or back. -/
def Prog.DiamondSafe (p : Prog) (n : Nat) (done : List (Band × Nat)) : Prop :=
  ∀ be ∈ done, p.hProps.length - n ≤ be.2 ∧
    ∀ d ∈ p.deps, d.rar = false → d.satisfied = false → (d.src ∈ be.1.loop.stmts ↔ d.dest ∈ be.1.loop.stmts)

instance (p : Prog) (n : Nat) (done : List (Band × Nat)) : Decidable (p.DiamondSafe n done) := by
  unfold Prog.DiamondSafe; infer_instance

/-- Diamond tiling, no result unless the conditions hold. -/
def safeDiamond (o : SearchOpts) (full : Bool) (L : Libs) (solve : Cst → Option (List Int)) (n : Nat) (p : Prog) :
    Option (Prog × Bool) :=
  (diamondTile o full L solve p (List.replicate p.stmts.length none)).bind (fun s =>
    if p.DiamondSafe n s.done then some (s.p, decide (s.done ≠ [])) else none)

/-- The levels of band `b` whose hyperplanes form the cone together with the new hyperplane at `e`, for
statement `i`: with `--fulldiamondtile` all others that are not scalar, otherwise the first other one. -/
def coneLevels (full : Bool) (p : Prog) (b : Band) (e i : Nat) : List Nat :=
  if full then ((List.range b.width).map (b.loop.depth + ·)).filter
    (fun k => decide (k ≠ e) && decide (p.stmts[i]?.bind (·.hypTypes[k]?) ≠ some HypType.scalar))
  else [if e = b.loop.depth then b.loop.depth + 1 else b.loop.depth]

/-- Concurrent start was enabled for band `b`, `p` being the program before and `q`, `ev` the program and
the evicted hyperplanes after: hyperplane `e` of the band was replaced for all its statements, and kept
as evicted; the others are unchanged. There are faces `F` (one for each statement, normal to one of the
axes) which all dependences inside the band cross at a positive distance, and each face is a combination
of the new hyperplane `e` and the hyperplanes at `coneLevels` of the statement with positive multipliers
`1/a`, `m/a`, provided there are fewer of these than `nvar` (a statement has room for `nvar` multipliers
including that of the face). -/
def ConcurrentStart (full : Bool) (p : Prog) (b : Band) (e : Nat) (q : Prog) (ev : List (Option Evicted)) : Prop :=
  b.loop.depth ≤ e ∧ e < b.loop.depth + b.width ∧ ∃ F : Nat → List Int,
    (∀ d ∈ p.deps, d.rar = false → d.src ∈ b.loop.stmts → d.dest ∈ b.loop.stmts → ∀ s t x : List Int,
      DepInst d.dpoly p.nvar p.nvar p.npar s t x → aff (F d.src) (s ++ x) + 1 ≤ aff (F d.dest) (t ++ x)) ∧
    ∀ i ∈ b.loop.stmts, ((F i).take p.nvar).countP (fun a => decide (a ≠ 0)) = 1 ∧
      ((coneLevels full p b e i).length < p.nvar → ∃ (a : Int) (m : List Int), 1 ≤ a ∧ m.length = (coneLevels full p b e i).length ∧ (∀ x ∈ m, 1 ≤ x) ∧
        ∀ j < p.nvar, a * coef (F i) j =
          coef (q.row i e) j + dot m ((coneLevels full p b e i).map (fun k => coef (q.row i k) j))) ∧
      ev[i]? = some (some ⟨p.row i e, e⟩) ∧ ∀ l, l ≠ e → q.row i l = p.row i l

end Pluto
