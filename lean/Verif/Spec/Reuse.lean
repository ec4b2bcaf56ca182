import Verif.Spec.Prog
import Verif.Model.Reuse

/-! Specification for the reuse cost model: the elements that accesses touch, iterations that follow each other along
one loop, and the elements touched by a jammed body. -/

namespace Pluto

/-- The element touched by the access in iteration `x` with parameters `q`: array and subscripts. -/
def Access.elem (a : Access) (x q : List Int) : Nat × List Int := (a.arr, a.mat.rows.map (fun r => aff r (x ++ q)))

/-- `x` and `x'` are iterations of statement `i` that run at the same time at every level but `d`, and `x` runs
before `x'` there: they differ in the loop at level `d` only. -/
structure Prog.Along (p : Prog) (i d : Nat) (x x' q : List Int) : Prop where
  len : x.length = p.dim i
  len' : x'.length = p.dim i
  params : q.length = p.npar
  same : ∀ l, l ≠ d → p.phi i l x q = p.phi i l x' q
  lt : p.phi i d x q < p.phi i d x' q

/-- From `e` to `e'` only the last subscript changes; it grows, by at most `n`. -/
def ShortStep (e e' : Nat × List Int) (n : Int) : Prop :=
  e.1 = e'.1 ∧ ∃ front u u', e.2 = front ++ [u] ∧ e'.2 = front ++ [u'] ∧ u < u' ∧ u' - u ≤ n

/-- The elements touched by the statements `g` when level `d` takes the `u` values from `v` on and the other levels
stay at `T`: what the body of a loop jammed `u` times works on. -/
def Prog.Touched (p : Prog) (A : Accs) (g : List Nat) (d : Nat) (T : Nat → Int) (v : Int) (u : Nat) (q : List Int) :
    Set (Nat × List Int) :=
  {e | ∃ i ∈ g, ∃ a ∈ A i, ∃ x : List Int, x.length = p.dim i ∧
    (∀ l < p.hProps.length, l ≠ d → p.phi i l x q = T l) ∧ v ≤ p.phi i d x q ∧ p.phi i d x q < v + u ∧ e = a.elem x q}

end Pluto
