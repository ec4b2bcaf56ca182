import Mathlib.Data.List.Forall2
/-! Specification of colourings of graphs whose vertices are grouped into blocks of consecutive numbers
(a block per statement, a vertex per loop). -/
namespace Pluto

/-- A block of vertices `first, ..., first + count - 1`. -/
structure Block where
  first : Nat
  count : Nat
deriving DecidableEq, Repr

/-- Vertex `v` lies in the block. -/
def Block.Has (b : Block) (v : Nat) : Prop := b.first ≤ v ∧ v < b.first + b.count

/-- Edges in either direction. -/
def Joined (adj : Nat → Nat → Nat) (u v : Nat) : Prop := adj u v ≠ 0 ∨ adj v u ≠ 0

/-- No edge joins two vertices that both have colour `c`, and none of these has an edge to itself. -/
def Proper (adj : Nat → Nat → Nat) (n c : Nat) (colour : Nat → Nat) : Prop :=
  ∀ u v, u < n → v < n → colour u = c → colour v = c → ¬ Joined adj u v

/-- `vs` is a way to give colour `c` to one vertex of every block: one uncoloured vertex of each block, no
two of them joined, none joined to itself or to a vertex (below `n`) that has the colour already. -/
structure Extends (adj : Nat → Nat → Nat) (n c : Nat) (colour : Nat → Nat) (bs : List Block) (vs : List Nat) : Prop where
  one : List.Forall₂ Block.Has bs vs
  free : ∀ v ∈ vs, colour v = 0
  apart : vs.Pairwise (fun u v => ¬ Joined adj u v)
  self : ∀ v ∈ vs, ¬ Joined adj v v
  old : ∀ v ∈ vs, ∀ u < n, colour u = c → ¬ Joined adj u v

/-- The blocks are disjoint and consist of vertices below `n`. -/
structure Blocks (n : Nat) (bs : List Block) : Prop where
  inside : ∀ b ∈ bs, b.first + b.count ≤ n
  apart : bs.Pairwise (fun a b => ∀ v, a.Has v → ¬ b.Has v)

end Pluto
