import Verif.Model.Ddg
import Verif.Spec.Colour
/-! Colouring of the fusion conflict graph, lib/framework-dfp.c. The vertices of the graph are the loops of
the statements, numbered consecutively; a colour is a schedule level, 0 means uncoloured. -/
namespace Pluto

/-- `colour[i]`; the array has an entry per vertex. -/
def colourOf (colour : List Nat) (i : Nat) : Nat := colour.getD i 0

/-- `is_valid_colour`, lib/framework-dfp.c:1260-1277. `par` is `par_preventing_adj_mat`. -/
def isValidColour (g : Graph) (par : Nat → Nat → Nat) (v c : Nat) (colour : List Nat) (isPar : Bool) : Bool :=
  (List.range g.n).all (fun i =>
    !((g.adj i v == 1 || g.adj v i == 1) && colourOf colour i == c) &&
    !(isPar && (par v i != 0 || par i v != 0) && colourOf colour i == c))

/-- `is_discarded`, lib/framework-dfp.c:1282-1288. -/
def isDiscarded (v : Nat) (l : List Nat) : Bool := l.any (· == v)

/-- `get_next_min_vertex`, lib/framework-dfp.c:1295-1320: the first loop of the statement with vertices `b`
that is not discarded and, if `allowed` says so (`--lpcolor`: the coefficient in the LP solution is not 0),
not skipped; 0 if there is none. -/
def nextMinVertex (b : Block) (allowed : Nat → Bool) (l : List Nat) : Nat :=
  ((List.range b.count).find? (fun i => !isDiscarded (b.first + i) l && allowed (b.first + i))).getD 0

/-- The loop `while (num_discarded != nvar)` of `colour_scc`, lib/framework-dfp.c:1448-1586: `k` more tries
for the statement with vertices `b`; `l` are the discarded vertices, `pv` the vertex of the previous
statement and `rest v` colours the statements that come after, given the vertex of this one. -/
def tryDims (g : Graph) (c : Nat) (b : Block) (allowed : Nat → Bool) (pv : Option Nat)
    (rest : Nat → List Nat → Bool × List Nat) : Nat → List Nat → List Nat → Bool × List Nat
  | 0, _, colour => (false, colour)
  | k + 1, l, colour =>
    let v := b.first + nextMinVertex b allowed l
    if colourOf colour v > 0 && colourOf colour v != c then
      tryDims g c b allowed pv rest k (l ++ [v]) colour
    else if g.adj v v != 0 then tryDims g c b allowed pv rest k (l ++ [v]) colour
    else if pv.any (fun u => g.isAdjacent v u) then tryDims g c b allowed pv rest k (l ++ [v]) colour
    else if isValidColour g (fun _ _ => 0) v c colour false then
      let r := rest v (colour.set v c)
      if r.1 then (true, r.2) else tryDims g c b allowed pv rest k (l ++ [v]) (r.2.set v 0)
    else tryDims g c b allowed pv rest k (l ++ [v]) (colour.set v 0)

/-- `colour_scc`, lib/framework-dfp.c:1448-1586, for a component that still has loops to colour
(`coloured_dims < max_dim`; otherwise see `colourScc`): colour one loop of each of the statements whose
vertices are `bs`. -/
def colourBlocks (g : Graph) (nvar c : Nat) (allowed : Nat → Bool) :
    List Block → Option Nat → List Nat → Bool × List Nat
  | [], _, colour => (true, colour)
  | b :: bs, pv, colour =>
    tryDims g c b allowed pv (fun v => colourBlocks g nvar c allowed bs (some v)) nvar [] colour

end Pluto
