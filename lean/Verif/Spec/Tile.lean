import Verif.Spec.Auto
import Verif.Model.Polyloop

/-! Specification of tiling. `fdiv` is division rounding towards minus infinity. -/

namespace Pluto

/-- Value of schedule row `l` of a statement. -/
def Stmt.val (st : Stmt) (l : Nat) (x q : List Int) : Int := aff (st.trans.getD l []) (x ++ q)

/-- Offsets `m < w` of the levels `f + m` of a band that are loops for the statement. -/
def tileOffsets (st : Stmt) (f w : Nat) : List Nat :=
  (List.range w).filter (fun m => decide (st.hypTypes[f + m]? ≠ some HypType.scalar))

/-- Tile coordinates of the iteration `x`: for every loop of the band the value of its hyperplane
divided by the tile size, rounded down. -/
def tileCoords (st : Stmt) (f : Nat) (sizes : Nat → Int) (w : Nat) (x q : List Int) : List Int :=
  (tileOffsets st f w).map (fun m => (st.val (f + m) x q).fdiv (sizes m))

/-- The tile space part of the time stamp: a loop level contributes its tile coordinate, a scalar
level its value. -/
def tileTime (st : Stmt) (f : Nat) (sizes : Nat → Int) (w : Nat) (x q : List Int) : List Int :=
  (List.range w).map (fun m => if st.hypTypes[f + m]? = some HypType.scalar then st.val (f + m) x q
    else (st.val (f + m) x q).fdiv (sizes m))

/-- `st'` is `st` with the `w` levels from `f` on tiled: every iteration of `st` extends to exactly one
iteration of `st'`, its tile coordinates are the rounded down quotients, and nothing else is executed. -/
structure TiledExactly (npar : Nat) (f : Nat) (sizes : Nat → Int) (w : Nat) (st st' : Stmt) : Prop where
  dim : st'.dim = (tileOffsets st f w).length + st.dim
  once : ∀ x q : List Int, x.length = st.dim → q.length = npar → st.domain.Sat (x ++ q) →
    ∃! T : List Int, T.length = (tileOffsets st f w).length ∧ st'.domain.Sat (T ++ x ++ q)
  floors : ∀ T x q : List Int, T.length = (tileOffsets st f w).length → x.length = st.dim → q.length = npar →
    st'.domain.Sat (T ++ x ++ q) → T = tileCoords st f sizes w x q
  projects : ∀ T x q : List Int, T.length = (tileOffsets st f w).length → x.length = st.dim → q.length = npar →
    st'.domain.Sat (T ++ x ++ q) → st.domain.Sat (x ++ q)

/-- Time stamp of an iteration of a statement. -/
def Stmt.time (st : Stmt) (x q : List Int) : List Int := st.trans.map (fun r => aff r (x ++ q))

/-- Well-formed statement: matching columns and a type for every level. -/
structure Stmt.OK (npar : Nat) (st : Stmt) : Prop where
  wf : st.domain.WF
  cols : st.domain.ncols = st.dim + npar + 1
  trans : ∀ r ∈ st.trans, r.length = st.dim + npar + 1
  types : st.hypTypes.length = st.trans.length

/-- Well-formed program: matching columns, and the same number of levels in every statement. -/
structure Prog.OK (p : Prog) : Prop where
  stmts : ∀ st ∈ p.stmts, st.OK p.npar
  levels : ∀ st ∈ p.stmts, st.trans.length = p.hProps.length
  deps : ∀ d ∈ p.deps, d.src < p.stmts.length ∧ d.dest < p.stmts.length ∧ p.DepFits d

/-- Every dependence (input dependences aside) is respected: the source instance comes first. -/
def Prog.Legal (p : Prog) : Prop :=
  ∀ d ∈ p.deps, d.rar = false → ∀ s t q : List Int,
    s.length = p.dim d.src → t.length = p.dim d.dest → q.length = p.npar → d.dpoly.Sat (s ++ t ++ q) →
    LexBefore (p.timestamp d.src s q) (p.timestamp d.dest t q)

/-- Statement `i` is a loop / is scalar at level `l`, by its recorded type. -/
def Prog.ScalarType (p : Prog) (l i : Nat) : Prop :=
  ∃ st, p.stmts[i]? = some st ∧ st.hypTypes[l]? = some HypType.scalar

/-- Bands that can be tiled together: no statement twice, all levels exist. -/
structure BandsOK (p : Prog) (bands : List Band) : Prop where
  range : ∀ b ∈ bands, b.loop.depth + b.width ≤ p.hProps.length ∧ ∀ i ∈ b.loop.stmts, i < p.stmts.length
  nodup : ∀ b ∈ bands, b.loop.stmts.Nodup
  disjoint : bands.Pairwise (fun b c => ∀ i ∈ b.loop.stmts, i ∉ c.loop.stmts)

/-- The bands are permutable: a dependence between two statements of a band that is not satisfied
before the band has non-negative components on all its hyperplanes (those inside an already satisfying
scalar level excepted). -/
def Permutable (p : Prog) (b : Band) : Prop :=
  ∀ d ∈ p.deps, d.rar = false → d.src ∈ b.loop.stmts → d.dest ∈ b.loop.stmts → ∀ s t q : List Int,
    s.length = p.dim d.src → t.length = p.dim d.dest → q.length = p.npar → d.dpoly.Sat (s ++ t ++ q) →
    p.TiedBelow d b.loop.depth s t q → ∀ m < b.width,
      0 ≤ p.comp d (b.loop.depth + m) s t q ∨
      ∃ m0 < m, p.ScalarType (b.loop.depth + m0) d.src ∧ p.ScalarType (b.loop.depth + m0) d.dest ∧
        1 ≤ p.comp d (b.loop.depth + m0) s t q

/-- Dependences between a statement of the band and one outside are satisfied before the band. -/
def Separated (p : Prog) (b : Band) : Prop :=
  ∀ d ∈ p.deps, d.rar = false → ¬(d.src ∈ b.loop.stmts ↔ d.dest ∈ b.loop.stmts) → ∀ s t q : List Int,
    s.length = p.dim d.src → t.length = p.dim d.dest → q.length = p.npar → d.dpoly.Sat (s ++ t ++ q) →
    LexBefore ((p.timestamp d.src s q).take b.loop.depth) ((p.timestamp d.dest t q).take b.loop.depth)

/-- For statements of the band (instances, to be precise) that agree on the outer levels of the band that
are scalar for both, every level of the band is a loop for both or scalar for both, or else the scalar
row is zero. -/
def Unmixed (p : Prog) (b : Band) : Prop :=
  ∀ i ∈ b.loop.stmts, ∀ j ∈ b.loop.stmts, ∀ x y q : List Int, x.length = p.dim i → y.length = p.dim j →
    q.length = p.npar → ∀ m < b.width, p.ScalarType (b.loop.depth + m) i → ¬ p.ScalarType (b.loop.depth + m) j →
    (∀ m0 < m, p.ScalarType (b.loop.depth + m0) i → p.ScalarType (b.loop.depth + m0) j →
      p.phi i (b.loop.depth + m0) x q = p.phi j (b.loop.depth + m0) y q) →
    p.phi i (b.loop.depth + m) x q = 0

end Pluto
