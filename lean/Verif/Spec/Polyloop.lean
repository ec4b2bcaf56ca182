import Verif.Spec.Tile

/-! Specification of the loop structure of a schedule. -/

namespace Pluto

/-- Row `l` of statement `i` exists and involves no iterator. -/
def Prog.Scalar (p : Prog) (l i : Nat) : Prop :=
  ∃ st r, p.stmts[i]? = some st ∧ st.trans[l]? = some r ∧ ∀ v ∈ r.take st.dim, v = 0

/-- Constant of row `l` of statement `i`. -/
def Prog.const (p : Prog) (l i : Nat) : Int := (p.row i l).getLast?.getD 0

/-- Statements `i` and `j` have the same constant at every level in `[a, b)` that is scalar for both. -/
def Agree (p : Prog) (a b i j : Nat) : Prop :=
  ∀ l, a ≤ l → l < b → p.Scalar l i → p.Scalar l j → p.const l i = p.const l j

/-- No two of the statements that agree outside a level are scalar and a loop there. -/
def Uniform (p : Prog) (a b : Nat) (stmts : List Nat) : Prop :=
  ∀ l, a ≤ l → l < b → ∀ i ∈ stmts, ∀ j ∈ stmts, Agree p a l i j → p.Scalar l i → p.Scalar l j

/-- Scalar rows do not involve parameters. -/
def PureScalars (p : Prog) : Prop :=
  ∀ i l x q, p.Scalar l i → x.length = p.dim i → q.length = p.npar → p.phi i l x q = p.const l i

/-- The satisfaction and direction data recorded in the dependences is right: `satisfied` says whether
one level separates all dependent pairs, `satLevel` is the first such level, bit `l` of `satvec` is set
iff not all components at `l` are zero and no outer level separates all pairs, and `dirvec` has the
signs of the components. -/
structure Prog.Info (p : Prog) : Prop where
  sat : ∀ d ∈ p.deps, d.satisfied = true ↔
    ∃ l < p.hProps.length, ∀ s t q, p.Inst d s t q → 1 ≤ p.comp d l s t q
  level : ∀ d ∈ p.deps, ∀ l : Nat, d.satLevel = (l : Int) ↔ l < p.hProps.length ∧
    (∀ s t q, p.Inst d s t q → 1 ≤ p.comp d l s t q) ∧
    ∀ l' < l, ¬ ∀ s t q, p.Inst d s t q → 1 ≤ p.comp d l' s t q
  unsat : ∀ d ∈ p.deps, d.satisfied = false → d.satLevel = -1
  vec : ∀ d ∈ p.deps, d.rar = false → d.satvec.length = p.hProps.length ∧
    ∀ l < p.hProps.length, d.satvec[l]? = some true ↔
      (∃ s t q, p.Inst d s t q ∧ p.comp d l s t q ≠ 0) ∧
      ∀ l' < l, ¬ ∀ s t q, p.Inst d s t q → 1 ≤ p.comp d l' s t q
  dirLen : ∀ d ∈ p.deps, d.dirvec.length = p.hProps.length
  dir : ∀ d ∈ p.deps, ∀ l : Nat, ∀ dir : Dir, d.dirvec[l]? = some dir →
    (dir = .minus ∨ dir = .star ↔ ∃ s t q, p.Inst d s t q ∧ p.comp d l s t q < 0) ∧
    (dir = .plus ∨ dir = .star ↔ ∃ s t q, p.Inst d s t q ∧ 0 < p.comp d l s t q)

/-- Every dependence between the given statements is separated by a single level for all its pairs. -/
def Complete (p : Prog) (stmts : List Nat) : Prop :=
  ∀ d ∈ p.deps, d.rar = false → d.src ∈ stmts → d.dest ∈ stmts →
    ∃ l < p.hProps.length, ∀ s t q, p.Inst d s t q → 1 ≤ p.comp d l s t q

/-- A dependence between the given statements that is first separated for all pairs at a level that is
scalar for all of them has no negative component outside it. -/
def NonnegToScalar (p : Prog) (stmts : List Nat) : Prop :=
  ∀ d ∈ p.deps, d.rar = false → d.src ∈ stmts → d.dest ∈ stmts → ∀ l0 < p.hProps.length,
    (∀ i ∈ stmts, p.Scalar l0 i) → (∀ s t q, p.Inst d s t q → 1 ≤ p.comp d l0 s t q) →
    (∀ l < l0, ¬ ∀ s t q, p.Inst d s t q → 1 ≤ p.comp d l s t q) →
    ∀ l < l0, ∀ s t q, p.Inst d s t q → 0 ≤ p.comp d l s t q

/-- Every dependence (input dependences aside) is separated by a single level for all its pairs, and has
no negative component outside that level. -/
def Stepwise (p : Prog) : Prop :=
  ∀ d ∈ p.deps, d.rar = false → ∃ l0 < p.hProps.length, (∀ s t q, p.Inst d s t q → 1 ≤ p.comp d l0 s t q) ∧
    ∀ l < l0, ∀ s t q, p.Inst d s t q → 0 ≤ p.comp d l s t q

/-- The recorded types of the rows are right: a row is marked scalar iff it involves no iterator. -/
def TypesRight (p : Prog) : Prop :=
  ∀ i < p.stmts.length, ∀ l < p.hProps.length, p.ScalarType l i ↔ p.Scalar l i

/-- A time stamp with the `w` entries from `f` on rearranged: position `f + m` gets the entry that was
at `f + perm[m]`. -/
def permuteTime (f w : Nat) (perm : List Nat) (ts : List Int) : List Int :=
  ts.take f ++ perm.map (fun m => ts.getD (f + m) 0) ++ ts.drop (f + w)

/-- The rearrangement never puts a level of the band before a level outside it that is scalar for all
its statements. -/
def KeepsScalars (p : Prog) (b : Band) (perm : List Nat) : Prop :=
  ∀ A m B, perm = A ++ m :: B → ∀ m0 < m, (∀ i ∈ b.loop.stmts, p.Scalar (b.loop.depth + m0) i) → m0 ∈ A

/-- Level `k` of the band, not its first, is a loop for all its statements. -/
def AllLoop (p : Prog) (b : Band) (k : Nat) : Prop :=
  b.loop.depth < k ∧ k < b.loop.depth + b.width ∧ ∀ i ∈ b.loop.stmts, ¬ p.Scalar k i

/-- Levels that go into a wavefront: all of these, or just the first one. -/
def Added (p : Prog) (b : Band) (multipar : Bool) (k : Nat) : Prop :=
  AllLoop p b k ∧ (multipar = true ∨ ∀ k' < k, ¬ AllLoop p b k')

/-- Statements `i` of `p'` have the sum of their rows at level `f` and the levels `ks` at level `f`, and
keep the others. -/
def SumAt (p p' : Prog) (S : List Nat) (f : Nat) (ks : List Nat) : Prop :=
  ∀ i ∈ S, ∀ x q,
    p'.phi i f x q = p.phi i f x q + (ks.map (fun k => p.phi i k x q)).sum ∧
    ∀ l, l ≠ f → p'.phi i l x q = p.phi i l x q

end Pluto
