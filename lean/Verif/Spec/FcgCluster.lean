import Verif.Spec.FcgBuild
import Verif.Spec.DfpCluster
import Verif.Model.FcgCluster
/-! Specification of the fusion conflict graph of the clustered approach: when a loop of a strongly connected component can be a
schedule level for all its statements, and when loops of two components can be made one level. -/
namespace Pluto

/-- The LP solver answers correctly: it returns a (non-negative) solution if there is one. (Nothing is assumed about the
objective.) -/
def LpSolver (lp : Cst → List Int → Option (List ℚ)) : Prop :=
  ∀ (c : Cst) (obj : List Int), c.WF →
    (∀ x, lp c obj = some x → x.length + 1 = c.ncols ∧ (∀ v ∈ x, 0 ≤ v) ∧ c.Sat x) ∧
    (lp c obj = none → ¬ ∃ x : List ℚ, x.length + 1 = c.ncols ∧ (∀ v ∈ x, 0 ≤ v) ∧ c.Sat x)

/-- Statement `i` is in component `s`. -/
def InScc (a : Auto) (s i : Nat) : Prop := i < a.p.stmts.length ∧ a.scc i = (s : Int)

/-- The unsatisfied dependences between statements of a set that are taken into account. -/
def DepWithin (o : SearchOpts) (m : Nat → Prop) (d : Dep) : Prop :=
  d.satisfied = false ∧ (d.rar = true → o.rar = true) ∧ m d.src ∧ m d.dest

/-- At this level statement `i` has its loop `j`, scaled (at least by 1) and shifted. A statement of depth at most `j` has no
such loop: all its instances run at the same time. -/
def LoopLevel.Takes (v : LoopLevel) (o : SearchOpts) (p : Prog) (i j : Nat) : Prop :=
  v.loop i = j ∧ (j < depthOf p i → 1 ≤ v.scale i ∧ ∀ b, Cap o p b → v.scale i ≤ b) ∧ (depthOf p i ≤ j → v.scale i = 0) ∧
    0 ≤ v.shift i ∧ ∀ b, Cap o p b → v.shift i ≤ b

/-- Loop `j` of component `s` can be a level without shifting any statement. -/
def SccPermutable (o : SearchOpts) (a : Auto) (s j : Nat) : Prop :=
  ∃ v : LoopLevel, (∀ i, InScc a s i → v.Takes o a.p i j ∧ v.shift i = 0) ∧ v.Legal o a.p (DepWithin o (InScc a s))

/-- Loop `j` of component `s` and loop `k` of component `t` can be made one level that respects the dependences between and
within the two components. -/
def SccFusable (o : SearchOpts) (a : Auto) (s t j k : Nat) : Prop :=
  ∃ v : LoopLevel, (∀ i, InScc a s i → v.Takes o a.p i j) ∧ (∀ i, InScc a t i → v.Takes o a.p i k) ∧
    v.Legal o a.p (DepWithin o (fun i => InScc a s i ∨ InScc a t i))

/-- Source and target instances of the dependence run at the same time (where the polyhedron used for the bound applies). -/
def LoopLevel.Same (v : LoopLevel) (p : Prog) (d : Dep) : Prop :=
  d.rar = false → ∀ s t q : List ℚ, DepInst d.dpoly p.nvar p.nvar p.npar s t q → DepInst d.bpoly p.nvar p.nvar p.npar s t q →
    v.time d.src s = v.time d.dest t

/-- No level other than a loop separates two components: their first statements have the same constants there. -/
def SccUnsplit (a : Auto) (s t : Nat) : Prop :=
  ∀ l < a.p.hProps.length, ¬ a.p.hProps[l]? = some .loop → rowConst a.p (a.firstStmt s) l = rowConst a.p (a.firstStmt t) l

end Pluto
