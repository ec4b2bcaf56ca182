import Verif.Spec.Dfp
import Verif.Model.FcgBuild
/-! Specification of the fusion conflict graph: when a loop of a statement can be a schedule level, and when loops of two
statements can be made one level, by scaling and shifting. Scaling factors and shifts are rational, as in the LP. -/
namespace Pluto

/-- The LP solver answers correctly: it finds a solution iff there is one (variables are non-negative). -/
def LpOracle (lp : Cst → Bool) : Prop :=
  ∀ c : Cst, c.WF → (lp c = true ↔ ∃ x : List ℚ, x.length + 1 = c.ncols ∧ (∀ v ∈ x, 0 ≤ v) ∧ c.Sat x)

/-- A schedule level made of one loop per statement: statement `i` runs at time `scale i * (value of loop i) + shift i`. -/
structure LoopLevel where
  loop : Nat → Nat
  scale : Nat → ℚ
  shift : Nat → ℚ

/-- Time of an instance of statement `i`. -/
def LoopLevel.time (v : LoopLevel) (i : Nat) (x : List ℚ) : ℚ := v.scale i * x.getD (v.loop i) 0 + v.shift i

/-- No source instance of the dependence runs after its target. (Input dependences impose no order.) -/
def LoopLevel.Weak (v : LoopLevel) (p : Prog) (d : Dep) : Prop :=
  d.rar = false → ∀ s t q : List ℚ, DepInst d.dpoly p.nvar p.nvar p.npar s t q → v.time d.src s ≤ v.time d.dest t

/-- The distance of the dependence is at most `u . q + w` for parameters `q`. -/
def LoopLevel.Bounded (v : LoopLevel) (p : Prog) (u : List ℚ) (w : ℚ) (d : Dep) : Prop :=
  ∀ s t q : List ℚ, DepInst d.bpoly p.nvar p.nvar p.npar s t q → v.time d.dest t - v.time d.src s ≤ ldot u q + w

/-- A legal level for a set of dependences: all are respected and, unless `--nodepbound` is given, all distances have a common
bound. -/
def LoopLevel.Legal (v : LoopLevel) (o : SearchOpts) (p : Prog) (ds : Dep → Prop) : Prop :=
  (∀ d ∈ p.deps, ds d → v.Weak p d) ∧
  ∃ (u : List ℚ) (w : ℚ), u.length = p.npar ∧ (∀ c ∈ u, 0 ≤ c) ∧ 0 ≤ w ∧
    (o.nodepbound = false → ∀ d ∈ p.deps, ds d → v.Bounded p u w d)

/-- Upper bounds on coefficients: the one given by the user, or else the default one (used if it is at least 10). -/
def Cap (o : SearchOpts) (p : Prog) (b : Int) : Prop :=
  (o.coeffBound ≠ -1 ∧ b = o.coeffBound) ∨ (o.coeffBound = -1 ∧ 10 ≤ largestConstInDomains p ∧ b = largestConstInDomains p)

/-- Scaling factor and shift of statement `i` are allowed. -/
def LoopLevel.Allowed (v : LoopLevel) (o : SearchOpts) (p : Prog) (i : Nat) : Prop :=
  1 ≤ v.scale i ∧ 0 ≤ v.shift i ∧ ∀ b, Cap o p b → v.scale i ≤ b ∧ v.shift i ≤ b

/-- The unsatisfied dependences of a statement on itself that are taken into account. -/
def SelfDep (o : SearchOpts) (i : Nat) (d : Dep) : Prop :=
  d.satisfied = false ∧ d.src = i ∧ d.dest = i ∧ (d.rar = true → o.rar = true)

/-- The unsatisfied dependences between two statements. -/
def PairDep (i j : Nat) (d : Dep) : Prop := d.satisfied = false ∧ (d.src = i ∧ d.dest = j ∨ d.src = j ∧ d.dest = i)

/-- There is an unsatisfied dependence of statement `j` on statement `i`. -/
def LiveEdge (p : Prog) (i j : Nat) : Prop := ∃ d ∈ p.deps, d.rar = false ∧ d.satisfied = false ∧ d.src = i ∧ d.dest = j

/-- All polyhedra of dependences have a rational point. -/
def NonemptyDeps (p : Prog) : Prop :=
  ∀ d ∈ p.deps, (∃ s t q : List ℚ, DepInst d.dpoly p.nvar p.nvar p.npar s t q) ∧
    ∃ s t q : List ℚ, DepInst d.bpoly p.nvar p.nvar p.npar s t q

/-- Loop `k` of statement `i` can be a level: it respects the statement's own dependences. -/
def PermutableLoop (o : SearchOpts) (p : Prog) (i k : Nat) : Prop :=
  ∃ v : LoopLevel, v.loop i = k ∧ v.Allowed o p i ∧ v.Legal o p (SelfDep o i)

/-- Loop `k` of statement `i` and loop `l` of statement `j` can be made one level that respects the dependences between and
within the two statements. -/
def Fusable (o : SearchOpts) (p : Prog) (i j k l : Nat) : Prop :=
  ∃ v : LoopLevel, v.loop i = k ∧ v.loop j = l ∧ v.Allowed o p i ∧ v.Allowed o p j ∧
    v.Legal o p (fun d => PairDep i j d ∨ SelfDep o i d ∨ SelfDep o j d)

/-- Constant of the schedule row of statement `i` at level `l`. -/
def rowConst (p : Prog) (i l : Nat) : Int := ((p.stmts[i]?.bind (·.trans[l]?)).bind (·[p.nvar + p.npar]?)).getD 0

/-- No level other than a loop separates the components of two statements: their first statements have the same constants there. -/
def Unsplit (a : Auto) (i j : Nat) : Prop :=
  ∀ l < a.p.hProps.length, ¬ a.p.hProps[l]? = some .loop →
    rowConst a.p (a.firstStmt (a.scc i).toNat) l = rowConst a.p (a.firstStmt (a.scc j).toNat) l

end Pluto
