import Verif.Model.LpDfp
import Verif.Props.LpScale
import Verif.Props.Skew

/-! C56 and C57 with GLPK and `--lp` (which `--dfp` turns on unless `--ilp` is given, tool/main.cpp): the theorems about
`LexScales` apply when dependences join neighbouring statements, and fail otherwise. -/

namespace Pluto

/-- **C56, C57 with `--lp`.** With an LP solver that returns points and an exact solver for the scaling problem, GLPK with
scaling does what the theorems of C56 and C57 assume about the solver, for programs whose dependences join statements
that are the same or neighbours. Missing: other programs, see `C56_violated_lp`. -/
theorem C56_lp_partial (o : GlpkOpts) (olp : o.lp = true) (G : GlpkLibs) (hlp : LpPoints G.lp) (hmip : MipPoints G.mip) (p : Prog)
    (hnear : ∀ d ∈ p.deps, d.src ≤ d.dest + 1 ∧ d.dest ≤ d.src + 1) : LexScales p (lexGlpk o G) := by
  intro a cst sol hg hn hst ho hw hne hc h
  have h0 := List.length_pos_iff.mpr hst
  obtain ⟨r, hr, _, hs⟩ := C66_scaled_partial o G a.g a.d a.p cst ho hlp hmip hn h0 hw hne hc olp
  unfold lexGlpk at h
  rw [hr, Option.some.injEq] at h
  obtain ⟨s1, s2, _, x, f, cc, n, hcc, x1, x2, _, x3, hf, _⟩ := hs sol h
  have hcons := consecutive_of_neighbours a.g (fun i j hij => by
    obtain ⟨d, hd, rfl, rfl⟩ := hg i j hij
    exact hnear d hd)
  obtain ⟨cc', k', hcc', hid⟩ := C16_consecutive_partial a.g a.d hcons
  rw [hcc, Option.some.injEq, Prod.mk.injEq] at hcc'
  obtain ⟨rfl, _⟩ := hcc'
  refine ⟨s1, s2, x, fun i => f (cc i), x1, x2, x3, hf, ?_⟩
  intro i hi j hj hcon
  show f (cc i) = f (cc j)
  rw [(hid i j (by omega) (by omega)).mpr hcon]

/-- C56 with `--lp`, put together (missing: as in `C56_order_partial`, and dependences between statements that are not
neighbours, see `C56_violated_lp`): in the result the source of a dependent pair comes before its target, or both have the same
timestamp; the latter only for dependences in a cycle that are marked as not satisfied. -/
theorem C56_lp_order_partial (o : AutoOpts) (delayedCut : Bool) (L : Libs) (hE : EmptyOracle L.isEmpty) (og : GlpkOpts) (olp : og.lp = true)
    (G : GlpkLibs) (hlp : LpPoints G.lp) (hmip : MipPoints G.mip) (fcgOf : Auto → List Nat → Nat → Graph) (hF : FcgOracle fcgOf)
    (d0 : DfsState) (p0 p : Prog) (hp : p0.InputOK) (hne : p0.stmts ≠ [])
    (hnear : ∀ d ∈ p0.deps, d.src ≤ d.dest + 1 ∧ d.dest ≤ d.src + 1)
    (h : dfpTransform o delayedCut L (lexGlpk og G) fcgOf (quietSkew o.toSearchOpts L (lexGlpk og G)) d0 p0 = some p)
    (j : Nat) (d : Dep) (hd : p0.deps[j]? = some d) (hr : d.rar = false) (s t q : List Int) (hi : p0.Inst d s t q) :
    LexBefore (p.timestamp d.src s q) (p.timestamp d.dest t q) ∨
    (p.timestamp d.src s q = p.timestamp d.dest t q ∧ DepChain p0 d.dest d.src ∧ p.deps[j]?.map (·.satisfied) = some false) :=
  C56_order_partial o delayedCut L _ hE fcgOf hF d0 p0 p (C56_lp_partial og olp G hlp hmip p0 hnear) hp hne h j d hd hr s t q hi

/-! ### A run that reverses a dependence -/

/-- The system that the first level of the search for `glProg` hands to the LP solver. -/
def glFirst : Cst := ⟨11, [
  ⟨false, [1, 0, 0, 0, 0, 0, 0, 0, 0, 0, 0]⟩, ⟨false, [0, 1, 0, 0, 0, 0, 0, 0, 0, 0, 0]⟩, ⟨false, [0, 0, 1, 0, 0, 0, 0, 0, 0, 0,
  0]⟩, ⟨false, [0, 0, 0, 1, 0, 0, 0, 0, 0, 0, 0]⟩, ⟨false, [0, 0, 0, 0, 1, 0, 0, 0, 0, 0, 0]⟩, ⟨false, [0, 0, 0, 0, 0, 1, 0, 0,
  0, 0, 0]⟩, ⟨false, [0, 0, 0, 0, 0, 0, 1, 0, 0, 0, 0]⟩, ⟨false, [0, 0, 0, 0, 0, 0, 0, 1, 0, 0, 0]⟩, ⟨false, [0, 0, 0, 0, 0, 0,
  0, 0, 1, 0, 0]⟩, ⟨false, [0, 0, 0, 0, 0, 0, 0, 0, 0, 1, 0]⟩, ⟨false, [0, 0, 1, 0, 0, 0, 0, 0, 0, 0, -1]⟩, ⟨false, [0, 0, 0, 0,
  1, 0, 0, 0, 0, 0, -1]⟩, ⟨false, [0, 0, 0, 0, 0, 0, 1, 0, 0, 0, -1]⟩, ⟨false, [0, 0, 0, 0, 0, 0, 0, 0, 1, 0, -1]⟩, ⟨false, [0,
  0, -2, 0, 0, 0, 0, 0, 3, 0, 0]⟩, ⟨false, [0, 0, -2, 0, 3, 0, 0, 0, 0, 0, 0]⟩, ⟨false, [0, 0, 0, -1, 0, 0, 0, 0, 0, 1, 0]⟩,
  ⟨false, [0, 0, 0, -1, 0, 1, 0, 0, 0, 0, 0]⟩, ⟨false, [0, 0, 2, 0, -3, 0, 0, 0, 0, 0, 0]⟩, ⟨false, [0, 0, 2, 1, 0, -1, 0, 0, 0,
  0, 0]⟩, ⟨false, [0, 1, -2, -1, 0, 1, 0, 0, 0, 0, 0]⟩, ⟨false, [0, 1, 0, 1, 0, -1, 0, 0, 0, 0, 0]⟩, ⟨false, [0, 1, 0, 1, 0, 0,
  0, 0, 0, -1, 0]⟩, ⟨false, [1, 0, 0, 0, 0, 0, 0, 0, 0, 0, 0]⟩, ⟨false, [2, 0, 2, 0, -3, 0, 0, 0, 0, 0, 0]⟩, ⟨false, [2, 0, 2,
  0, 0, 0, 0, 0, -3, 0, 0]⟩, ⟨false, [3, 0, -2, 0, 3, 0, 0, 0, 0, 0, 0]⟩]⟩

noncomputable def glLibs3 : GlpkLibs :=
  ⟨lpAt glFirst [100, 20, 3, 1, 3, 1, 3, 1, 3, 1] glX, fun _ _ => none, mipAt glScale [2, 1, 3, 0, 2, 3, 1, 0, 1, 0]⟩

theorem glLibs3_points : LpPoints glLibs3.lp := lpAt_points (by decide +kernel)
theorem glLibs3_optimal : LpOptimal glLibs3.lp := by
  refine lpAt_optimal (fun y hy hn hs => ?_)
  match y, hy with
  | [u, w, a, a', b, b', c, c', d, d'], _ =>
    simp only [List.mem_cons, List.not_mem_nil, or_false, forall_eq_or_imp, forall_eq] at hn
    simp only [glFirst, Cst.Sat, List.mem_cons, List.not_mem_nil, or_false, forall_eq_or_imp, forall_eq, Row.Sat, Bool.false_eq_true,
      if_false, aff, List.cons_append, List.nil_append, dot] at hs
    simp only [glX, dot]
    push_cast at hs ⊢
    linarith

def glEmpties : List Cst :=
  [⟨4, ⟨false, [3, -2, 0, -3]⟩ :: (glPoly [3, -2, 0, 0]).rows⟩, ⟨4, ⟨false, [2, -3, 0, 3]⟩ :: (glPoly [2, -3, 0, 6]).rows⟩,
   ⟨4, ⟨false, [0, 0, 0, -1]⟩ :: (glPoly [3, -2, 0, 0]).rows⟩]

noncomputable def glSearchLibs : Libs := ⟨fun _ _ => [], certOracle [[0, 0, 0]] glEmpties, fun _ => none⟩

theorem glSearchLibs_ok : EmptyOracle glSearchLibs.isEmpty := by
  refine certOracle_ok _ _ ?_
  rintro c hc ⟨x, hx, hs⟩
  simp only [glEmpties, List.mem_cons, List.not_mem_nil, or_false] at hc
  rcases hc with rfl | rfl | rfl <;>
  · match x, hx with
    | [i, j, n], _ =>
      simp [Cst.Sat, Row.Sat, glPoly, aff, dot] at hs
      try omega

/-- The options of `--dfp` with GLPK (and `--lp`, which it implies). -/
def glOpts : AutoOpts := ⟨⟨false, true, false, false, -1⟩, .smart⟩

/-- **C56 does not hold with `--lp`.** Four loops `i = 0..N` that can be run one after the other as they are written, except that
the first two depend on each other. The LP solver returns an optimal point, the scaling problem and all questions
about emptiness are answered exactly, the call returns normally and marks all dependences as satisfied, and an instance
of the last statement comes before an instance of the first that it depends on. -/
theorem C56_violated_lp : LpPoints glLibs3.lp ∧ LpOptimal glLibs3.lp ∧ MipPoints glLibs3.mip ∧ EmptyOracle glSearchLibs.isEmpty ∧
    FcgOracle noConflicts ∧ glProg.InputOK ∧
    ∃ p, dfpTransform glOpts false glSearchLibs (lexGlpk ⟨true, true⟩ glLibs3) noConflicts
        (dfpSkew glOpts.toSearchOpts glSearchLibs (lexGlpk ⟨true, true⟩ glLibs3)) exState glProg = some p ∧
      p.stmts.map (·.trans) = [[[3, 0, 0], [0, 0, 2]], [[2, 0, 3], [0, 0, 1]], [[1, 0, 0], [0, 0, 0]], [[1, 0, 0], [0, 0, 3]]] ∧
      p.deps.map (·.satisfied) = [true, true, true] ∧
      glProg.Inst (glDep 0 3 [3, -2, 0, 0]) [2] [3] [2] ∧
      LexBefore (p.timestamp 3 [3] [2]) (p.timestamp 0 [2] [2]) := by
  refine ⟨glLibs3_points, glLibs3_optimal, mipAt_points (by decide +kernel), glSearchLibs_ok, noConflicts_ok, ⟨by decide, by decide⟩, ?_⟩
  have hrun : (dfpTransform glOpts false glSearchLibs (lexGlpk ⟨true, true⟩ glLibs3) noConflicts
        (dfpSkew glOpts.toSearchOpts glSearchLibs (lexGlpk ⟨true, true⟩ glLibs3)) exState glProg).map
          (fun p => (p.stmts.map (·.trans), p.deps.map (·.satisfied))) =
        some ([[[3, 0, 0], [0, 0, 2]], [[2, 0, 3], [0, 0, 1]], [[1, 0, 0], [0, 0, 0]], [[1, 0, 0], [0, 0, 3]]], [true, true, true]) := by
    decide +kernel
  obtain ⟨p, h1, h2⟩ := Option.map_eq_some_iff.mp hrun
  obtain ⟨h2, h3⟩ := Prod.mk.inj h2
  refine ⟨p, h1, h2, h3, ⟨rfl, rfl, rfl, by decide⟩, 0, 3, 6, ?_, ?_, by omega, fun l hl => absurd hl (by omega)⟩ <;>
  · unfold Prog.timestamp
    rw [← List.getElem?_map, h2]
    rfl

/-! ### Example -/

def glNear : Prog :=
  ⟨1, 1, [glStmt, glStmt], [glDep 0 1 [3, -2, 0, 0], glDep 1 0 [2, -3, 0, 6]], []⟩

def glFirst2 : Cst := ⟨7, [
  ⟨false, [1, 0, 0, 0, 0, 0, 0]⟩, ⟨false, [0, 1, 0, 0, 0, 0, 0]⟩, ⟨false, [0, 0, 1, 0, 0, 0, 0]⟩, ⟨false, [0, 0, 0, 1, 0, 0,
  0]⟩, ⟨false, [0, 0, 0, 0, 1, 0, 0]⟩, ⟨false, [0, 0, 0, 0, 0, 1, 0]⟩, ⟨false, [0, 0, 1, 0, 0, 0, -1]⟩, ⟨false, [0, 0, 0, 0, 1,
  0, -1]⟩, ⟨false, [0, 0, -2, 0, 3, 0, 0]⟩, ⟨false, [0, 0, 0, -1, 0, 1, 0]⟩, ⟨false, [0, 0, 2, 0, -3, 0, 0]⟩, ⟨false, [0, 0, 2,
  1, 0, -1, 0]⟩, ⟨false, [0, 1, -2, -1, 0, 1, 0]⟩, ⟨false, [0, 1, 0, 1, 0, -1, 0]⟩, ⟨false, [1, 0, 0, 0, 0, 0, 0]⟩, ⟨false, [2,
  0, 2, 0, -3, 0, 0]⟩, ⟨false, [3, 0, -2, 0, 3, 0, 0]⟩]⟩

def glX3 : List ℚ := [0, 3 / 2, 3 / 2, 0, 1, 3 / 2]
def glScale3 : ScaleProb := (scalingProb glX3 (some (indexOf [0, 0, 0, 0] 1)) 1 1).getD ⟨[], []⟩
noncomputable def glLibs4 : GlpkLibs := ⟨lpAt glFirst2 [50, 10, 3, 1, 3, 1] glX3, fun _ _ => none, mipAt glScale3 [2, 3, 0, 2, 3]⟩

/-- A run with a fractional point and scaling to which `C56_lp_partial` and `C56_marked_partial` apply. -/
example : LexScales glNear (lexGlpk ⟨true, true⟩ glLibs4) ∧ EmptyOracle glSearchLibs.isEmpty ∧ FcgOracle noConflicts ∧ glNear.InputOK ∧
    (dfpTransform glOpts false glSearchLibs (lexGlpk ⟨true, true⟩ glLibs4) noConflicts
        (quietSkew glOpts.toSearchOpts glSearchLibs (lexGlpk ⟨true, true⟩ glLibs4)) exState glNear).map
          (fun p => (p.stmts.map (·.trans), p.deps.map (·.satisfied))) = some ([[[3, 0, 0]], [[2, 0, 3]]], [true, true]) :=
  ⟨C56_lp_partial _ rfl _ (lpAt_points (by decide +kernel)) (mipAt_points (by decide +kernel)) _ (by decide), glSearchLibs_ok, noConflicts_ok,
    ⟨by decide, by decide⟩, by decide +kernel⟩

end Pluto
