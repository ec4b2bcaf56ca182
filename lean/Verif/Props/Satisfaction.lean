import Verif.Lemmas.Satisfaction
import Verif.Lemmas.SatFold
import Verif.Props.Legality

/-!
C12, C13: satisfaction and direction of dependences. `Prog.comp` (the component
`phi(t) - phi(s)`), `Prog.Inst` and `EmptyOracle` are in Verif/Spec/Prog.lean.
-/

namespace Pluto

variable {isEmpty : Cst → Bool}

/-- C12. The test reports "satisfied" iff every dependent pair is separated by at least 1. -/
theorem C12_test_exact (hE : EmptyOracle isEmpty) (p : Prog) (hT : p.TransOK) (d : Dep)
    (hd : p.DepFits d) (l : Nat) (b : Bool) (h : depSatTest isEmpty p d l = some b) :
    b = true ↔ ∀ s t q, p.Inst d s t q → 1 ≤ p.comp d l s t q :=
  depSatTest_iff hE p hT d hd l b h

/-- C12. The test is defined exactly when both statements exist and have a row at the level (the
assertions in the code). -/
theorem C12_test_defined (p : Prog) (d : Dep) (l : Nat) :
    (∃ b, depSatTest isEmpty p d l = some b) ↔
      ∃ ss ds, p.stmts[d.src]? = some ss ∧ p.stmts[d.dest]? = some ds ∧
        l < ss.trans.length ∧ l < ds.trans.length := by
  rw [depSatTest_defined]
  unfold rowOf
  constructor
  · rintro ⟨⟨a, ha⟩, ⟨c, hc⟩⟩
    rw [Option.bind_eq_some_iff] at ha hc
    obtain ⟨ss, h1, h2⟩ := ha
    obtain ⟨ds, h3, h4⟩ := hc
    exact ⟨ss, ds, h1, h3, (List.getElem?_eq_some_iff.mp h2).1, (List.getElem?_eq_some_iff.mp h4).1⟩
  · rintro ⟨ss, ds, h1, h3, h2, h4⟩
    exact ⟨⟨ss.trans[l], by simp [h1, h2]⟩, ⟨ds.trans[l], by simp [h3, h4]⟩⟩

/-- C12. Updating the satisfaction status at a level changes nothing but the status; a dependence is
satisfied afterwards iff it was before or the level separates all its pairs; the level recorded is
the first one at which it became satisfied. The number returned counts the newly satisfied non-input
dependences. -/
theorem C12_update (hE : EmptyOracle isEmpty) (p p' : Prog) (n : Nat) (hT : p.TransOK)
    (hd : ∀ d ∈ p.deps, p.DepFits d) (l : Nat) (h : depSatUpdate isEmpty p l = some (p', n)) :
    p' = { p with deps := p'.deps } ∧
    List.Forall₂ (fun d d' : Dep =>
      d' = { d with satisfied := d'.satisfied, satLevel := d'.satLevel } ∧
      (d'.satisfied = true ↔ d.satisfied = true ∨ ∀ s t q, p.Inst d s t q → 1 ≤ p.comp d l s t q) ∧
      d'.satLevel = if d.satisfied = false ∧ d'.satisfied = true then (l : Int) else d.satLevel)
      p.deps p'.deps ∧
    n = ((p.deps.zip p'.deps).filter (fun x => !x.1.satisfied && x.2.satisfied && !x.1.rar)).length :=
  depSatUpdate_spec hE p p' n hT hd l h

/-- C12. `pluto_compute_dep_satisfaction`: a dependence ends up satisfied iff some level of the
schedule separates all its pairs, and the recorded level is the outermost such level; otherwise the
level is -1. The satisfaction vector of a non-input dependence has bit `l` set iff its direction at
`l` is not zero and it is not completely satisfied at an outer level. -/
theorem C12_compute (hE : EmptyOracle isEmpty) (p p' : Prog) (hT : p.TransOK)
    (hd : ∀ d ∈ p.deps, p.DepFits d) (h : computeDepSatisfaction isEmpty p = some p') :
    p' = { p with deps := p'.deps } ∧
    List.Forall₂ (fun d d' : Dep =>
      d' = { d with satisfied := d'.satisfied, satLevel := d'.satLevel, satvec := d'.satvec } ∧
      (d'.satisfied = true ↔
        ∃ l < p.hProps.length, ∀ s t q, p.Inst d s t q → 1 ≤ p.comp d l s t q) ∧
      (∀ l : Nat, d'.satLevel = (l : Int) ↔ l < p.hProps.length ∧
        (∀ s t q, p.Inst d s t q → 1 ≤ p.comp d l s t q) ∧
        ∀ l' < l, ¬ ∀ s t q, p.Inst d s t q → 1 ≤ p.comp d l' s t q) ∧
      (d'.satisfied = false → d'.satLevel = -1) ∧
      (d.rar = false → d'.satvec.length = p.hProps.length ∧
        ∀ l < p.hProps.length, d'.satvec[l]? = some true ↔
          (∃ dir, d.dirvec[l]? = some dir ∧ dir ≠ Dir.zero) ∧
          ∀ l' < l, ¬ ∀ s t q, p.Inst d s t q → 1 ≤ p.comp d l' s t q))
      p.deps p'.deps :=
  computeDepSatisfaction_spec hE p p' hT hd h

/-- C12. The precise computation: a dependence is satisfied iff every pair is separated at some
level; bit `l` of its vector is set iff `l` separates some pair that no outer level separates; the
level is that of the last bit set. -/
theorem C12_precise (hE : EmptyOracle isEmpty) (p p' : Prog) (n : Nat) (hT : p.TransOK)
    (hd : ∀ d ∈ p.deps, p.DepFits d) (hn : 1 ≤ p.hProps.length)
    (h : computeDepSatisfactionPrecise isEmpty p = some (p', n)) :
    p' = { p with deps := p'.deps } ∧
    List.Forall₂ (fun d d' : Dep =>
      d' = { d with satisfied := d'.satisfied, satLevel := d'.satLevel, satvec := d'.satvec } ∧
      (d'.satisfied = true ↔
        ∀ s t q, p.Inst d s t q → ∃ l < p.hProps.length, 1 ≤ p.comp d l s t q) ∧
      d'.satvec.length = p.hProps.length ∧
      (∀ l < p.hProps.length, d'.satvec[l]? = some true ↔
        ∃ s t q, p.Inst d s t q ∧ (∀ l' < l, p.comp d l' s t q ≤ 0) ∧ 1 ≤ p.comp d l s t q) ∧
      (d'.satLevel = -1 ∨ ∃ l : Nat, d'.satLevel = (l : Int) ∧ d'.satvec[l]? = some true) ∧
      (∀ l : Nat, d'.satvec[l]? = some true → (l : Int) ≤ d'.satLevel)) p.deps p'.deps ∧
    n = (p'.deps.filter (fun d => d.satisfied && !d.rar)).length :=
  preciseSpec hE p p' n hT hd hn h

/-- C13. The four directions. -/
theorem C13_direction (hE : EmptyOracle isEmpty) (p : Prog) (hT : p.TransOK) (d : Dep)
    (hd : p.DepFits d) (l : Nat) (dir : Dir) (h : depDirection isEmpty p d l = some dir) :
    (dir = .zero ↔ ∀ s t q, p.Inst d s t q → p.comp d l s t q = 0) ∧
    (dir = .plus ↔ (∀ s t q, p.Inst d s t q → 0 ≤ p.comp d l s t q) ∧
      ∃ s t q, p.Inst d s t q ∧ 0 < p.comp d l s t q) ∧
    (dir = .minus ↔ (∀ s t q, p.Inst d s t q → p.comp d l s t q ≤ 0) ∧
      ∃ s t q, p.Inst d s t q ∧ p.comp d l s t q < 0) ∧
    (dir = .star ↔ (∃ s t q, p.Inst d s t q ∧ 0 < p.comp d l s t q) ∧
      ∃ s t q, p.Inst d s t q ∧ p.comp d l s t q < 0) := by
  obtain ⟨pe, ne, hpos, hneg, hdef⟩ := depDirection_spec hE p hT d hd l dir h
  set P := ∃ s t q, p.Inst d s t q ∧ 0 < p.comp d l s t q with hP
  set N := ∃ s t q, p.Inst d s t q ∧ p.comp d l s t q < 0 with hN
  have nP : (∀ s t q, p.Inst d s t q → p.comp d l s t q ≤ 0) ↔ ¬ P := by
    rw [hP]; push Not; rfl
  have nN : (∀ s t q, p.Inst d s t q → 0 ≤ p.comp d l s t q) ↔ ¬ N := by
    rw [hN]; push Not; rfl
  have z : (∀ s t q, p.Inst d s t q → p.comp d l s t q = 0) ↔ ¬ P ∧ ¬ N := by
    rw [← nP, ← nN]
    exact ⟨fun h => ⟨fun s t q hi => (h s t q hi).le, fun s t q hi => (h s t q hi).ge⟩,
      fun h s t q hi => le_antisymm (h.1 s t q hi) (h.2 s t q hi)⟩
  rw [nP, nN, z]
  rw [hdef]
  by_cases p1 : P <;> by_cases n1 : N
  · have a := hpos.mpr p1; have b := hneg.mpr n1
    simp [a, b, p1, n1]
  · have a := hpos.mpr p1; have b := (not_congr hneg).mpr n1
    simp only [Bool.not_eq_false] at b
    simp [a, b, p1, n1]
  · have a := (not_congr hpos).mpr p1; have b := hneg.mpr n1
    simp only [Bool.not_eq_false] at a
    simp [a, b, p1, n1]
  · have a := (not_congr hpos).mpr p1; have b := (not_congr hneg).mpr n1
    simp only [Bool.not_eq_false] at a b
    simp [a, b, p1, n1]

/-- C13. The direction is defined exactly when both statements have a row at the level. -/
theorem C13_direction_defined (p : Prog) (d : Dep) (l : Nat) :
    (∃ dir, depDirection isEmpty p d l = some dir) ↔
      ∃ ss ds, p.stmts[d.src]? = some ss ∧ p.stmts[d.dest]? = some ds ∧
        l < ss.trans.length ∧ l < ds.trans.length := by
  rw [← C12_test_defined (isEmpty := isEmpty), depSatTest_defined]
  unfold depDirection
  cases ha : rowOf p d.src l with
  | none => simp
  | some a => cases hb : rowOf p d.dest l with
    | none => simp
    | some c =>
      simp only [Option.bind_eq_bind, Option.bind_some, Option.some.injEq, exists_eq', and_self, iff_true]
      split_ifs <;> exact ⟨_, rfl⟩

/-- C13. Direction vectors are computed for every dependence and level, and nothing else changes. -/
theorem C13_directions (p p' : Prog) (h : computeDepDirections isEmpty p = some p') :
    p' = { p with deps := p'.deps } ∧
    List.Forall₂ (fun d d' : Dep => d' = { d with dirvec := d'.dirvec } ∧
      d'.dirvec.length = p.hProps.length ∧
      ∀ l < p.hProps.length, d'.dirvec[l]? = depDirection isEmpty p d l) p.deps p'.deps :=
  computeDepDirections_spec p p' h

/-! ### Example: the program of Verif/Props/Legality.lean with both statements scheduled at `i` and
then at the constants 0 and 1. -/

/-- Emptiness of integer sets is a well-defined predicate, so an oracle exists. -/
theorem emptyOracle_exists : ∃ isEmpty, EmptyOracle isEmpty := by
  classical
  exact ⟨fun c => decide (¬ ∃ x : List Int, x.length + 1 = c.ncols ∧ c.Sat x), fun c _ => by simp⟩

def exProg2 : Prog :=
  { exProg with
    stmts := [{ exStmt with trans := [[1, 0, 0], [0, 0, 0]] }, { exStmt with trans := [[1, 0, 0], [0, 0, 1]] }]
    hProps := [.loop, .scalar] }

/-- The hypotheses hold and both dependences are satisfied at level 0 and not at level 1 (for the
self dependence the component is 0 there). -/
example : exProg2.TransOK ∧ (∀ d ∈ exProg2.deps, exProg2.DepFits d) ∧ 1 ≤ exProg2.hProps.length ∧
    ∀ isEmpty, EmptyOracle isEmpty →
      depSatTest isEmpty exProg2 (exDep 1 1) 0 = some true ∧
      depSatTest isEmpty exProg2 (exDep 1 1) 1 = some false ∧
      depDirection isEmpty exProg2 (exDep 1 1) 0 = some .plus ∧
      depDirection isEmpty exProg2 (exDep 1 1) 1 = some .zero := by
  have hT : exProg2.TransOK := by unfold Prog.TransOK; decide
  have hwf : exPoly.WF := ⟨by decide, by decide⟩
  have hD : ∀ d ∈ exProg2.deps, exProg2.DepFits d := by
    intro d hd
    simp only [exProg2, exProg, List.mem_cons, List.not_mem_nil, or_false] at hd
    rcases hd with rfl | rfl <;> exact ⟨hwf, rfl⟩
  refine ⟨hT, hD, by decide, ?_⟩
  intro isEmpty hE
  have hd := hD (exDep 1 1) (by simp [exProg2, exProg])
  have c0 : ∀ s t q, exProg2.Inst (exDep 1 1) s t q → exProg2.comp (exDep 1 1) 0 s t q = 1 := by
    rintro s t q ⟨h1, h2, h3, h4⟩
    obtain ⟨a, rfl⟩ : ∃ a, s = [a] := List.length_eq_one_iff.mp h1
    obtain ⟨b, rfl⟩ : ∃ b, t = [b] := List.length_eq_one_iff.mp h2
    obtain ⟨c, rfl⟩ : ∃ c, q = [c] := List.length_eq_one_iff.mp h3
    have := h4 ⟨true, [-1, 1, 0, -1]⟩ (by simp [exDep, exPoly])
    simp [Row.Sat, aff] at this
    simp [Prog.comp, Prog.phi, Prog.row, exProg2, exDep, exStmt, aff]
    omega
  have c1 : ∀ s t q, exProg2.Inst (exDep 1 1) s t q → exProg2.comp (exDep 1 1) 1 s t q = 0 := by
    rintro s t q ⟨h1, h2, h3, h4⟩
    obtain ⟨a, rfl⟩ : ∃ a, s = [a] := List.length_eq_one_iff.mp h1
    obtain ⟨b, rfl⟩ : ∃ b, t = [b] := List.length_eq_one_iff.mp h2
    obtain ⟨c, rfl⟩ : ∃ c, q = [c] := List.length_eq_one_iff.mp h3
    simp [Prog.comp, Prog.phi, Prog.row, exProg2, exDep, exStmt, aff]
  have hi : exProg2.Inst (exDep 1 1) [2] [3] [5] :=
    ⟨rfl, rfl, rfl, by unfold Cst.Sat Row.Sat; decide +kernel⟩
  refine ⟨?_, ?_, ?_, ?_⟩
  · obtain ⟨b, hb⟩ := (C12_test_defined (isEmpty := isEmpty) exProg2 (exDep 1 1) 0).mpr
      ⟨_, _, rfl, rfl, by decide, by decide⟩
    rw [hb, (C12_test_exact hE exProg2 hT _ hd 0 b hb).mpr (fun s t q h => by rw [c0 s t q h])]
  · obtain ⟨b, hb⟩ := (C12_test_defined (isEmpty := isEmpty) exProg2 (exDep 1 1) 1).mpr
      ⟨_, _, rfl, rfl, by decide, by decide⟩
    cases b with
    | false => exact hb
    | true =>
      have := (C12_test_exact hE exProg2 hT _ hd 1 true hb).mp rfl _ _ _ hi
      rw [c1 _ _ _ hi] at this; omega
  · obtain ⟨dir, hdir⟩ := (C13_direction_defined (isEmpty := isEmpty) exProg2 (exDep 1 1) 0).mpr
      ⟨_, _, rfl, rfl, by decide, by decide⟩
    rw [hdir, ((C13_direction hE exProg2 hT _ hd 0 dir hdir).2.1).mpr
      ⟨fun s t q h => by rw [c0 s t q h]; decide, _, _, _, hi, by rw [c0 _ _ _ hi]; decide⟩]
  · obtain ⟨dir, hdir⟩ := (C13_direction_defined (isEmpty := isEmpty) exProg2 (exDep 1 1) 1).mpr
      ⟨_, _, rfl, rfl, by decide, by decide⟩
    rw [hdir, ((C13_direction hE exProg2 hT _ hd 1 dir hdir).1).mpr c1]

end Pluto
