import Verif.Props.InnerPar
import Verif.Props.Dfp
import Verif.Spec.Mark

/-! C51 with `--innerpar`: `pluto_tile` leaves tile loops reported parallel that carry dependences. -/

namespace Pluto

/-- The dependences of `exInner` after tiling by 32 x 32. -/
def innerRows (a b : Int) : List Row :=
  [⟨true, [0, 0, -1, 0, 0, 0, 1, 0, -a]⟩, ⟨true, [0, 0, 0, -1, 0, 0, 0, 1, -b]⟩,
   ⟨false, [-32, 0, 1, 0, 0, 0, 0, 0, 0]⟩,
   ⟨false, [0, 0, 0, 0, -32, 0, 1, 0, 0]⟩,
   ⟨false, [32, 0, -1, 0, 0, 0, 0, 0, 31]⟩,
   ⟨false, [0, 0, 0, 0, 32, 0, -1, 0, 31]⟩,
   ⟨false, [0, -32, 0, 1, 0, 0, 0, 0, 0]⟩,
   ⟨false, [0, 0, 0, 0, 0, -32, 0, 1, 0]⟩,
   ⟨false, [0, 32, 0, -1, 0, 0, 0, 0, 31]⟩,
   ⟨false, [0, 0, 0, 0, 0, 32, 0, -1, 31]⟩]

/-- The empty sets met on the way. -/
def innerEmpties : List Cst :=
  [⟨9, ⟨false, [-1, 0, 0, 0, 1, 0, 0, 0, -1]⟩ :: innerRows 0 1⟩,
   ⟨9, ⟨false, [0, -1, 0, 0, 0, 1, 0, 0, -1]⟩ :: innerRows 1 0⟩,
   ⟨9, ⟨false, [0, 0, -1, 0, 0, 0, 1, 0, -1]⟩ :: innerRows 0 1⟩,
   ⟨9, ⟨false, [0, 0, 0, -1, 0, 0, 0, 1, -1]⟩ :: innerRows 1 0⟩,
   ⟨9, ⟨false, [0, 0, 0, 1, 0, 0, 0, -1, -1]⟩ :: innerRows 1 0⟩,
   ⟨9, ⟨false, [0, 0, 0, 1, 0, 0, 0, -1, -1]⟩ :: innerRows 0 1⟩,
   ⟨9, ⟨false, [0, 0, 0, 1, 0, 0, 0, -1, 0]⟩ :: innerRows 0 1⟩,
   ⟨9, ⟨false, [0, 0, 1, 0, 0, 0, -1, 0, -1]⟩ :: innerRows 1 0⟩,
   ⟨9, ⟨false, [0, 0, 1, 0, 0, 0, -1, 0, -1]⟩ :: innerRows 0 1⟩,
   ⟨9, ⟨false, [0, 0, 1, 0, 0, 0, -1, 0, 0]⟩ :: innerRows 1 0⟩,
   ⟨9, ⟨false, [0, 1, 0, 0, 0, -1, 0, 0, -1]⟩ :: innerRows 1 0⟩,
   ⟨9, ⟨false, [0, 1, 0, 0, 0, -1, 0, 0, -1]⟩ :: innerRows 0 1⟩,
   ⟨9, ⟨false, [1, 0, 0, 0, -1, 0, 0, 0, -1]⟩ :: innerRows 1 0⟩,
   ⟨9, ⟨false, [1, 0, 0, 0, -1, 0, 0, 0, -1]⟩ :: innerRows 0 1⟩]

theorem innerEmpties_ok : ∀ c ∈ innerEmpties, ¬ ∃ x : List Int, x.length + 1 = c.ncols ∧ c.Sat x := by
  intro c hc
  simp only [innerEmpties, List.mem_cons, List.not_mem_nil, or_false] at hc
  rintro ⟨x, hx, hs⟩
  rcases hc with rfl | rfl | rfl | rfl | rfl | rfl | rfl | rfl | rfl | rfl | rfl | rfl | rfl | rfl
  all_goals
    match x, hx with
    | [a, b, c, d, e, f, g, h], _ =>
      simp only [Cst.Sat, innerRows, List.mem_cons, List.not_mem_nil, or_false, forall_eq_or_imp, forall_eq] at hs
      simp [Row.Sat, aff, dot] at hs
      omega

noncomputable def innerOracle : Cst → Bool :=
  certOracle [[0, 0, 0, 0, 0, 0, 1, 0], [0, 0, 0, 0, 0, 0, 0, 1], [0, 0, 0, 31, 0, 1, 0, 32], [0, 0, 31, 0, 1, 0, 32, 0]] innerEmpties

theorem exInner_stepwise : Stepwise exInner := by
  intro d hd _
  have hd' : d = exInner.deps[0] ∨ d = exInner.deps[1] := by simpa [exInner] using hd
  rcases hd' with e | e
  · refine ⟨0, by decide, fun s t q h => ?_, fun l hl => by omega⟩
    rw [exInner_comp hd h (by omega), e]
    decide
  · refine ⟨1, by decide, fun s t q h => ?_, fun l hl s t q h => ?_⟩
    · rw [exInner_comp hd h (by omega), e]
      decide
    · rw [exInner_comp hd h (by omega)]
      unfold exInnerComp
      split <;> decide

theorem exInner_pure : PureScalars exInner := by
  rintro i l x q ⟨st, r, h1, h2, h3⟩ hx hq
  have hi : i < 1 := (List.getElem?_eq_some_iff.mp h1).1
  interval_cases i
  simp only [exInner, List.getElem?_cons_zero, Option.some.injEq] at h1
  subst h1
  have hl : l < 2 := (List.getElem?_eq_some_iff.mp h2).1
  interval_cases l <;> simp at h2 <;> subst h2 <;> simp at h3

/-- C51 fails with `--innerpar`: for a program that meets all conditions of `C51_parallel_partial` and `C50_innerpar_partial`, the second tile
loop is reported parallel in the result of `pluto_tile`, but carries a dependence. -/
theorem C51_violated_innerpar : ∃ (isEmpty : Cst → Bool) (p p' : Prog) (L : Loop), EmptyOracle isEmpty ∧ p.OK ∧ p.Info ∧ Stepwise p ∧ TypesRight p ∧
    Uniform p 0 p.hProps.length (List.range p.stmts.length) ∧ PureScalars p ∧ (∀ bands, tileBands p = some bands → Aligned bands L) ∧
    plutoTile isEmpty exBest ⟨false, false, true, false, true⟩ (fun _ _ => 32) (fun _ _ => 8) p = some p' ∧
    loopIsParallel p' L = some true ∧ ¬ CarriesNone p' L.stmts L.depth := by
  have hb : tileBands exInner = some [⟨⟨0, [0]⟩, 2⟩] := by decide +kernel
  refine ⟨innerOracle, exInner, (plutoTile innerOracle exBest ⟨false, false, true, false, true⟩ (fun _ _ => 32) (fun _ _ => 8) exInner).getD exInner,
    ⟨1, [0]⟩, certOracle_ok _ _ innerEmpties_ok, by decide +kernel, exInner_info, exInner_stepwise, by decide +kernel, by decide +kernel, exInner_pure, ?_,
    by decide +kernel, by decide +kernel, ?_⟩
  · intro bands h
    rw [hb] at h
    cases h
    unfold Aligned
    decide +kernel
  · generalize hP : (plutoTile innerOracle exBest ⟨false, false, true, false, true⟩ (fun _ _ => 32) (fun _ _ => 8) exInner).getD exInner = P
    have e : P.dim 0 = 4 ∧ P.npar = 0 ∧ (∀ l < 1, P.phi 0 l [0, 0, 0, 31] [] = P.phi 0 l [0, 1, 0, 32] []) ∧
        P.phi 0 1 [0, 0, 0, 31] [] ≠ P.phi 0 1 [0, 1, 0, 32] [] ∧
        (0, 0, false, (⟨9, innerRows 0 1⟩ : Cst)) ∈ P.deps.map (fun d => (d.src, d.dest, d.rar, d.dpoly)) := by
      rw [← hP]
      decide +kernel
    obtain ⟨e1, e2, e3, e4, e5⟩ := e
    obtain ⟨d, hd, he⟩ := List.mem_map.mp e5
    simp only [Prod.mk.injEq] at he
    obtain ⟨f1, f2, f3, f4⟩ := he
    intro h
    have := h d hd f3 (by simp [f1]) (by simp [f2]) [0, 0, 0, 31] [0, 1, 0, 32] []
      ⟨by rw [f1, e1]; rfl, by rw [f2, e1]; rfl, by rw [e2]; rfl, by rw [f4]; decide +kernel⟩
      (fun l hl => by unfold Prog.comp; rw [f1, f2, e3 l hl]; omega)
    rw [f1, f2] at this
    exact e4 this

end Pluto
