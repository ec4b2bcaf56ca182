import Verif.Props.ProgEdit

/-! C73: what the edits of a program leave inconsistent, and concrete cases that meet the hypotheses of the theorems. -/

namespace Pluto

/-- Two statements over `0 ≤ i`, scheduled as `(i, 0)` and `(i, 1)`; the second uses what the first computed at `i - 1`. -/
def twoProg : Prog :=
  ⟨1, 0, [⟨1, 1, ⟨2, [⟨false, [1, 0]⟩]⟩, [true], [[1, 0], [0, 0]], [.loop, .scalar]⟩,
      ⟨1, 1, ⟨2, [⟨false, [1, 0]⟩]⟩, [true], [[1, 0], [0, 1]], [.loop, .scalar]⟩],
    [⟨0, 1, false, ⟨3, [⟨true, [-1, 1, -1]⟩, ⟨false, [1, 0, 0]⟩]⟩, ⟨3, [⟨true, [-1, 1, -1]⟩, ⟨false, [1, 0, 0]⟩]⟩, false, -1, [], []⟩],
    [.loop, .scalar]⟩

theorem twoProg_ok : twoProg.OK := by
  refine ⟨?_, by decide, ?_⟩
  · intro st hst
    simp only [twoProg, List.mem_cons, List.not_mem_nil, or_false] at hst
    rcases hst with rfl | rfl <;> exact ⟨⟨by decide, by decide⟩, by decide, by decide, by decide⟩
  · intro d hd
    simp only [twoProg, List.mem_cons, List.not_mem_nil, or_false] at hd
    subst hd
    exact ⟨by decide, by decide, ⟨⟨by decide, by decide⟩, by decide⟩⟩

theorem twoProg_dist (s t : Int) (h : (⟨3, [⟨true, [-1, 1, -1]⟩, ⟨false, [1, 0, 0]⟩]⟩ : Cst).Sat [s, t]) : t = s + 1 ∧ 0 ≤ s := by
  have h1 := h ⟨true, [-1, 1, -1]⟩ (by simp)
  have h2 := h ⟨false, [1, 0, 0]⟩ (by simp)
  simp [Row.Sat, aff, dot] at h1 h2
  exact ⟨by omega, h2⟩

theorem twoProg_inst {d : Dep} (hd : d ∈ twoProg.deps) {s t q : List Int} (hs : s.length = twoProg.dim d.src) (ht : t.length = twoProg.dim d.dest)
    (hq : q.length = twoProg.npar) (h : d.dpoly.Sat (s ++ t ++ q)) :
    d.src = 0 ∧ d.dest = 1 ∧ ∃ a : Int, s = [a] ∧ t = [a + 1] ∧ q = [] ∧ 0 ≤ a := by
  simp only [twoProg, List.mem_cons, List.not_mem_nil, or_false] at hd
  subst hd
  obtain ⟨a, rfl⟩ := List.length_eq_one_iff.mp hs
  obtain ⟨b, rfl⟩ := List.length_eq_one_iff.mp ht
  obtain rfl := List.length_eq_zero_iff.mp hq
  obtain ⟨rfl, h2⟩ := twoProg_dist a b (by simpa using h)
  exact ⟨rfl, rfl, a, rfl, rfl, rfl, h2⟩

theorem twoProg_legal : twoProg.Legal := by
  intro d hd _ s t q hs ht hq h
  obtain ⟨e1, e2, a, rfl, rfl, rfl, _⟩ := twoProg_inst hd hs ht hq h
  rw [e1, e2]
  exact ⟨0, a, a + 1, by simp [Prog.timestamp, twoProg, aff, dot], by simp [Prog.timestamp, twoProg, aff, dot], by omega, fun l hl => by omega⟩

/-- The program with its accesses, contexts and names. -/
def twoFull : FullProg := ⟨twoProg, [[⟨2, [[1, 0]]⟩], [⟨2, [[1, 0]]⟩, ⟨2, [[1, -1]]⟩]], ⟨1, []⟩, ⟨1, []⟩, []⟩

theorem twoFull_ok : twoFull.OK := by
  refine ⟨twoProg_ok, rfl, ?_, ⟨by decide, by decide⟩, rfl, ⟨by decide, by decide⟩, rfl, rfl⟩
  intro i st ms h1 h2 m hm
  match i, h1, h2 with
  | 0, h1, h2 =>
    obtain rfl := Option.some.inj h1
    obtain rfl := Option.some.inj h2
    simp only [List.mem_cons, List.not_mem_nil, or_false] at hm
    subst hm
    exact ⟨by decide, rfl⟩
  | 1, h1, h2 =>
    obtain rfl := Option.some.inj h1
    obtain rfl := Option.some.inj h2
    simp only [List.mem_cons, List.not_mem_nil, or_false] at hm
    rcases hm with rfl | rfl <;> exact ⟨by decide, rfl⟩
  | i + 2, h1, _ => simp [twoFull, twoProg] at h1

/-- C73, a case for `C73_param` and `C73_param_legal`. -/
example : ∃ P', progAddParam 7 twoFull "N" 0 = some P' ∧ P'.prog.npar = 1 ∧ P'.params = ["N"] ∧ P'.prog.Legal := by
  obtain ⟨P', h, -, h1, h2, -⟩ := C73_param 7 twoFull "N" 0 twoFull_ok (by decide)
  exact ⟨P', h, h1, h2, (C73_param_legal 7 twoFull P' "N" 0 twoFull_ok (by decide) h).mpr twoProg_legal⟩

/-- C73 fails for the bounding polyhedra of the dependences: they do not get the new column, and their constants are
then read as coefficients of the new parameter. Here dependence and bounding polyhedron are the same before; afterwards
the bounding polyhedron has another number of columns, and it does not contain the dependent pair (0, 1) for the
parameter value 5. -/
theorem C73_violated_param : ∃ (P P' : FullProg) (d d' : Dep), P.OK ∧ progAddParam 0 P "N" 0 = some P' ∧
    P.prog.deps[0]? = some d ∧ P'.prog.deps[0]? = some d' ∧ d.bpoly = d.dpoly ∧
    d'.bpoly.ncols ≠ d'.dpoly.ncols ∧ d'.dpoly.Sat ([0, 1, 5] : List Int) ∧ ¬ d'.bpoly.Sat ([0, 1, 5] : List Int) := by
  have h : (progAddParam 0 twoFull "N" 0).bind (fun P' => P'.prog.deps[0]?) =
      some ⟨0, 1, false, ⟨4, [⟨true, [-1, 1, 0, -1]⟩, ⟨false, [1, 0, 0, 0]⟩]⟩, ⟨3, [⟨true, [-1, 1, -1]⟩, ⟨false, [1, 0, 0]⟩]⟩, false, -1, [], []⟩ := by
    decide +kernel
  obtain ⟨P', h1, h2⟩ := Option.bind_eq_some_iff.mp h
  refine ⟨twoFull, P', _, _, twoFull_ok, h1, rfl, h2, rfl, by decide, ?_, ?_⟩
  · intro r hr
    simp only [List.mem_cons, List.not_mem_nil, or_false] at hr
    rcases hr with rfl | rfl <;> simp [Row.Sat, aff, dot]
  · intro hc
    have := hc ⟨true, [-1, 1, -1]⟩ (by simp)
    simp [Row.Sat, aff, dot] at this

/-- C73, a case for `C73_interchange` and `C73_interchange_legal_partial`: both components of the only dependence are
not negative. -/
example : ∃ p', progInterchange twoProg 0 1 = some p' ∧ p'.Legal ∧ p'.hProps[0]? = some .scalar := by
  obtain ⟨p', h, -, -, -, -, -, hh, -⟩ := C73_interchange twoProg 0 1 twoProg_ok (by decide) (by decide)
  refine ⟨p', h, C73_interchange_legal_partial twoProg p' 0 1 twoProg_ok (by decide) (by decide) twoProg_legal ?_ h, by rw [hh]; rfl⟩
  intro d hd _ s t q hi _ l _ hl
  obtain ⟨e1, e2, a, rfl, rfl, rfl, _⟩ := twoProg_inst hd hi.hs hi.ht hi.hp hi.sat
  unfold Prog.comp
  rw [e1, e2]
  interval_cases l <;> simp [Prog.phi, Prog.row, twoProg, aff, dot]

/-- C73 fails for the types of levels: interchange exchanges them for the program but not for the statements. Here
they agree before, and afterwards the outer level is scalar for the program and, by its recorded type, a loop for
every statement. -/
theorem C73_violated_types : ∃ (p p' : Prog), p.OK ∧ (∀ st ∈ p.stmts, st.hypTypes = p.hProps) ∧ progInterchange p 0 1 = some p' ∧
    p'.hProps[0]? = some .scalar ∧ p'.stmts ≠ [] ∧ (∀ st ∈ p'.stmts, st.hypTypes[0]? = some .loop) := by
  have h : (progInterchange twoProg 0 1).map (fun p' => (p'.hProps[0]?, p'.stmts.map (fun st => st.hypTypes[0]?))) =
      some (some .scalar, [some .loop, some .loop]) := by decide +kernel
  obtain ⟨p', h1, h2⟩ := Option.map_eq_some_iff.mp h
  simp only [Prod.mk.injEq] at h2
  refine ⟨twoProg, p', twoProg_ok, by decide, h1, h2.1, ?_, ?_⟩
  · intro hc
    rw [hc] at h2
    simp at h2
  · intro st hst
    have : st.hypTypes[0]? ∈ p'.stmts.map (fun st => st.hypTypes[0]?) := List.mem_map_of_mem hst
    rw [h2.2] at this
    simpa using this

/-- C73, a case for `C73_separate` and `C73_separate_legal`: the second statement is moved behind the first. -/
example : ∃ p', separateStmts twoProg [0, 1] 0 0 = some p' ∧ p'.Legal ∧ p'.timestamp 0 [4] [] = [1, 4, 0] ∧ p'.timestamp 1 [4] [] = [2, 4, 1] := by
  obtain ⟨p', h, -, -, -, -, -, -, ht⟩ := C73_separate twoProg [0, 1] 0 0 twoProg_ok (by decide) (by decide) (by decide)
  refine ⟨p', h, (C73_separate_legal twoProg p' [0, 1] 0 0 twoProg_ok (by decide) (by decide) (by decide) twoProg_legal h).mpr ?_,
    by rw [ht 0 [4] [] (by decide) rfl rfl]; decide +kernel, by rw [ht 1 [4] [] (by decide) rfl rfl]; decide +kernel⟩
  intro d hd _ s t q hi _
  obtain ⟨e1, e2, -⟩ := twoProg_inst hd hi.hs hi.ht hi.hp hi.sat
  rw [e1, e2]
  decide

/-- C73, and a case where separation is not legal: the first statement is moved behind the second. -/
example : ∃ p', separateStmt twoProg 0 0 = some p' ∧ ¬ p'.Legal := by
  obtain ⟨p', h, -⟩ := C73_separate twoProg [0] 0 0 twoProg_ok (by decide) (by decide) (by decide)
  refine ⟨p', by rw [C73_separate_one]; exact h, fun hc => ?_⟩
  have := (C73_separate_legal twoProg p' [0] 0 0 twoProg_ok (by decide) (by decide) (by decide) twoProg_legal h).mp hc _ (by simp [twoProg]; rfl) rfl
    [0] [1] [] ⟨rfl, rfl, rfl, by
      intro r hr
      simp only [List.mem_cons, List.not_mem_nil, or_false] at hr
      rcases hr with rfl | rfl <;> simp [Row.Sat, aff, dot]⟩ (fun l hl => by omega)
  revert this
  decide

end Pluto
