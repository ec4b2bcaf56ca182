import Verif.Lemmas.Polyloop
import Verif.Lemmas.InfoCheck
import Verif.Props.Tile

/-! C34, C21: the loops of a schedule and which of them are parallel. `getLoopsUnder` is
`pluto_get_loops_under`, `loopIsParallel` is `pluto_loop_is_parallel`. `Prog.Scalar`, `Agree`, `Uniform`,
`Prog.Info`: Verif/Spec/Polyloop.lean. -/

namespace Pluto

/-- C34. The loops under a depth are defined if the statements have rows at all levels. -/
theorem C34_defined (p : Prog) (hok : p.OK) (stmts : List Nat) (hnd : stmts.Nodup) (hr : ∀ i ∈ stmts, i < p.stmts.length)
    (depth : Nat) : ∃ ls, getLoopsUnder p stmts depth = some ls := by
  unfold getLoopsUnder
  by_cases hd : depth ≤ p.hProps.length
  · refine Option.isSome_iff_exists.mp (loopsUnder_defined _ _ _ hnd (fun i hi => ?_))
    have hg := List.getElem?_eq_getElem (hr i hi)
    have hm := List.mem_of_getElem? hg
    refine ⟨_, hg, by rw [hok.levels _ hm]; omega, fun r hr' => ?_⟩
    have := (hok.stmts _ hm).trans r hr'
    exact List.ne_nil_of_length_pos (by omega)
  · rw [show p.hProps.length - depth = 0 by omega]
    exact ⟨[], rfl⟩

/-- C34. Every statement has, for every non-scalar level from the given depth on, exactly one loop in
the result at that level that contains it; loops contain given statements only, each once, that are
not scalar at their level; every statement that is not scalar at the level of a loop and agrees with
one of its statements on all scalar levels outside is in the loop, too. -/
theorem C34_loops (p : Prog) (stmts : List Nat) (hnd : stmts.Nodup) (depth : Nat) (ls : List Loop)
    (h : getLoopsUnder p stmts depth = some ls) :
    (∀ i ∈ stmts, ∀ l, depth ≤ l → l < p.hProps.length → ¬ p.Scalar l i →
      ∃! k : Nat, ∃ L : Loop, ls[k]? = some L ∧ L.depth = l ∧ i ∈ L.stmts) ∧
    (∀ L ∈ ls, depth ≤ L.depth ∧ L.depth < p.hProps.length ∧ L.stmts ≠ [] ∧ L.stmts.Nodup ∧
      ∀ i ∈ L.stmts, i ∈ stmts ∧ ¬ p.Scalar L.depth i) ∧
    (∀ L ∈ ls, ∀ i ∈ L.stmts, ∀ j ∈ stmts, ¬ p.Scalar L.depth j → Agree p depth L.depth i j → j ∈ L.stmts) := by
  have hs := loopsUnder_spec _ _ _ _ hnd h
  refine ⟨?_, ?_, hs.join⟩
  · intro i hi l h1 h2 h3
    obtain ⟨L, hL, e, hiL⟩ := hs.cover i hi l h1 (by omega) h3
    obtain ⟨k, hk⟩ := List.getElem?_of_mem hL
    refine ⟨k, ⟨L, hk, e, hiL⟩, ?_⟩
    rintro k' ⟨L', hk', e', hiL'⟩
    obtain ⟨a1, a2⟩ := List.getElem?_eq_some_iff.mp hk
    obtain ⟨b1, b2⟩ := List.getElem?_eq_some_iff.mp hk'
    have hp := List.pairwise_iff_getElem.mp hs.disj
    rcases Nat.lt_trichotomy k k' with hlt | rfl | hlt
    · have := hp k k' a1 b1 hlt (by rw [a2, b2, e, e']) i (by rw [a2]; exact hiL)
      rw [b2] at this
      exact absurd hiL' this
    · rfl
    · have := hp k' k b1 a1 hlt (by rw [a2, b2, e, e']) i (by rw [b2]; exact hiL')
      rw [a2] at this
      exact absurd hiL this
  · intro L hL
    have h1 := hs.lo L hL
    have h2 := hs.hi L hL
    exact ⟨h1, by omega, hs.ne L hL, hs.nodup L hL, hs.sub L hL⟩

/-- C34, last part. Two statements share a loop only if they agree on all scalar levels outside it.
Missing for the full claim: levels that are scalar for some and loops for others of the statements that
agree outside; there the claim is false (`C34_violated`). -/
theorem C34_share_partial (p : Prog) (stmts : List Nat) (hnd : stmts.Nodup) (depth : Nat) (ls : List Loop)
    (h : getLoopsUnder p stmts depth = some ls) (hU : Uniform p depth p.hProps.length stmts) :
    ∀ L ∈ ls, ∀ i ∈ L.stmts, ∀ j ∈ L.stmts, Agree p depth L.depth i j := by
  have hs := loopsUnder_spec _ _ _ _ hnd h
  by_cases hd : depth ≤ p.hProps.length
  · exact hs.share (by rwa [show depth + (p.hProps.length - depth) = p.hProps.length by omega])
  · intro L hL
    have h1 := hs.lo L hL
    have h2 := hs.hi L hL
    omega

example : getAllLoops exTile = some [⟨2, [0]⟩, ⟨1, [0]⟩, ⟨2, [1]⟩, ⟨1, [1]⟩] := by decide +kernel

instance (p : Prog) (l i : Nat) : Decidable (p.Scalar l i) :=
  decidable_of_iff (((p.stmts[i]?.bind (fun st => (st.trans[l]?).map (fun r => decide (∀ v ∈ r.take st.dim, v = 0)))).getD false) = true) (by
    unfold Prog.Scalar
    cases h1 : p.stmts[i]? with
    | none => simp
    | some st => cases h2 : st.trans[l]? <;> simp [h2])

instance (p : Prog) (a b i j : Nat) : Decidable (Agree p a b i j) :=
  decidable_of_iff (∀ l < b, a ≤ l → p.Scalar l i → p.Scalar l j → p.const l i = p.const l j)
    ⟨fun h l h1 h2 => h l h2 h1, fun h l h2 h1 => h l h1 h2⟩

instance (p : Prog) (a b : Nat) (stmts : List Nat) : Decidable (Uniform p a b stmts) :=
  decidable_of_iff (∀ l < b, a ≤ l → ∀ i ∈ stmts, ∀ j ∈ stmts, Agree p a l i j → p.Scalar l i → p.Scalar l j)
    ⟨fun h l h1 h2 => h l h2 h1, fun h l h2 h1 => h l h1 h2⟩

example : Uniform exTile 0 exTile.hProps.length [0, 1] ∧ ¬ exTile.Scalar 1 0 ∧ exTile.Scalar 0 0 := by decide +kernel

/-- The case of the TODO in the code: 0 for the first statement, 1 for the second, a loop for the third. -/
def exShare : Prog where
  nvar := 1
  npar := 0
  stmts := [
    ⟨1, 1, ⟨2, []⟩, [true], [[0, 0], [1, 0]], [.scalar, .loop]⟩,
    ⟨1, 1, ⟨2, []⟩, [true], [[0, 1], [1, 0]], [.scalar, .loop]⟩,
    ⟨1, 1, ⟨2, []⟩, [true], [[1, 0], [1, 0]], [.loop, .loop]⟩]
  deps := []
  hProps := [.loop, .loop]

/-- C34, the last part is violated by `pluto_get_loops_under`: two statements with different constants
at an outer scalar level share a loop if a third statement has a loop at that level. -/
theorem C34_violated : ∃ (p : Prog) (ls : List Loop), p.OK ∧ getAllLoops p = some ls ∧
    ∃ L ∈ ls, ∃ i ∈ L.stmts, ∃ j ∈ L.stmts, ¬ Agree p 0 L.depth i j :=
  ⟨exShare, [⟨1, [0, 1, 2]⟩, ⟨0, [2]⟩], by decide +kernel, by decide +kernel, ⟨1, [0, 1, 2]⟩, by simp, 0, by simp, 1, by simp,
    by decide +kernel⟩

/-! ### C21 -/

/-- Directions and then satisfaction computed: the recorded data is right. -/
theorem C21_info {isEmpty : Cst → Bool} (hE : EmptyOracle isEmpty) (p p1 p2 : Prog) (hT : p.TransOK)
    (hd : ∀ d ∈ p.deps, p.DepFits d) (h1 : computeDepDirections isEmpty p = some p1)
    (h2 : computeDepSatisfaction isEmpty p1 = some p2) :
    p2.Info ∧ p2 = { p with deps := p2.deps } ∧ List.Forall₂ (fun d d' : Dep =>
      d' = ⟨d.src, d.dest, d.rar, d.dpoly, d.bpoly, d'.satisfied, d'.satLevel, d'.satvec, d'.dirvec⟩) p.deps p2.deps :=
  info_of hE p p1 p2 hT hd h1 h2

/-- C21. If `pluto_loop_is_parallel` accepts a loop after directions and satisfaction have been
computed, then dependent instances of its statements that agree on all enclosing levels run in the same
iteration of the loop. -/
theorem C21_parallel (p : Prog) (hi : p.Info) (L : Loop) (h : loopIsParallel p L = some true) :
    ∀ d ∈ p.deps, d.rar = false → d.src ∈ L.stmts → d.dest ∈ L.stmts → ∀ s t q, p.Inst d s t q →
      p.TiedBelow d L.depth s t q → p.phi d.src L.depth s q = p.phi d.dest L.depth t q :=
  parallel_spec hi h

/-- C21. All loops reported by `pluto_get_parallel_loops` are loops of the program and parallel. -/
theorem C21_parallel_loops (p : Prog) (hi : p.Info) (ls all : List Loop) (h : parallelLoops p = some ls)
    (ha : getAllLoops p = some all) :
    ∀ L ∈ ls, L ∈ all ∧ ∀ d ∈ p.deps, d.rar = false → d.src ∈ L.stmts → d.dest ∈ L.stmts → ∀ s t q, p.Inst d s t q →
      p.TiedBelow d L.depth s t q → p.phi d.src L.depth s q = p.phi d.dest L.depth t q := by
  unfold parallelLoops at h
  rw [ha] at h
  simp only [Option.bind_eq_bind, Option.bind_some, Option.bind_eq_some_iff, pure, Option.some.injEq] at h
  obtain ⟨bs, hbs, rfl⟩ := h
  intro L hL
  have hf := mapM_forall₂ _ _ _ hbs
  simp only [List.mem_map, List.mem_filter, Prod.exists, exists_and_right, exists_eq_right] at hL
  have hmem := List.of_mem_zip hL
  have := List.forall₂_iff_zip.mp hf |>.2 hL
  exact ⟨hmem.1, C21_parallel p hi L this⟩

/-- C21, the converse for loops that are rejected: some dependence of its statements that no outer
level satisfies completely crosses iterations of the loop. -/
theorem C21_rejected (p : Prog) (hi : p.Info) (L : Loop) (hd : L.depth < p.hProps.length) (h : loopIsParallel p L = some false) :
    ∃ d ∈ p.deps, d.rar = false ∧ d.src ∈ L.stmts ∧ d.dest ∈ L.stmts ∧
      (∃ s t q, p.Inst d s t q ∧ p.phi d.src L.depth s q ≠ p.phi d.dest L.depth t q) ∧
      ∀ l < L.depth, ¬ ∀ s t q, p.Inst d s t q → 1 ≤ p.comp d l s t q :=
  rejected_spec hi hd h

/-- The data recorded in the example is right. -/
theorem exTile_info : exTile.Info := by
  refine info_check (fun d hd => ?_)
  have c := @exTile_pairs d hd
  have hd' : d = exTile.deps[0] ∨ d = exTile.deps[1] := by
    simpa [exTile] using hd
  clear hd
  rcases hd' with rfl | rfl
  · have key : ∀ l < 3, ∀ s t q, exTile.Inst exTile.deps[0] s t q → exTile.comp exTile.deps[0] l s t q = if l = 1 then 1 else 0 := by
      intro l hl s t q h
      obtain ⟨i, j, n, rfl, rfl, ⟨_, _, rfl⟩ | ⟨_, h2, _⟩⟩ := c h.hs h.ht h.hp h.sat
      · interval_cases l <;> simp [Prog.comp, Prog.phi, Prog.row, exTile, aff, dot]
      · simp [exTile] at h2
    have i0 : exTile.Inst exTile.deps[0] [0, 1] [1, 0] [2] := ⟨rfl, rfl, rfl, by decide +kernel⟩
    refine ⟨fun _ => false, fun l => l == 1, fun l => l == 1, ?_, by decide +kernel⟩
    intro l hl
    have k := key l hl
    refine ⟨⟨by simp, ?_⟩, ⟨?_, ?_⟩, ⟨?_, ?_⟩⟩
    · rintro ⟨s, t, q, h1, h2⟩; rw [k s t q h1] at h2; split_ifs at h2 <;> omega
    · intro h; have e : l = 1 := by simpa using h
      exact ⟨_, _, _, i0, by rw [k _ _ _ i0, if_pos e]; omega⟩
    · rintro ⟨s, t, q, h1, h2⟩; rw [k s t q h1] at h2; split_ifs at h2 with e
      · simp [e]
      · omega
    · intro h s t q h1; have e : l = 1 := by simpa using h
      rw [k _ _ _ h1, if_pos e]
    · intro h; have := h _ _ _ i0; rw [k _ _ _ i0] at this; split_ifs at this with e
      · simp [e]
      · omega
  · have key : ∀ l < 3, ∀ s t q, exTile.Inst exTile.deps[1] s t q → exTile.comp exTile.deps[1] l s t q =
        if l = 0 then 1 else if l = 1 then 0 else - s.getD 0 0 := by
      intro l hl s t q h
      obtain ⟨i, j, n, rfl, rfl, ⟨_, h2, _⟩ | ⟨_, _, rfl⟩⟩ := c h.hs h.ht h.hp h.sat
      · simp [exTile] at h2
      · interval_cases l <;> simp [Prog.comp, Prog.phi, Prog.row, exTile, aff, dot]
    have i1 : ∀ i : Int, exTile.Inst exTile.deps[1] [i, 0] [i, 0] [2] := fun i => ⟨rfl, rfl, rfl, by
      simp [exTile, Cst.Sat, Row.Sat, aff, dot]⟩
    refine ⟨fun l => l == 2, fun l => l == 0 || l == 2, fun l => l == 0, ?_, by decide +kernel⟩
    intro l hl
    have k := key l hl
    have hl : l < 3 := hl
    refine ⟨⟨?_, ?_⟩, ⟨?_, ?_⟩, ⟨?_, ?_⟩⟩
    · intro h; have e : l = 2 := by simpa using h
      exact ⟨_, _, _, i1 1, by rw [k _ _ _ (i1 1), e]; simp⟩
    · rintro ⟨s, t, q, h1, h2⟩
      rw [k s t q h1] at h2
      interval_cases l <;> simp at h2 ⊢
    · intro h; refine ⟨_, _, _, i1 (-1), ?_⟩
      rw [k _ _ _ (i1 (-1))]
      interval_cases l <;> simp at h ⊢
    · rintro ⟨s, t, q, h1, h2⟩
      rw [k s t q h1] at h2
      interval_cases l <;> simp at h2 ⊢
    · intro h s t q h1; have e : l = 0 := by simpa using h
      rw [k _ _ _ h1, if_pos e]
    · intro h
      have := h _ _ _ (i1 1); rw [k _ _ _ (i1 1)] at this
      interval_cases l <;> simp at this ⊢

/-- The inner loop of the first nest is parallel, the outer one is not. -/
example : loopIsParallel exTile ⟨2, [0]⟩ = some true ∧ loopIsParallel exTile ⟨1, [0]⟩ = some false ∧
    parallelLoops exTile = some [⟨2, [0]⟩, ⟨2, [1]⟩, ⟨1, [1]⟩] := by decide +kernel

end Pluto
