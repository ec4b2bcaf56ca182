import Verif.Lemmas.CoeffBounds
import Verif.Props.LinInd

/-! C38: coefficient bounds and non-trivial solutions. -/

namespace Pluto

theorem largestConst_eq (p : Prog) :
    largestConstInDomains p = (domainConsts p).foldl (fun m a => if m > a then m else a) 0 - 1 := by
  unfold largestConstInDomains domainConsts
  congr 1
  generalize (0 : Int) = m
  induction p.stmts generalizing m with
  | nil => rfl
  | cons st sts ih =>
    rw [List.foldl_cons, List.flatMap_cons, List.foldl_append, ih, List.foldl_map]

/-- C38: the default bound is the largest domain constant (at least 0) minus one. -/
theorem C38_default_bound (p : Prog) :
    (∀ a ∈ domainConsts p, a ≤ largestConstInDomains p + 1) ∧ 0 ≤ largestConstInDomains p + 1 ∧
    (largestConstInDomains p + 1 = 0 ∨ largestConstInDomains p + 1 ∈ domainConsts p) := by
  obtain ⟨h1, h2, h3⟩ := foldl_max_spec (domainConsts p) 0
  rw [largestConst_eq]
  refine ⟨fun a ha => ?_, ?_, ?_⟩
  · have := h2 a ha; omega
  · omega
  · simpa using h3

/-- C38: the coefficient bound constraints hold exactly for the non-negative vectors whose
transformation coefficients do not exceed the user bound or, without one, the default bound (used
when it is at least 10). -/
theorem C38_bounds (o : SearchOpts) (p : Prog) (sol : List Int) (hs : SolLen p sol) :
    (coeffBoundConstraints o p).Sat sol ↔ NonNeg sol ∧
      (o.coeffBound ≠ -1 → CoeffsLe p sol o.coeffBound) ∧
      (o.coeffBound = -1 → 10 ≤ largestConstInDomains p → CoeffsLe p sol (largestConstInDomains p)) := by
  set w := cstWidth p.nvar p.npar p.stmts.length with hw
  have hl : sol.length + 1 = w := by rw [hs]; rfl
  set c := (List.range (w - 1)).foldl (fun c i => addLb c i 0) ⟨w, []⟩ with hc
  obtain ⟨h1, h2⟩ := addLb_fold (List.range (w - 1)) 0 ⟨w, []⟩ sol hl (by
    intro i hi; rw [List.mem_range] at hi; show i + 1 < w; omega)
  rw [← hc] at h1 h2
  have h2' : c.Sat sol ↔ NonNeg sol := by
    rw [h2, nonNeg_getD sol (w - 1) (by omega)]
    simp [Cst.Sat]
  have hub : ∀ b : Int, ((List.range' (p.npar + 1) (w - 1 - (p.npar + 1))).foldl
      (fun c i => addUb c i b) c).Sat sol ↔ NonNeg sol ∧ CoeffsLe p sol b := by
    intro b
    obtain ⟨_, h4⟩ := addUb_fold (List.range' (p.npar + 1) (w - 1 - (p.npar + 1))) b c sol
      (by rw [h1]; exact hl) (by
        intro i hi; rw [List.mem_range'_1] at hi; rw [h1]; show i + 1 < w; omega)
    rw [h4, h2']
    refine and_congr_right fun _ => ?_
    unfold CoeffsLe
    constructor
    · intro h i hi hi'
      exact h i (by rw [List.mem_range'_1]; omega)
    · intro h i hi
      rw [List.mem_range'_1] at hi
      exact h i (by omega) (by omega)
  unfold coeffBoundConstraints
  simp only
  rw [← hw, ← hc]
  by_cases hu : o.coeffBound ≠ -1
  · rw [if_pos hu, hub]
    constructor
    · rintro ⟨a, b⟩; exact ⟨a, fun _ => b, fun h => absurd h hu⟩
    · rintro ⟨a, b, _⟩; exact ⟨a, b hu⟩
  · rw [if_neg hu]
    push Not at hu
    by_cases hd : largestConstInDomains p ≥ 10
    · rw [if_pos hd, hub]
      constructor
      · rintro ⟨a, b⟩; exact ⟨a, fun h => absurd hu h, fun _ _ => b⟩
      · rintro ⟨a, _, b⟩; exact ⟨a, b hu hd⟩
    · rw [if_neg hd, h2']
      constructor
      · intro a; exact ⟨a, fun h => absurd hu h, fun _ h => absurd h hd⟩
      · rintro ⟨a, _, _⟩; exact a

/-- C38 (eager mode): the non-trivial solution constraints hold exactly when every statement that
still needs loops has a positive sum of loop coefficients. -/
theorem C38_nontrivial_eager (p : Prog) (hp : p.Padded) (sol : List Int) (hs : SolLen p sol) :
    (nonTrivialConstraints p true).Sat sol ↔
      ∀ (i : Nat) (st : Stmt), p.stmts[i]? = some st → NeedsLoops st → 1 ≤ (stmtCoeffs p i st sol).sum := by
  set w := cstWidth p.nvar p.npar p.stmts.length with hw
  have hl : sol.length + 1 = w := by rw [hs]; rfl
  have hw1 : 1 ≤ w := by omega
  have hrow : ∀ (i : Nat) (st : Stmt), p.stmts[i]? = some st →
      aff ((setOnes p i st (zrow w)).set (w - 1) (-1)) sol = (stmtCoeffs p i st sol).sum - 1 := by
    intro i st hi
    have hlt : i < p.stmts.length := (List.getElem?_eq_some_iff.mp hi).1
    have hb := stmtOffset_bound p.nvar p.npar p.stmts.length i hlt
    obtain ⟨a, b, c⟩ := setOnes_spec hp i st hi (zrow w) (by simp [zrow, hw]) (by intro k _; exact coef_zrow _ _) sol hs
    rw [aff_set_last _ _ _ (w - 1) (by rw [a]; simp [zrow]; omega) (by omega)
      (by rw [b _ (by omega)]; exact coef_zrow _ _), c]
    have : aff (zrow w) sol = 0 := dot_zrow _ _
    omega
  unfold nonTrivialConstraints
  simp only [if_true]
  constructor
  · intro h i st hi hn
    have hm := h ⟨false, (setOnes p i st (zrow w)).set (w - 1) (-1)⟩ (List.mem_map.mpr ⟨(i, st), by
      rw [List.mem_filter]
      refine ⟨List.mem_of_getElem? (i := i) (by rw [List.getElem?_mapIdx, hi]; rfl), ?_⟩
      simpa using (C37_needs p hp st (List.mem_of_getElem? hi)).mpr hn, rfl⟩)
    simp only [Row.Sat, Bool.false_eq_true, if_false] at hm
    rw [hrow i st hi] at hm
    omega
  · intro h r hr
    obtain ⟨⟨i, st⟩, hm, rfl⟩ := List.mem_map.mp hr
    rw [List.mem_filter] at hm
    obtain ⟨hm, hn⟩ := hm
    obtain ⟨i', hi'⟩ := List.getElem?_of_mem hm
    rw [List.getElem?_mapIdx] at hi'
    obtain ⟨st', hst', he⟩ := Option.map_eq_some_iff.mp hi'
    injection he with he1 he2
    subst he1 he2
    simp only [Row.Sat, Bool.false_eq_true, if_false]
    rw [hrow _ _ hst']
    have := h _ _ hst' ((C37_needs p hp _ (List.mem_of_getElem? hst')).mp (by simpa using hn))
    omega

/-- C38: consequently the hyperplane of every such statement is not zero. -/
theorem C38_nonzero (p : Prog) (hp : p.Padded) (sol : List Int) (hs : SolLen p sol)
    (h : (nonTrivialConstraints p true).Sat sol) (i : Nat) (st : Stmt) (hi : p.stmts[i]? = some st)
    (hn : NeedsLoops st) : ∃ a ∈ stmtCoeffs p i st sol, 0 < a := by
  have hsum := (C38_nontrivial_eager p hp sol hs).mp h i st hi hn
  by_contra hc
  push Not at hc
  have : ∀ l : List Int, (∀ a ∈ l, a ≤ 0) → l.sum ≤ 0 := by
    intro l
    induction l with
    | nil => intro _; simp
    | cons a l ih =>
      intro ha
      rw [List.sum_cons]
      have h1 := ha a (by simp)
      have h2 := ih (fun b hb => ha b (List.mem_cons_of_mem _ hb))
      omega
  have := this _ hc
  omega

/-- The single row of the lazy mode. -/
theorem lazyRow_spec {p : Prog} (hp : p.Padded) (sol : List Int) (hs : SolLen p sol)
    (l : List (Nat × Stmt)) (hl : ∀ is ∈ l, p.stmts[is.1]? = some is.2) (hnd : (l.map (·.1)).Nodup)
    (row : List Int) (hrow : row.length = cstWidth p.nvar p.npar p.stmts.length)
    (h0 : ∀ is ∈ l, ∀ k < p.nvar, coef row (stmtOffset p.nvar p.npar is.1 + k) = 0) :
    aff (l.foldl (fun row is => (setOnes p is.1 is.2 row).set
        (cstWidth p.nvar p.npar p.stmts.length - 1) (-1)) row) sol =
      aff row sol - coef row (cstWidth p.nvar p.npar p.stmts.length - 1) +
        (l.map (fun is => (stmtCoeffs p is.1 is.2 sol).sum)).sum +
        (if l = [] then coef row (cstWidth p.nvar p.npar p.stmts.length - 1) else -1) := by
  set w := cstWidth p.nvar p.npar p.stmts.length with hw
  have hlen : sol.length + 1 = w := by rw [hs]; rfl
  induction l generalizing row with
  | nil => simp
  | cons is l ih =>
    have hi := hl is (by simp)
    have hlt : is.1 < p.stmts.length := (List.getElem?_eq_some_iff.mp hi).1
    have hb := stmtOffset_bound p.nvar p.npar p.stmts.length is.1 hlt
    obtain ⟨a, b, c⟩ := setOnes_spec hp is.1 is.2 hi row hrow (h0 is (by simp)) sol hs
    rw [List.map_cons, List.nodup_cons] at hnd
    rw [List.foldl_cons, ih (fun x hx => hl x (List.mem_cons_of_mem _ hx)) hnd.2 _ (by
        intro x hx k hk
        have hxi := hl x (List.mem_cons_of_mem _ hx)
        have hxlt : x.1 < p.stmts.length := (List.getElem?_eq_some_iff.mp hxi).1
        have hxb := stmtOffset_bound p.nvar p.npar p.stmts.length x.1 hxlt
        have hne : x.1 ≠ is.1 := fun e => hnd.1 (by rw [← e]; exact List.mem_map_of_mem hx)
        rw [coef_set _ _ _ _ (by rw [a, hrow]; omega), if_neg (by omega), b]
        · exact h0 x (List.mem_cons_of_mem _ hx) k hk
        · unfold stmtOffset
          rcases Nat.lt_or_gt_of_ne hne with h | h
          · left
            have : (x.1 + 1) * (p.nvar + 1) ≤ is.1 * (p.nvar + 1) := Nat.mul_le_mul_right _ h
            rw [Nat.succ_mul] at this; omega
          · right
            have : (is.1 + 1) * (p.nvar + 1) ≤ x.1 * (p.nvar + 1) := Nat.mul_le_mul_right _ h
            rw [Nat.succ_mul] at this; omega)
      (by rw [List.length_set, a, hrow])]
    rw [aff_set_last' _ _ _ (w - 1) (by rw [a, hrow]; omega) (by omega), c,
      coef_set _ _ _ _ (by rw [a, hrow]; omega), if_pos rfl, b (w - 1) (by omega)]
    simp only [List.map_cons, List.sum_cons, reduceCtorEq, if_false]
    split
    · ring
    · ring

/-- C38 (lazy mode): if some statement still needs loops, the sum of the loop coefficients over all
such statements is positive. -/
theorem C38_nontrivial_lazy (p : Prog) (hp : p.Padded) (sol : List Int) (hs : SolLen p sol)
    (hn : ∃ st ∈ p.stmts, NeedsLoops st) (h : (nonTrivialConstraints p false).Sat sol) :
    ∃ (i : Nat) (st : Stmt), p.stmts[i]? = some st ∧ NeedsLoops st ∧ ∃ a ∈ stmtCoeffs p i st sol, 0 < a := by
  unfold nonTrivialConstraints at h
  simp only [Bool.false_eq_true, if_false] at h
  have hm := h _ (List.mem_singleton_self _)
  simp only [Row.Sat, Bool.false_eq_true, if_false] at hm
  set unf := (p.stmts.mapIdx (fun i st => (i, st))).filter (fun is =>
    decide (numIndHyps p is.2 < is.2.dimOrig)) with hunf
  have hmem : ∀ is ∈ unf, p.stmts[is.1]? = some is.2 ∧ NeedsLoops is.2 := by
    intro is his
    rw [hunf, List.mem_filter] at his
    obtain ⟨hm, hn⟩ := his
    obtain ⟨i', hi'⟩ := List.getElem?_of_mem hm
    rw [List.getElem?_mapIdx] at hi'
    obtain ⟨st', hst', rfl⟩ := Option.map_eq_some_iff.mp hi'
    exact ⟨hst', (C37_needs p hp _ (List.mem_of_getElem? hst')).mp (by simpa using hn)⟩
  have hnd : (unf.map (·.1)).Nodup := by
    have e : ((p.stmts.mapIdx (fun i st => (i, st))).map (·.1)) = List.range p.stmts.length := by
      apply List.ext_getElem
      · simp
      · intro i _ _; simp
    exact (e ▸ List.nodup_range).sublist (List.filter_sublist.map _)
  have hne : unf ≠ [] := by
    obtain ⟨st, hst, hns⟩ := hn
    obtain ⟨i, hi⟩ := List.getElem?_of_mem hst
    apply List.ne_nil_of_mem (a := (i, st))
    rw [hunf, List.mem_filter]
    refine ⟨List.mem_of_getElem? (i := i) (by rw [List.getElem?_mapIdx, hi]; rfl), ?_⟩
    simpa using (C37_needs p hp st hst).mpr hns
  rw [lazyRow_spec hp sol hs unf (fun is his => (hmem is his).1) hnd _ (by simp [zrow])
    (by intro _ _ _ _; exact coef_zrow _ _), if_neg hne, coef_zrow] at hm
  have e0 : aff (zrow (cstWidth p.nvar p.npar p.stmts.length)) sol = 0 := dot_zrow _ _
  rw [e0] at hm
  have hle : ∀ l : List Int, (∀ a ∈ l, a ≤ 0) → l.sum ≤ 0 := by
    intro l
    induction l with
    | nil => intro _; simp
    | cons a l ih =>
      intro ha
      rw [List.sum_cons]
      have h1 := ha a (by simp)
      have h2 := ih (fun b hb => ha b (List.mem_cons_of_mem _ hb))
      omega
  by_contra hc
  push Not at hc
  have := hle (unf.map (fun is => (stmtCoeffs p is.1 is.2 sol).sum)) (by
    intro a ha
    obtain ⟨is, his, rfl⟩ := List.mem_map.mp ha
    exact hle _ (hc is.1 is.2 (hmem is his).1 (hmem is his).2))
  omega

-- non-vacuity: the bound and the positive sum can be met together
example : (coeffBoundConstraints ⟨true, false, false, false, 4⟩ linIndProg).Sat ([0, 1, 4, 0] : List Int) ∧
    SolLen linIndProg ([0, 1, 4, 0] : List Int) := by
  have hs : SolLen linIndProg ([0, 1, 4, 0] : List Int) := rfl
  refine ⟨(C38_bounds _ _ _ hs).mpr ⟨?_, ?_, ?_⟩, hs⟩
  · unfold NonNeg; decide
  · intro _; unfold CoeffsLe; decide
  · intro h; simp at h

example : (nonTrivialConstraints linIndProg true).rows = [⟨false, [0, 1, 1, 0, -1]⟩] := by
  decide +kernel

end Pluto
