import Verif.Lemmas.ReuseRegs
import Verif.Props.Polyloop

/-!
C69: the reuse cost model. What the counts of invariant and short-stride accesses, the test for vectorizable
loops, the choice of the innermost loop and the register estimate for unroll-jam say about the memory that the
iterations touch.
-/

namespace Pluto

/-- C69. `is_invariant` is right: for iterations that differ in the loop at level `d` only, it says "invariant" if and
only if the access touches the same element in both. -/
theorem C69_invariant (p : Prog) (hT : p.TransOK) (i d : Nat) (a : Access) (ha : a.mat.WF) (b : Bool)
    (h : isInvariant p i a d = some b) (x x' q : List Int) (hx : p.Along i d x x' q) :
    b = true ↔ a.elem x q = a.elem x' q := by
  obtain ⟨m, hm, rfl⟩ := isInvariant_some h
  exact invariant_iff hT ha hm hx.len hx.len' hx.params hx.same (ne_of_lt hx.lt)

/-- C69. If `has_spatial_reuse` says yes, then along the loop only the last subscript of the access changes, it
grows, and it grows by at most 4 for each unit of time. -/
theorem C69_spatial (p : Prog) (hT : p.TransOK) (i d : Nat) (a : Access) (ha : a.mat.WF)
    (h : hasSpatialReuse p i a d = some true) (x x' q : List Int) (hx : p.Along i d x x' q) :
    ShortStep (a.elem x q) (a.elem x' q) (4 * (p.phi i d x' q - p.phi i d x q)) := by
  obtain ⟨m, hm, hb⟩ := hasSpatial_some h
  obtain ⟨k0, k1, k2, k3⟩ := hb.mp rfl
  obtain ⟨h1, divs, h2, h3, _, h4⟩ := newAccess_delta hT ha hm
  have hd := h4 d x x' q hx.len hx.len' hx.params hx.same
  rw [h1] at k0 k1 k2 k3
  obtain ⟨front, f1, f2⟩ := elem_front (a := a) (x := x) (x' := x') (q := q) k0 (by
    intro k hk
    have := hd k (by omega)
    have hp := getD_pos h3 (k := k) (by omega)
    rw [k1 k hk, zero_mul, eq_comm, mul_eq_zero] at this
    omega)
  have hlast := hd (a.mat.rows.length - 1) (by omega)
  have hp := getD_pos h3 (k := a.mat.rows.length - 1) (by omega)
  have hlt := hx.lt
  refine ⟨rfl, front, _, _, f1, f2, ?_, ?_⟩
  · have : 0 < divs.getD (a.mat.rows.length - 1) 0 * (aff (a.mat.rows.getD (a.mat.rows.length - 1) []) (x' ++ q) -
        aff (a.mat.rows.getD (a.mat.rows.length - 1) []) (x ++ q)) := by
      rw [← hlast]
      exact mul_pos (by omega) (by omega)
    have := (mul_pos_iff_of_pos_left hp).mp this
    omega
  · have h5 : divs.getD (a.mat.rows.length - 1) 0 * (aff (a.mat.rows.getD (a.mat.rows.length - 1) []) (x' ++ q) -
        aff (a.mat.rows.getD (a.mat.rows.length - 1) []) (x ++ q)) ≤ 4 * (p.phi i d x' q - p.phi i d x q) := by
      rw [← hlast]
      exact mul_le_mul_of_nonneg_right k3 (by omega)
    by_contra hc
    rw [not_le] at hc
    have h6 : (1 : Int) * (aff (a.mat.rows.getD (a.mat.rows.length - 1) []) (x' ++ q) -
        aff (a.mat.rows.getD (a.mat.rows.length - 1) []) (x ++ q)) ≤ divs.getD (a.mat.rows.length - 1) 0 *
        (aff (a.mat.rows.getD (a.mat.rows.length - 1) []) (x' ++ q) -
        aff (a.mat.rows.getD (a.mat.rows.length - 1) []) (x ++ q)) :=
      mul_le_mul_of_nonneg_right (by omega) (by omega)
    omega

/-- C69. When the divisors of the transformed access are 1, `has_spatial_reuse` says yes if and only if along the loop
only the last subscript changes, by at least 1 and at most 4 for each unit of time.
Missing for the full claim: other divisors (then it is false, `C69_violated_stride`). -/
theorem C69_spatial_exact_partial (p : Prog) (hT : p.TransOK) (i d : Nat) (a : Access) (ha : a.mat.WF) (b : Bool)
    (h : hasSpatialReuse p i a d = some b)
    (h1 : ∀ st m divs, p.stmts[i]? = some st → newAccessFunc st.dim p.npar st.trans a.mat = some (m, divs) → ∀ k ∈ divs, k = 1)
    (x x' q : List Int) (hx : p.Along i d x x' q) :
    b = true ↔ ∃ front u u', (a.elem x q).2 = front ++ [u] ∧ (a.elem x' q).2 = front ++ [u'] ∧
      p.phi i d x' q - p.phi i d x q ≤ u' - u ∧ u' - u ≤ 4 * (p.phi i d x' q - p.phi i d x q) := by
  obtain ⟨m, hm, hb⟩ := hasSpatial_some h
  rw [hb]
  obtain ⟨g1, divs, g2, g3, ⟨st, hst, hnf⟩, h4⟩ := newAccess_delta hT ha hm
  have hd := h4 d x x' q hx.len hx.len' hx.params hx.same
  have hone : ∀ k < a.mat.rows.length, divs.getD k 0 = 1 := by
    intro k hk
    rw [List.getD_eq_getElem _ _ (by omega)]
    exact h1 st _ _ hst hnf _ (List.getElem_mem _)
  have hlt := hx.lt
  rw [g1]
  constructor
  · rintro ⟨k0, k1, k2, k3⟩
    obtain ⟨front, f1, f2⟩ := elem_front (a := a) (x := x) (x' := x') (q := q) k0 (by
      intro k hk
      have := hd k (by omega)
      rw [k1 k hk, hone k (by omega)] at this
      omega)
    have hlast := hd (a.mat.rows.length - 1) (by omega)
    rw [hone _ (by omega), one_mul] at hlast
    refine ⟨front, _, _, f1, f2, ?_, ?_⟩
    · rw [← hlast]; exact le_mul_of_one_le_left (by omega) k2
    · rw [← hlast]; exact mul_le_mul_of_nonneg_right k3 (by omega)
  · rintro ⟨front, u, u', f1, f2, l1, l2⟩
    obtain ⟨k0, k1, e1, e2⟩ := front_elem f1 f2
    have hlast := hd (a.mat.rows.length - 1) (by omega)
    rw [hone _ (by omega), one_mul, e1, e2] at hlast
    refine ⟨k0, fun k hk => ?_, ?_, ?_⟩
    · have := hd k (by omega)
      rw [k1 k hk, sub_self, mul_zero, mul_eq_zero] at this
      omega
    · by_contra hc
      have : coef (m.mat.rows.getD (a.mat.rows.length - 1) []) d * (p.phi i d x' q - p.phi i d x q) ≤ 0 :=
        mul_nonpos_of_nonpos_of_nonneg (by omega) (by omega)
      omega
    · by_contra hc
      have : 5 * (p.phi i d x' q - p.phi i d x q) ≤
          coef (m.mat.rows.getD (a.mat.rows.length - 1) []) d * (p.phi i d x' q - p.phi i d x q) :=
        mul_le_mul_of_nonneg_right (by omega) (by omega)
      omega

/-- C69. If `pluto_loop_is_vectorizable` says yes, then the iterations of the loop are independent and every access of
its statements either stays at its element or moves by a short positive step in its last subscript. -/
theorem C69_vectorizable (p : Prog) (hT : p.TransOK) (hi : p.Info) (A : Accs) (L : Loop) (hA : ∀ i ∈ L.stmts, ∀ a ∈ A i, a.mat.WF)
    (h : loopIsVectorizable p A L = some true) :
    (∀ d ∈ p.deps, d.rar = false → d.src ∈ L.stmts → d.dest ∈ L.stmts → ∀ s t q, p.Inst d s t q →
      p.TiedBelow d L.depth s t q → p.phi d.src L.depth s q = p.phi d.dest L.depth t q) ∧
    ∀ i ∈ L.stmts, ∀ a ∈ A i, ∀ x x' q, p.Along i L.depth x x' q →
      a.elem x q = a.elem x' q ∨
        ShortStep (a.elem x q) (a.elem x' q) (4 * (p.phi i L.depth x' q - p.phi i L.depth x q)) := by
  obtain ⟨h1, _, _, h2⟩ := vectorizable_some h
  refine ⟨C21_parallel p hi L h1, fun i hi' a ha x x' q hx => ?_⟩
  rcases h2 i hi' a ha with h | h
  · exact Or.inr (C69_spatial p hT i L.depth a (hA i hi' a ha) h x x' q hx)
  · exact Or.inl ((C69_invariant p hT i L.depth a (hA i hi' a ha) true h x x' q hx).mp rfl)

/-- C69. `get_best_vectorizable_loop` returns a loop of the list with the greatest score, the first one of those. -/
theorem C69_best (p : Prog) (A : Accs) (ls : List Loop) (L : Loop) (h : bestVectorizable p A ls = some (some L)) :
    ∃ sc, loopScore p A L = some sc ∧ ∃ pre post, ls = pre ++ L :: post ∧
      (∀ M ∈ pre, ∃ sc', loopScore p A M = some sc' ∧ sc' < sc) ∧ ∀ M ∈ post, ∃ sc', loopScore p A M = some sc' ∧ sc' ≤ sc := by
  unfold bestVectorizable at h
  simp only [Option.bind_eq_bind, Option.bind_eq_some_iff, pure, Option.some.injEq] at h
  obtain ⟨s, hs, h⟩ := h
  obtain ⟨k1, _, k3⟩ := best_inv ls _ s hs
  rcases k3 with rfl | ⟨pre, M, post, rfl, r1, r2, _, r4⟩
  · cases h
  · rw [h, Option.some.injEq] at r1
    subst r1
    exact ⟨s.1, r2, pre, post, rfl, r4, fun N hN => k1 N (by simp [hN])⟩

/-- C69. It returns a loop whenever the list has one with a score above `INT_MIN`. -/
theorem C69_best_exists (p : Prog) (A : Accs) (ls : List Loop) (r : Option Loop) (h : bestVectorizable p A ls = some r)
    (hs : ∃ L ∈ ls, ∀ sc, loopScore p A L = some sc → -(2 ^ 31) < sc) : ∃ L, r = some L := by
  unfold bestVectorizable at h
  simp only [Option.bind_eq_bind, Option.bind_eq_some_iff, pure, Option.some.injEq] at h
  obtain ⟨s, hf, rfl⟩ := h
  obtain ⟨k1, _, k3⟩ := best_inv ls _ s hf
  rcases k3 with rfl | ⟨pre, M, post, _, r1, _⟩
  · obtain ⟨L, hL, hsc⟩ := hs
    obtain ⟨sc, e, hle⟩ := k1 L hL
    have := hsc sc e
    simp at hle
    omega
  · exact ⟨M, r1⟩

/-- The choice made by `get_best_vectorizable_loop` as the argument of the intra-tile optimization. -/
def bestOf (A : Prog → Accs) (p : Prog) (ls : List Loop) : Option Loop := (bestVectorizable p (A p) ls).join

/-- C69. So the hypothesis that C50, C52, C60 and C65 make about the choice of the innermost loop holds for the function
in the code, whatever the accesses are. -/
theorem C69_best_member (A : Prog → Accs) : ∀ p ls L, bestOf A p ls = some L → L ∈ ls := by
  intro p ls L h
  unfold bestOf at h
  rw [Option.join_eq_some_iff] at h
  obtain ⟨_, _, pre, post, rfl, _⟩ := C69_best p (A p) ls L h
  simp

/-- C69. Among loops around the same statements with fewer than four accesses, `get_best_vectorizable_loop` picks a
vectorizable one if there is one.
Missing for the full claim: four or more accesses (false for five, `C69_violated_best`). -/
theorem C69_prefers_vectorizable_partial (p : Prog) (A : Accs) (ls : List Loop) (L : Loop) (stmts : List Nat)
    (hst : ∀ M ∈ ls, M.stmts = stmts) (hfew : (accsOf A stmts).length < 4)
    (h : bestVectorizable p A ls = some (some L)) (hv : ∃ M ∈ ls, loopIsVectorizable p A M = some true) :
    loopIsVectorizable p A L = some true := by
  obtain ⟨sc, hsc, pre, post, rfl, h1, h2⟩ := C69_best p A ls L h
  obtain ⟨M, hM, hMv⟩ := hv
  have hle : ∃ sc', loopScore p A M = some sc' ∧ sc' ≤ sc := by
    rcases List.mem_append.mp hM with hM | hM
    · obtain ⟨sc', e, hl⟩ := h1 M hM
      exact ⟨sc', e, by omega⟩
    · rcases List.mem_cons.mp hM with rfl | hM
      · exact ⟨sc, hsc, le_refl _⟩
      · exact h2 M hM
  obtain ⟨sc', hsc', hle⟩ := hle
  obtain ⟨_, ha1, ⟨s, t, hs, ht, hst'⟩, _⟩ := vectorizable_some hMv
  have hMs := hst M hM
  have hLs := hst L (by simp)
  have hpos : 1 ≤ stmts.length := by
    cases stmts with
    | nil => simp [numAccesses, hMs, accsOf] at ha1
    | cons => simp
  unfold loopScore at hsc hsc'
  simp only [Option.bind_eq_bind, Option.bind_eq_some_iff, pure, Option.some.injEq, hMs, hLs] at hsc hsc'
  rw [hs, ht, hMv] at hsc'
  obtain ⟨s', e1, t', e2, v', e3, hsc'⟩ := hsc'
  cases e1; cases e2; cases e3
  obtain ⟨sL, k1, tL, k2, vL, k3, hsc⟩ := hsc
  cases vL
  swap
  · exact k3
  exfalso
  have haM : numAccesses A M = (accsOf A stmts).length := by unfold numAccesses; rw [hMs]
  have haL : numAccesses A L = (accsOf A stmts).length := by unfold numAccesses; rw [hLs]
  obtain ⟨bs, hbs, rfl⟩ := numSpatial_some k1
  obtain ⟨cs, hcs, rfl⟩ := numInvariant_some k2
  have hcount := count_le hbs hcs (fun x _ hx => spatial_not_invariant hx.1 hx.2)
  rw [hLs] at hcount
  rw [haM] at hsc' hst'
  rw [haL] at hsc
  rw [← hsc, ← hsc'] at hle
  have := le_of_mul_le_mul_right hle (by omega : (0 : Int) < (stmts.length : Int))
  simp at this
  omega

/-- C69. `get_unique_accesses_in_stmts` lists every transformed access of the statements once, and no other. -/
theorem C69_unique (p : Prog) (A : Accs) (g : List Nat) (us : List Access) (h : uniqueAccesses p A g = some us) :
    us.Nodup ∧ ∀ b, b ∈ us ↔ ∃ i ∈ g, ∃ a ∈ A i, newAccess p i a = some b := by
  obtain ⟨h1, h2, h3⟩ := uniqueAccesses_spec h
  refine ⟨h1, fun b => ⟨h3 b, ?_⟩⟩
  rintro ⟨i, hi, a, ha, hb⟩
  obtain ⟨b', hb', e⟩ := h2 i hi a ha
  rw [hb, Option.some.injEq] at e
  rwa [e]

/-- C69. If the loop at level `d` is jammed `u` times, the statements `g` touch at most `a*u - t*(u-1)` elements, where `a`
and `t` are the numbers of different and of invariant accesses that the code counts.
Missing for the full claim: statements whose transformed accesses have different divisors (then it is false,
`C69_violated_unique`). -/
theorem C69_registers_partial (p : Prog) (hok : p.OK) (A : Accs) (g : List Nat) (hA : ∀ i ∈ g, ∀ a ∈ A i, a.mat.WF) (D : Int)
    (hD : ∀ i ∈ g, ∀ a ∈ A i, ∀ st m divs, p.stmts[i]? = some st →
      newAccessFunc st.dim p.npar st.trans a.mat = some (m, divs) → ∀ k ∈ divs, k = D)
    (d a t : Nat) (ha : numUnique p A g = some a) (ht : numUniqueInvariant p A g d = some t)
    (T : Nat → Int) (v : Int) (u : Nat) (hu : 1 ≤ u) (q : List Int) (hq : q.length = p.npar) :
    (p.Touched A g d T v u q).Finite ∧ (p.Touched A g d T v u q).ncard + t * (u - 1) ≤ a * u := by
  unfold numUnique at ha
  unfold numUniqueInvariant at ht
  simp only [Option.bind_eq_bind, Option.bind_eq_some_iff, pure, Option.some.injEq] at ha ht
  obtain ⟨us, hus, rfl⟩ := ha
  obtain ⟨us', hus', rfl⟩ := ht
  rw [hus, Option.some.injEq] at hus'
  subst hus'
  exact touched_card hok hA hus hD d T v u hu q hq

/-- C69. If `is_unroll_jam_profitable` says yes, and all innermost loops under the loop have the same number of invariant
accesses, then the body of none of them, jammed `u` times, touches more than 32 elements.
Missing for the full claim: innermost loops with different numbers of invariant accesses (then it is false,
`C69_violated_registers`), different divisors. -/
theorem C69_profitable_partial (p : Prog) (hok : p.OK) (A : Accs) (L : Loop) (u : Nat) (hu : 1 ≤ u)
    (h : unrollJamProfitable p A u L = some true) (gs : List (List Nat)) (hgs : innermostGroups p L = some gs)
    (hsame : ∀ g ∈ gs, numUniqueInvariant p A g L.depth = maxInvariant p A L)
    (hA : ∀ g ∈ gs, ∀ i ∈ g, ∀ a ∈ A i, a.mat.WF) (D : Int)
    (hD : ∀ g ∈ gs, ∀ i ∈ g, ∀ a ∈ A i, ∀ st m divs, p.stmts[i]? = some st →
      newAccessFunc st.dim p.npar st.trans a.mat = some (m, divs) → ∀ k ∈ divs, k = D)
    (g : List Nat) (hg : g ∈ gs) (T : Nat → Int) (v : Int) (q : List Int) (hq : q.length = p.npar) :
    (p.Touched A g L.depth T v u q).Finite ∧ (p.Touched A g L.depth T v u q).ncard ≤ 32 ∧
      ∃ i ∈ g, ∃ a ∈ A i, ∀ x x' q', p.Along i L.depth x x' q' → a.elem x q' = a.elem x' q' := by
  have hT : p.TransOK := fun st hst r hr => (hok.stmts st hst).trans r hr
  unfold unrollJamProfitable at h
  simp only [Option.bind_eq_bind, Option.bind_eq_some_iff] at h
  obtain ⟨t, ht, h⟩ := h
  by_cases h0 : t = 0
  · rw [if_pos h0] at h; cases h
  rw [if_neg h0] at h
  simp only [Option.bind_eq_some_iff, pure, Option.some.injEq, decide_eq_true_eq] at h
  obtain ⟨a, ha, hcost⟩ := h
  have htg : numUniqueInvariant p A g L.depth = some t := by rw [hsame g hg, ht]
  unfold maxUnique at ha
  rw [hgs] at ha
  simp only [Option.bind_eq_bind, Option.bind_some, Option.bind_eq_some_iff, pure, Option.some.injEq] at ha
  obtain ⟨ns, hns, rfl⟩ := ha
  obtain ⟨n, hn, hng⟩ := forall₂_mem_of_left (mapM_forall₂ _ _ _ hns) hg
  have hle := (foldl_max_ge ns 0).2 n hn
  obtain ⟨k1, k2⟩ := C69_registers_partial p hok A g (hA g hg) D (hD g hg) L.depth n t hng htg T v u hu q hq
  refine ⟨k1, ?_, ?_⟩
  · unfold numRegisters at hcost
    obtain ⟨w, rfl⟩ : ∃ w, u = w + 1 := ⟨u - 1, by omega⟩
    have hmul : n * (w + 1) ≤ ns.foldl max 0 * (w + 1) := Nat.mul_le_mul_right _ hle
    rw [show w + 1 - 1 = w from rfl] at k2
    have e : ((w + 1 : Nat) : Int) - 1 = (w : Int) := by push_cast; ring
    rw [e] at hcost
    have c1 : ((ns.foldl max 0 * (w + 1) : Nat) : Int) = (ns.foldl max 0 : Nat) * ((w + 1 : Nat) : Int) := by push_cast; ring
    have c2 : ((t * w : Nat) : Int) = (t : Int) * w := by push_cast; ring
    rw [← c1, ← c2] at hcost
    omega
  · unfold numUniqueInvariant at htg
    simp only [Option.bind_eq_bind, Option.bind_eq_some_iff, pure, Option.some.injEq] at htg
    obtain ⟨us, hus, hf⟩ := htg
    have hne : us.filter (fun a => accInvariant a.mat L.depth) ≠ [] := by
      intro hc; rw [hc] at hf; simp at hf; omega
    obtain ⟨b, hb⟩ := List.exists_mem_of_ne_nil _ hne
    rw [List.mem_filter] at hb
    obtain ⟨i, hi, a, ha, hab⟩ := (uniqueAccesses_spec hus).2.2 b hb.1
    exact ⟨i, hi, a, ha, fun x x' q' hx => invariant_same hT (hA g hg i hi a ha) hab hx.len hx.len' hx.params hx.same hb.2⟩

end Pluto
