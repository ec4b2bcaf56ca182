import Verif.Lemmas.Elim

/-! Farkas' lemma over an ordered field, through Fourier-Motzkin elimination on mixed strict and
non-strict systems. Independent of the model. -/

namespace Pluto

variable {K : Type*} [Field K] [LinearOrder K] [IsStrictOrderedRing K]

/-- value comparison with strictness flag -/
def ltOrLe (s : Bool) (a b : K) : Prop := if s then a < b else a ≤ b

omit [Field K] [IsStrictOrderedRing K] in
theorem ltOrLe_le {s : Bool} {a b : K} (h : ltOrLe s a b) : a ≤ b := by
  unfold ltOrLe at h; split at h
  · exact h.le
  · exact h

omit [Field K] [IsStrictOrderedRing K] in
theorem exists_max_snd (L : List (Bool × K)) (h : L ≠ []) : ∃ m ∈ L, ∀ l ∈ L, l.2 ≤ m.2 := by
  induction L with
  | nil => exact absurd rfl h
  | cons a L ih =>
    by_cases hL : L = []
    · subst hL; exact ⟨a, by simp, by simp⟩
    · obtain ⟨m, hm, hmax⟩ := ih hL
      by_cases hc : a.2 ≤ m.2
      · refine ⟨m, by simp [hm], ?_⟩
        intro l hl
        rcases List.mem_cons.mp hl with rfl | hl
        · exact hc
        · exact hmax l hl
      · refine ⟨a, by simp, ?_⟩
        intro l hl
        rcases List.mem_cons.mp hl with rfl | hl
        · exact le_refl _
        · exact (hmax l hl).trans (not_le.mp hc).le

omit [Field K] [IsStrictOrderedRing K] in
theorem exists_min_snd (L : List (Bool × K)) (h : L ≠ []) : ∃ m ∈ L, ∀ l ∈ L, m.2 ≤ l.2 := by
  induction L with
  | nil => exact absurd rfl h
  | cons a L ih =>
    by_cases hL : L = []
    · subst hL; exact ⟨a, by simp, by simp⟩
    · obtain ⟨m, hm, hmin⟩ := ih hL
      by_cases hc : m.2 ≤ a.2
      · refine ⟨m, by simp [hm], ?_⟩
        intro l hl
        rcases List.mem_cons.mp hl with rfl | hl
        · exact hc
        · exact hmin l hl
      · refine ⟨a, by simp, ?_⟩
        intro l hl
        rcases List.mem_cons.mp hl with rfl | hl
        · exact le_refl _
        · exact (not_le.mp hc).le.trans (hmin l hl)

theorem exists_between_strict (L U : List (Bool × K))
    (h : ∀ l ∈ L, ∀ u ∈ U, ltOrLe (l.1 || u.1) l.2 u.2) :
    ∃ v, (∀ l ∈ L, ltOrLe l.1 l.2 v) ∧ ∀ u ∈ U, ltOrLe u.1 v u.2 := by
  have lt_imp : ∀ (s : Bool) (a b : K), a < b → ltOrLe s a b := by
    intro s a b hab; unfold ltOrLe; split
    · exact hab
    · exact hab.le
  by_cases hL : L = []
  · subst hL
    by_cases hU : U = []
    · subst hU; exact ⟨0, by simp, by simp⟩
    · obtain ⟨m, -, hmin⟩ := exists_min_snd U hU
      refine ⟨m.2 - 1, by simp, fun u hu => lt_imp _ _ _ ?_⟩
      have := hmin u hu; linarith
  · obtain ⟨M, hM, hmax⟩ := exists_max_snd L hL
    by_cases hU : U = []
    · subst hU
      refine ⟨M.2 + 1, fun l hl => lt_imp _ _ _ ?_, by simp⟩
      have := hmax l hl; linarith
    · obtain ⟨m, hm, hmin⟩ := exists_min_snd U hU
      have hMm := ltOrLe_le (h M hM m hm)
      rcases hMm.lt_or_eq with hlt | heq
      · refine ⟨(M.2 + m.2) / 2, fun l hl => lt_imp _ _ _ ?_, fun u hu => lt_imp _ _ _ ?_⟩
        · have := hmax l hl; linarith
        · have := hmin u hu; linarith
      · refine ⟨M.2, fun l hl => ?_, fun u hu => ?_⟩
        · have := h l hl m hm
          rw [← heq] at this
          unfold ltOrLe at this ⊢
          cases hl1 : l.1 <;> simp [hl1] at this ⊢
          · exact hmax l hl
          · exact this
        · have := h M hM u hu
          unfold ltOrLe at this ⊢
          cases hu1 : u.1 <;> simp [hu1] at this ⊢
          · rw [heq]; exact hmin u hu
          · exact this

/-- Value of a mixed row. -/
def MSat (r : Bool × List K) (y : List K) : Prop := ltOrLe r.1 0 (ldot r.2 y)

/-- Non-negative combinations of rows. -/
inductive Cert (S : List (Bool × List K)) : Bool → List K → Prop
  | mem {s v} : (s, v) ∈ S → Cert S s v
  | add {s t v w} : Cert S s v → Cert S t w → Cert S (s || t) (List.zipWith (· + ·) v w)
  | smul {s v} (k : K) : 0 < k → Cert S s v → Cert S s (v.map (k * ·))

/-- Elimination of the first variable. -/
def mElim (S : List (Bool × List K)) : List (Bool × List K) :=
  S.flatMap fun u =>
    if u.2.headD 0 < 0 then
      (S.filter (fun l => decide (0 < l.2.headD 0))).map fun l =>
        (l.1 || u.1, List.zipWith (· + ·) (l.2.tail.map ((-(u.2.headD 0)) * ·))
          (u.2.tail.map ((l.2.headD 0) * ·)))
    else if u.2.headD 0 = 0 then [(u.1, u.2.tail)] else []

omit [LinearOrder K] [IsStrictOrderedRing K] in
theorem ldot_zipWith_add (a b x : List K) (h : a.length = b.length) :
    ldot (List.zipWith (· + ·) a b) x = ldot a x + ldot b x := by
  induction a generalizing b x with
  | nil => cases b <;> simp_all
  | cons p ps ih => cases b with
    | nil => simp at h
    | cons q qs => cases x with
      | nil => simp
      | cons z zs =>
        simp at h
        simp [ih qs zs h]; ring

omit [LinearOrder K] [IsStrictOrderedRing K] in
theorem ldot_map_mul (k : K) (a x : List K) : ldot (a.map (k * ·)) x = k * ldot a x := by
  induction a generalizing x with
  | nil => simp
  | cons p ps ih => cases x with
    | nil => simp
    | cons z zs => simp [ih zs]; ring

omit [LinearOrder K] [IsStrictOrderedRing K] in
theorem ldot_head_tail (a : List K) (v : K) (y : List K) (h : a ≠ []) :
    ldot a (v :: y) = a.headD 0 * v + ldot a.tail y := by
  cases a with
  | nil => exact absurd rfl h
  | cons p ps => simp

theorem mElim_length (S : List (Bool × List K)) (n : Nat) (h : ∀ r ∈ S, r.2.length = n + 1) :
    ∀ r ∈ mElim S, r.2.length = n := by
  intro q hq
  unfold mElim at hq
  obtain ⟨u, hu, hq⟩ := List.mem_flatMap.mp hq
  split at hq
  · obtain ⟨l, hl, rfl⟩ := List.mem_map.mp hq
    simp [h u hu, h l (List.mem_of_mem_filter hl)]
  · split at hq
    · simp at hq; subst hq; simp [h u hu]
    · simp at hq

theorem mElim_complete (S : List (Bool × List K)) (n : Nat) (h : ∀ r ∈ S, r.2.length = n + 1)
    (y : List K) (hs : ∀ r ∈ mElim S, MSat r y) : ∃ v, ∀ r ∈ S, MSat r (v :: y) := by
  have hne : ∀ r ∈ S, r.2 ≠ [] := fun r hr h0 => by
    have := h r hr; rw [h0] at this; simp at this
  let L := (S.filter (fun l => decide (0 < l.2.headD 0))).map
    (fun l => (l.1, -(ldot l.2.tail y) / l.2.headD 0))
  let U := (S.filter (fun l => decide (l.2.headD 0 < 0))).map
    (fun l => (l.1, ldot l.2.tail y / -(l.2.headD 0)))
  have hLU : ∀ l ∈ L, ∀ u ∈ U, ltOrLe (l.1 || u.1) l.2 u.2 := by
    intro a ha b hb
    obtain ⟨l, hlm, rfl⟩ := List.mem_map.mp ha
    obtain ⟨u, hum, rfl⟩ := List.mem_map.mp hb
    obtain ⟨hlr, hpos⟩ := List.mem_filter.mp hlm
    obtain ⟨hur, hneg⟩ := List.mem_filter.mp hum
    simp only [decide_eq_true_eq] at hpos hneg
    have hq := hs (l.1 || u.1, List.zipWith (· + ·) (l.2.tail.map ((-(u.2.headD 0)) * ·))
          (u.2.tail.map ((l.2.headD 0) * ·))) (by
      unfold mElim
      refine List.mem_flatMap.mpr ⟨u, hur, ?_⟩
      rw [if_pos hneg]
      exact List.mem_map.mpr ⟨l, hlm, rfl⟩)
    unfold MSat at hq
    simp only at hq
    rw [ldot_zipWith_add _ _ _ (by simp [h u hur, h l hlr]), ldot_map_mul, ldot_map_mul] at hq
    have hneg' : 0 < -(u.2.headD 0) := by linarith
    unfold ltOrLe at hq ⊢
    split at hq
    · rename_i hb; rw [if_pos hb, div_lt_div_iff₀ hpos hneg']; linarith
    · rename_i hb; rw [if_neg hb, div_le_div_iff₀ hpos hneg']; linarith
  obtain ⟨v, hv1, hv2⟩ := exists_between_strict L U hLU
  refine ⟨v, fun r hr => ?_⟩
  unfold MSat
  rw [ldot_head_tail _ _ _ (hne r hr)]
  rcases lt_trichotomy (r.2.headD 0) 0 with hc | hc | hc
  · have := hv2 _ (List.mem_map.mpr ⟨r, List.mem_filter.mpr ⟨hr, by simpa using hc⟩, rfl⟩)
    have hneg' : 0 < -(r.2.headD 0) := by linarith
    unfold ltOrLe at this ⊢
    simp only at this
    split at this
    · rename_i hb; rw [if_pos hb]; rw [lt_div_iff₀ hneg'] at this; linarith
    · rename_i hb; rw [if_neg hb]; rw [le_div_iff₀ hneg'] at this; linarith
  · have hq := hs (r.1, r.2.tail) (by
      unfold mElim
      refine List.mem_flatMap.mpr ⟨r, hr, ?_⟩
      rw [if_neg (by rw [hc]; exact lt_irrefl _), if_pos hc]; simp)
    rw [hc]; simpa [MSat] using hq
  · have := hv1 _ (List.mem_map.mpr ⟨r, List.mem_filter.mpr ⟨hr, by simpa using hc⟩, rfl⟩)
    unfold ltOrLe at this ⊢
    simp only at this
    split at this
    · rename_i hb; rw [if_pos hb]; rw [div_lt_iff₀ hc] at this; linarith
    · rename_i hb; rw [if_neg hb]; rw [div_le_iff₀ hc] at this; linarith

theorem cert_mElim (S : List (Bool × List K)) (n : Nat) (h : ∀ r ∈ S, r.2.length = n + 1)
    (s : Bool) (w : List K) (hc : Cert (mElim S) s w) : Cert S s (0 :: w) := by
  have cons_eq : ∀ r ∈ S, r.2 = r.2.headD 0 :: r.2.tail := by
    intro r hr
    have := h r hr
    cases hr2 : r.2 with
    | nil => rw [hr2] at this; simp at this
    | cons a as => simp
  induction hc with
  | @mem s v hm =>
    unfold mElim at hm
    obtain ⟨u, hu, hm⟩ := List.mem_flatMap.mp hm
    split at hm
    · rename_i hneg
      obtain ⟨l, hl, he⟩ := List.mem_map.mp hm
      obtain ⟨hlr, hpos⟩ := List.mem_filter.mp hl
      simp only [decide_eq_true_eq] at hpos
      simp only [Prod.mk.injEq] at he
      obtain ⟨he1, he2⟩ := he
      have c1 : Cert S l.1 (l.2.map ((-(u.2.headD 0)) * ·)) :=
        .smul _ (by linarith) (.mem hlr)
      have c2 : Cert S u.1 (u.2.map ((l.2.headD 0) * ·)) := .smul _ hpos (.mem hu)
      have c3 := Cert.add c1 c2
      rw [he1] at c3
      have : List.zipWith (· + ·) (l.2.map ((-(u.2.headD 0)) * ·)) (u.2.map ((l.2.headD 0) * ·)) =
          0 :: v := by
        rw [← he2]
        generalize hlh : l.2.headD 0 = a
        generalize huh : u.2.headD 0 = b
        rw [cons_eq l hlr, cons_eq u hu, hlh, huh]
        simp; ring
      rw [this] at c3
      exact c3
    · split at hm
      · rename_i hz
        simp only [List.mem_singleton, Prod.mk.injEq] at hm
        obtain ⟨rfl, rfl⟩ := hm
        have := cons_eq u hu
        rw [hz] at this
        rw [← this]
        exact .mem hu
      · simp at hm
  | add _ _ ih1 ih2 => simpa using Cert.add ih1 ih2
  | smul k hk _ ih => simpa using Cert.smul k hk ih

theorem infeasible_cert (n : Nat) (S : List (Bool × List K)) (h : ∀ r ∈ S, r.2.length = n + 1)
    (hinf : ¬ ∃ x : List K, x.length = n ∧ ∀ r ∈ S, MSat r (x ++ [1])) :
    ∃ s c, Cert S s (List.replicate n 0 ++ [c]) ∧ (c < 0 ∨ (s = true ∧ c ≤ 0)) := by
  induction n generalizing S with
  | zero =>
    have : ∃ r ∈ S, ¬ MSat r [1] := by
      by_contra hh
      push Not at hh
      exact hinf ⟨[], rfl, by simpa using hh⟩
    obtain ⟨⟨s, v⟩, hr, hns⟩ := this
    have hl := h _ hr
    match v, hl with
    | [c], _ =>
      refine ⟨s, c, by simpa using Cert.mem hr, ?_⟩
      unfold MSat ltOrLe at hns
      simp only [ldot_cons, mul_one, ldot_nil_left, add_zero] at hns
      split at hns
      · rename_i hs; right; exact ⟨hs, not_lt.mp hns⟩
      · left; exact not_le.mp hns
  | succ n ih =>
    have hinf' : ¬ ∃ x : List K, x.length = n ∧ ∀ r ∈ mElim S, MSat r (x ++ [1]) := by
      rintro ⟨x, hx, hs⟩
      obtain ⟨v, hv⟩ := mElim_complete S (n + 1) h (x ++ [1]) hs
      exact hinf ⟨v :: x, by simp [hx], by simpa using hv⟩
    obtain ⟨s, c, hc, hh⟩ := ih (mElim S) (mElim_length S (n + 1) h) hinf'
    exact ⟨s, c, by simpa [List.replicate_succ] using cert_mElim S (n + 1) h s _ hc, hh⟩

omit [LinearOrder K] [IsStrictOrderedRing K] in
theorem ldot_zero_replicate (n : Nat) (y : List K) : ldot (List.replicate n 0) y = 0 := by
  induction n generalizing y with
  | zero => simp
  | succ n ih => cases y <;> simp [List.replicate_succ, ih]

omit [LinearOrder K] [IsStrictOrderedRing K] in
theorem ldot_unit (n j : Nat) (y : List K) :
    ldot ((List.replicate n (0 : K)).set j 1) y = if j < n then y.getD j 0 else 0 := by
  induction n generalizing j y with
  | zero => simp
  | succ n ih =>
    cases y with
    | nil => simp
    | cons a y => cases j with
      | zero => simp [List.replicate_succ, ldot_zero_replicate]
      | succ j => simp [List.replicate_succ, ih]

omit [LinearOrder K] [IsStrictOrderedRing K] in
theorem ldot_comm (a b : List K) : ldot a b = ldot b a := by
  induction a generalizing b with
  | nil => simp
  | cons p ps ih => cases b with
    | nil => simp
    | cons q qs => simp [ih qs]; ring

/-- Decomposition of a certificate over non-strict rows `F` and one strict row `g`. -/
theorem cert_decomp (F : List (List K)) (g : List K) (n : Nat) (hF : ∀ f ∈ F, f.length = n)
    (hg : g.length = n) (s : Bool) (v : List K)
    (hc : Cert (F.map (fun f => (false, f)) ++ [(true, g)]) s v) :
    v.length = n ∧ ∃ (lam : List K) (mu : K), lam.length = F.length ∧ (∀ l ∈ lam, 0 ≤ l) ∧ 0 ≤ mu ∧
      (s = true ↔ 0 < mu) ∧
      ∀ y : List K, ldot v y = ldot lam (F.map (fun f => ldot f y)) + mu * ldot g y := by
  induction hc with
  | @mem s v hm =>
    rcases List.mem_append.mp hm with hm | hm
    · obtain ⟨f, hf, he⟩ := List.mem_map.mp hm
      simp only [Prod.mk.injEq] at he
      obtain ⟨rfl, rfl⟩ := he
      refine ⟨hF f hf, ?_⟩
      obtain ⟨j, hj, rfl⟩ := List.getElem_of_mem hf
      refine ⟨(List.replicate F.length 0).set j 1, 0, by simp, ?_, le_refl _, by simp, ?_⟩
      · intro l hl
        rcases List.mem_or_eq_of_mem_set hl with hl | hl
        · rw [List.eq_of_mem_replicate hl]
        · rw [hl]; exact zero_le_one
      · intro y
        rw [ldot_unit, if_pos hj]
        simp [List.getElem?_eq_getElem hj]
    · simp only [List.mem_singleton, Prod.mk.injEq] at hm
      obtain ⟨rfl, rfl⟩ := hm
      refine ⟨hg, List.replicate F.length 0, 1, by simp, ?_, zero_le_one, by simp, ?_⟩
      · intro l hl; rw [List.eq_of_mem_replicate hl]
      · intro y; rw [ldot_zero_replicate]; ring
  | @add s t v w _ _ ih1 ih2 =>
    obtain ⟨l1, lam1, mu1, a1, b1, c1, d1, e1⟩ := ih1
    obtain ⟨l2, lam2, mu2, a2, b2, c2, d2, e2⟩ := ih2
    refine ⟨by simp [l1, l2], List.zipWith (· + ·) lam1 lam2, mu1 + mu2, by simp [a1, a2], ?_,
      add_nonneg c1 c2, ?_, ?_⟩
    · intro l hl
      obtain ⟨i, hi, rfl⟩ := List.getElem_of_mem hl
      simp only [List.getElem_zipWith]
      exact add_nonneg (b1 _ (List.getElem_mem _)) (b2 _ (List.getElem_mem _))
    · simp only [Bool.or_eq_true, d1, d2]
      constructor
      · rintro (h | h) <;> linarith
      · intro h
        by_contra hh
        push Not at hh
        linarith
    · intro y
      rw [ldot_zipWith_add _ _ _ (by rw [l1, l2]), ldot_zipWith_add _ _ _ (by rw [a1, a2]), e1, e2]
      ring
  | @smul s v k hk _ ih =>
    obtain ⟨l1, lam1, mu1, a1, b1, c1, d1, e1⟩ := ih
    refine ⟨by simp [l1], lam1.map (k * ·), k * mu1, by simp [a1], ?_, mul_nonneg hk.le c1, ?_, ?_⟩
    · intro l hl
      obtain ⟨l', hl', rfl⟩ := List.mem_map.mp hl
      exact mul_nonneg hk.le (b1 l' hl')
    · rw [d1]; exact (mul_pos_iff_of_pos_left hk).symm
    · intro y
      rw [ldot_map_mul, ldot_map_mul, e1]; ring

theorem ldot_nonneg (a b : List K) (ha : ∀ l ∈ a, 0 ≤ l) (hb : ∀ l ∈ b, 0 ≤ l) : 0 ≤ ldot a b := by
  induction a generalizing b with
  | nil => simp
  | cons p ps ih => cases b with
    | nil => simp
    | cons q qs =>
      rw [ldot_cons]
      exact add_nonneg (mul_nonneg (ha p (by simp)) (hb q (by simp)))
        (ih qs (fun l hl => ha l (by simp [hl])) (fun l hl => hb l (by simp [hl])))

/-- Affine Farkas lemma over an ordered field: a form non-negative on a non-empty polyhedron is a
non-negative combination of the rows plus a non-negative constant. -/
theorem farkas_affine (n : Nat) (F : List (List K)) (phi : List K) (hF : ∀ f ∈ F, f.length = n + 1)
    (hphi : phi.length = n + 1)
    (hne : ∃ x : List K, x.length = n ∧ ∀ f ∈ F, 0 ≤ ldot f (x ++ [1]))
    (hpos : ∀ x : List K, x.length = n → (∀ f ∈ F, 0 ≤ ldot f (x ++ [1])) → 0 ≤ ldot phi (x ++ [1])) :
    ∃ (lam : List K) (l0 : K), lam.length = F.length ∧ (∀ l ∈ lam, 0 ≤ l) ∧ 0 ≤ l0 ∧
      ∀ y : List K, y.length = n + 1 →
        ldot phi y = ldot lam (F.map (fun f => ldot f y)) + l0 * y.getD n 0 := by
  let g := phi.map ((-1 : K) * ·)
  have hg : g.length = n + 1 := by simp [g, hphi]
  have hgd : ∀ y, ldot g y = - ldot phi y := by intro y; simp only [g]; rw [ldot_map_mul]; ring
  have hlen : ∀ r ∈ F.map (fun f => (false, f)) ++ [(true, g)], r.2.length = n + 1 := by
    intro r hr
    rcases List.mem_append.mp hr with hr | hr
    · obtain ⟨f, hf, rfl⟩ := List.mem_map.mp hr; exact hF f hf
    · simp at hr; subst hr; exact hg
  have hinf : ¬ ∃ x : List K, x.length = n ∧
      ∀ r ∈ F.map (fun f => (false, f)) ++ [(true, g)], MSat r (x ++ [1]) := by
    rintro ⟨x, hx, hs⟩
    have h1 : ∀ f ∈ F, 0 ≤ ldot f (x ++ [1]) := by
      intro f hf
      have := hs (false, f) (List.mem_append_left _ (List.mem_map.mpr ⟨f, hf, rfl⟩))
      simpa [MSat, ltOrLe] using this
    have h2 := hs (true, g) (by simp)
    simp only [MSat, ltOrLe, if_true, hgd] at h2
    have := hpos x hx h1
    linarith
  obtain ⟨s, c, hc, hh⟩ := infeasible_cert n _ hlen hinf
  obtain ⟨-, lam, mu, a1, b1, c1, d1, e1⟩ := cert_decomp F g (n + 1) hF hg s _ hc
  obtain ⟨x0, hx0, hs0⟩ := hne
  have lastval : ∀ y : List K, y.length = n + 1 →
      ldot (List.replicate n 0 ++ [c]) y = c * y.getD n 0 := by
    intro y hy
    have hyl : y = y.take n ++ [y.getD n 0] := by
      have hn : n < y.length := by omega
      conv_lhs => rw [← List.take_append_drop n y]
      congr 1
      rw [List.drop_eq_getElem_cons hn, List.drop_of_length_le (by omega)]
      simp [List.getD_eq_getElem?_getD, hn]
    rw [hyl, ldot_append _ _ _ _ (by simp [hy]), ldot_zero_replicate]
    simp [hy]
  have hmu : 0 < mu := by
    rcases c1.lt_or_eq with h | h
    · exact h
    · exfalso
      have hs : ¬ s = true := by rw [d1, ← h]; exact lt_irrefl _
      have hc0 : c < 0 := hh.resolve_right (fun h => hs h.1)
      have := e1 (x0 ++ [1])
      rw [lastval _ (by simp [hx0]), ← h, zero_mul, add_zero] at this
      have hn : 0 ≤ ldot lam (F.map (fun f => ldot f (x0 ++ [1]))) :=
        ldot_nonneg _ _ b1 (by
          intro l hl
          obtain ⟨f, hf, rfl⟩ := List.mem_map.mp hl
          exact hs0 f hf)
      rw [← this] at hn
      have e : (x0 ++ [1]).getD n 0 = (1 : K) := by
        simp [List.getD_eq_getElem?_getD, ← hx0]
      rw [e] at hn
      linarith
  refine ⟨lam.map (mu⁻¹ * ·), mu⁻¹ * (-c), by simp [a1], ?_, ?_, ?_⟩
  · intro l hl
    obtain ⟨l', hl', rfl⟩ := List.mem_map.mp hl
    exact mul_nonneg (inv_nonneg.mpr hmu.le) (b1 l' hl')
  · apply mul_nonneg (inv_nonneg.mpr hmu.le)
    rcases hh with h | h
    · linarith
    · linarith [h.2]
  · intro y hy
    have := e1 y
    rw [lastval y hy, hgd] at this
    rw [ldot_map_mul]
    have hmu' := hmu.ne'
    field_simp
    linarith

end Pluto
