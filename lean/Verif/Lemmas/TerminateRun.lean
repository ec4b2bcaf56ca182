import Verif.Lemmas.TerminateCut
import Verif.Spec.Terminate

/-! Every iteration of the main loop leaves less to do, switches to LAZY mode or comes back empty-handed. -/

namespace Pluto

section
variable {k : Prog} {L : Libs} {o : AutoOpts}

theorem rel_right_mem {α β : Type} {R : α → β → Prop} {l : List α} {l' : List β} (h : List.Forall₂ R l l') {b : β} (hb : b ∈ l') :
    ∃ a ∈ l, R a b := by
  obtain ⟨j, hj, rfl⟩ := List.getElem_of_mem hb
  have hf := List.forall₂_iff_get.mp h
  have hj' : j < l.length := by rw [hf.1]; exact hj
  exact ⟨l[j], List.getElem_mem hj', hf.2 j hj' hj⟩

theorem findPermutable_zero {so : SearchOpts} {eager : Bool} {n : Nat} {p p' : Prog} (h : findPermutable so L eager n p = some (p', 0)) :
    p' = p ∧ (1 ≤ n → findPermutable so L eager 1 p = some (p, 0)) := by
  unfold findPermutable at h ⊢
  split_ifs at h with h0
  · simp only [Option.some.injEq, Prod.mk.injEq] at h
    exact ⟨h.1.symm, fun h1 => by omega⟩
  · rw [if_neg (by omega)]
    obtain ⟨n, rfl⟩ : ∃ m, n = m + 1 := ⟨n - 1, by omega⟩
    simp only [findLoop] at h ⊢
    split_ifs at h ⊢ with hr
    · simp only [Option.pure_def, Option.some.injEq, Prod.mk.injEq] at h
      exact ⟨h.1.symm, fun _ => rfl⟩
    · rw [Option.bind_eq_bind, Option.bind_eq_some_iff] at h
      obtain ⟨r, h1, h⟩ := h
      rw [h1]
      cases r with
      | none =>
        simp only [Option.pure_def, Option.some.injEq, Prod.mk.injEq] at h
        exact ⟨h.1.symm, fun _ => rfl⟩
      | some sol =>
        simp only [Option.bind_eq_bind, Option.bind_eq_some_iff] at h
        obtain ⟨⟨p1, m1⟩, h2, h⟩ := h
        simp at h

theorem depsSatCheck_iff (p : Prog) : depsSatCheck p = true ↔ ∀ d ∈ p.deps, d.rar = false → d.satisfied = true := by
  unfold depsSatCheck
  simp only [List.all_eq_true, Bool.or_eq_true]
  refine forall_congr' fun d => forall_congr' fun _ => ?_
  cases d.rar <;> simp

theorem left_pos {l : List Nat} {n : Nat} (hm : n ∈ l) (hn : 1 ≤ n) : 1 ≤ l.foldl max 0 := by
  have : ∀ (l : List Nat) (b : Nat), b ≤ l.foldl max b ∧ ∀ x ∈ l, x ≤ l.foldl max b := by
    intro l
    induction l with
    | nil => intro b; simp
    | cons y l ih =>
      intro b
      simp only [List.foldl_cons, List.mem_cons, forall_eq_or_imp]
      obtain ⟨h1, h2⟩ := ih (max b y)
      exact ⟨by omega, by omega, h2⟩
  have := (this l 0).2 n hm
  omega

theorem not_full_needs (hk : SkelOK k) {p : Prog} (hi : Inv True k p) (h : fullRanked p = false) : ∃ st ∈ p.stmts, NeedsLoops st := by
  unfold fullRanked at h
  rw [List.all_eq_false] at h
  obtain ⟨st, hst, h⟩ := h
  refine ⟨st, hst, (C37_needs p (inv_padded hk hi) st hst).mp ?_⟩
  simpa using h

theorem autoStep_lt (hE : EmptyOracle L.isEmpty) (hL : FeasibleOracle L.solve) (hK : KernelOracle L.kernel) (hk : SkelOK k) (hal : Alive k)
    {req : Nat} {s s' : LoopState} (hi : AInv True k s.a) (hf : FlatScalar s.a.p)
    (h : autoStep o L noDiamond req s = some (.go s')) (hgo : fullRanked s'.a.p = false ∨ depsSatCheck s'.a.p = false) :
    AInv True k s'.a ∧ FlatScalar s'.a.p ∧ (s.eager = false → s'.eager = false) ∧
      (todo s'.a.p < todo s.a.p ∨ (s.eager = true ∧ s'.eager = false ∧ todo s'.a.p ≤ todo s.a.p) ∨ EmptyHanded o L s) := by
  have hall := autoStep_spec hE hL hk (noDiamond_ok k hk) hi h
  have hkeep := autoStep_keeps hE hL hk (todo_moves hE hk hal (todo s.a.p)) (fun h => h.elim) hi ⟨hf, Nat.le_refl _⟩ (fun _ => trivial) h
  refine ⟨hall.1 s' rfl, hkeep.1, ?_⟩
  have hkeep2 := hkeep.2
  unfold autoStep at h
  rw [Option.bind_eq_bind, Option.bind_eq_some_iff] at h
  obtain ⟨a, h1, h⟩ := h
  have ha := noFuseCut_spec hE hk hi h1
  have hI1 := noFuseCut_keeps hE hk (todo_moves hE hk hal (todo s.a.p)) hi ⟨hf, Nat.le_refl _⟩ h1
  simp only at h
  split_ifs at h
  rw [Option.bind_eq_bind, Option.bind_eq_some_iff] at h
  obtain ⟨⟨p, n⟩, h2, h⟩ := h
  obtain ⟨i1, i2, i3, i4⟩ := findPermutable_spec o.toSearchOpts L hL hk s.eager _ p n ha.inv h2
  have hI2 := findPermutable_keeps o.toSearchOpts hL hk (todo_moves hE hk hal (todo s.a.p)) s.eager (fun h => h.elim) _ n ha.inv hI1 h2
  have hp := ha.sameDeps hk i1 i2
  have hend : ∀ {x y : LoopState}, endStep L x = some y → y.eager = x.eager := by
    intro x y hxy
    unfold endStep at hxy
    rw [Option.bind_eq_bind, Option.bind_eq_some_iff] at hxy
    obtain ⟨_, _, hxy⟩ := hxy
    simp only [Option.pure_def, Option.some.injEq] at hxy
    rw [← hxy]
  simp only at h
  split_ifs at h with hn
  · have hnl : n ≤ p.hProps.length := by rw [i3]; omega
    have he : True → Early p (p.hProps.length - n) := by
      rw [i3, Nat.add_sub_cancel]; exact i4
    rw [Option.bind_eq_bind, Option.bind_eq_some_iff] at h
    obtain ⟨s1, h3, h⟩ := h
    rw [Option.bind_eq_some_iff] at h
    obtain ⟨s2, h4, h⟩ := h
    simp only [Option.pure_def, Option.some.injEq, StepRes.go.injEq] at h
    subst h
    have i5 := foundStep_spec hE hk (noDiamond_ok k hk) i1 hp.gn hn hnl he h3
    obtain ⟨t1, t2⟩ := findPermutable_lt o.toSearchOpts hE hL hK hk hal s.eager _ a.p p n ha.inv hI1.1 h2 hn
    have hM := todo_moves hE hk hal (todo a.p - 1)
    have := (endStep_keeps hM i5.inv (foundStep_keeps hE hk hM i1 t1 h3) (fun _ => trivial) h4).2
    have hle := hI1.2
    have e1 : s1.eager = s.eager := by
      unfold foundStep at h3
      simp only [Option.bind_eq_bind, Option.bind_eq_some_iff] at h3
      obtain ⟨x, hx, m, _, h3⟩ := h3
      split_ifs at h3
      rw [Option.bind_eq_some_iff] at h3
      obtain ⟨y, _, h3⟩ := h3
      simp only [Option.pure_def, Option.some.injEq] at h3
      rw [← h3]
      show x.eager = s.eager
      unfold diaStep at hx
      split_ifs at hx
      · rw [Option.bind_eq_bind, Option.bind_eq_some_iff] at hx
        obtain ⟨z, _, hx⟩ := hx
        simp only [Option.pure_def, Option.some.injEq] at hx
        rw [← hx]
      · simp only [Option.some.injEq] at hx
        rw [← hx]
    refine ⟨fun hs => by rw [hend h4, e1, hs], .inl (by omega)⟩
  · have hn0 : n = 0 := by omega
    subst hn0
    obtain ⟨e0, hone⟩ := findPermutable_zero h2
    subst e0
    rw [Option.bind_eq_bind, Option.bind_eq_some_iff] at h
    obtain ⟨r1, h3, h⟩ := h
    cases r1 with
    | fail s1 => simp at h
    | go s1 =>
      have hr := noneStep_spec hE hk hp h3
      simp only [Option.bind_eq_bind, Option.bind_eq_some_iff] at h
      obtain ⟨s2, h4, h⟩ := h
      simp only [Option.pure_def, Option.some.injEq, StepRes.go.injEq] at h
      subst h
      unfold noneStep at h3
      rw [Option.bind_eq_bind, Option.bind_eq_some_iff] at h3
      obtain ⟨b, g1, h3⟩ := h3
      have hc := computeScc_spec hp g1
      have hbp : b.p = a.p := (scc_facts g1).1
      simp only at h3
      split_ifs at h3 with hu hea hsat
      · rw [Option.bind_eq_some_iff] at h3
        obtain ⟨b', g2, h3⟩ := h3
        simp only [Option.pure_def, Option.some.injEq, StepRes.go.injEq] at h3
        have hlt := fuseCut_lt hE hk hal hc (by rw [hbp]; exact hI1.1) hu g2
        have hM := todo_moves hE hk hal (todo b'.p)
        have hkb := fuseCut_keeps hE hk (todo_moves hE hk hal (todo b.p)) hc ⟨by rw [hbp]; exact hI1.1, Nat.le_refl _⟩ g2
        have hp1 : s1.a.p = b'.p := by rw [← h3]
        have := (endStep_keeps hM (hr.1 s1 rfl).inv (by rw [hp1]; exact ⟨hkb.1, Nat.le_refl _⟩) (fun _ => trivial) h4).2
        have hle := hI1.2
        rw [hbp] at hlt
        refine ⟨fun hs => by rw [hend h4, ← h3]; exact hs, .inl (by omega)⟩
      · simp only [Option.pure_def, Option.some.injEq, StepRes.go.injEq] at h3
        have e1 : s2.eager = false := by rw [hend h4, ← h3]
        exact ⟨fun _ => e1, .inr (.inl ⟨hea, e1, hkeep2⟩)⟩
      · simp at h3
      · simp only [Option.pure_def, Option.some.injEq, StepRes.go.injEq] at h3
        have hea' : s.eager = false := by simpa using hea
        have hsat' : depsSatCheck a.p = true := by rw [← hbp]; simpa using hsat
        have e1 : s2.eager = false := by rw [hend h4, ← h3]; exact hea'
        refine ⟨fun _ => e1, .inr (.inr ⟨hea', a, h1, (depsSatCheck_iff _).mp hsat', ?_⟩)⟩
        have hs1p : s1.a.p = a.p := by rw [← h3]; exact hbp
        have hs1e : s1.eager = false := by rw [← h3]; exact hea'
        have hneed : ∃ st ∈ a.p.stmts, NeedsLoops st := by
          unfold endStep at h4
          rw [Option.bind_eq_bind, Option.bind_eq_some_iff] at h4
          obtain ⟨q, h5, h4⟩ := h4
          simp only [Option.pure_def, Option.some.injEq] at h4
          have hq : s2.a.p = q := by rw [← h4]
          rw [hq] at hgo
          unfold preciseIfLazy at h5
          rw [if_neg (by rw [hs1e]; simp)] at h5
          obtain ⟨⟨q', m⟩, h6, h7⟩ := Option.map_eq_some_iff.mp h5
          simp only at h7
          subst h7
          rw [hs1p] at h6
          obtain ⟨j1, j2, j3⟩ := ha.inv.precise hE hk h6
          have hqs : depsSatCheck q' = true := by
            rw [depsSatCheck_iff]
            have hst := (j3 trivial).strong hk hal ha.inv.sk
            rw [depsSatCheck_iff] at hsat'
            intro d' hd' hr'
            obtain ⟨d, hd, e1, e2⟩ := rel_right_mem hst hd'
            exact e2 (by rw [← e1]; exact hr') (hsat' d hd (by rw [← e1]; exact hr'))
          have hfr : fullRanked q' = false := by
            rcases hgo with hgo | hgo
            · exact hgo
            · rw [hqs] at hgo; cases hgo
          obtain ⟨st, hst, hx⟩ := not_full_needs hk j1 hfr
          refine ⟨st, ?_, hx⟩
          rw [j2] at hst
          exact hst
        refine ⟨hneed, ?_⟩
        rw [hea'] at hone
        apply hone
        obtain ⟨st, hst, hx⟩ := hneed
        refine left_pos (List.mem_map_of_mem hst) ?_
        have := (C37_needs a.p (inv_padded hk ha.inv) st hst).mpr hx
        omega

/-- More iterations than things to do (and one more for the switch to LAZY mode). -/
theorem autoLoop_ends (hE : EmptyOracle L.isEmpty) (hL : FeasibleOracle L.solve) (hK : KernelOracle L.kernel) (hk : SkelOK k) (hal : Alive k)
    {req : Nat} : ∀ (fuel : Nat) (s : LoopState), AInv True k s.a → FlatScalar s.a.p →
      todo s.a.p + (if s.eager then 1 else 0) < fuel → (∀ n s', Iterates o L req n s s' → ¬ EmptyHanded o L s') →
      autoLoop o L noDiamond req fuel s ≠ some none := by
  intro fuel
  induction fuel with
  | zero => intro s _ _ h; omega
  | succ fuel ih =>
    intro s hi hf hlt hne h
    simp only [autoLoop, Option.bind_eq_bind, Option.bind_eq_some_iff] at h
    obtain ⟨r1, h1, h⟩ := h
    cases r1 with
    | fail s1 => simp at h
    | go s1 =>
      simp only at h
      split_ifs at h with hc
      · obtain ⟨b1, b2, b3, b4⟩ := autoStep_lt hE hL hK hk hal hi hf h1 hc
        refine ih s1 b1 b2 ?_ (fun n s' hit => hne (n + 1) s' ⟨s1, h1, hc, hit⟩) h
        rcases b4 with b4 | ⟨c1, c2, c3⟩ | b4
        · cases hse : s.eager with
          | true =>
            rw [hse] at hlt
            simp only [if_true] at hlt
            split_ifs <;> omega
          | false =>
            rw [hse] at hlt
            rw [b3 hse]
            simp only [Bool.false_eq_true, if_false] at hlt ⊢
            omega
        · rw [c1] at hlt
          rw [c2]
          simp only [if_true] at hlt
          simp only [Bool.false_eq_true, if_false]
          omega
        · exact absurd b4 (hne 0 s rfl)
      · simp at h

end

/-! ### The start -/

theorem sum_range_getD {α : Type} (f : α → Nat) : ∀ l : List α, ∑ i ∈ Finset.range l.length, (l[i]?.map f).getD 0 = (l.map f).sum := by
  intro l
  induction l with
  | nil => simp
  | cons x l ih =>
    rw [List.length_cons, Finset.sum_range_succ']
    simp only [List.getElem?_cons_succ, List.getElem?_cons_zero, Option.map_some, Option.getD_some, List.map_cons, List.sum_cons]
    rw [ih]
    omega

theorem countP_rel {α : Type} {R : α → α → Prop} {P Q : α → Bool} (hR : ∀ a b, R a b → Q b = true → P a = true) {l l' : List α}
    (h : List.Forall₂ R l l') : l'.countP Q ≤ l.countP P := by
  induction h with
  | nil => simp
  | @cons a b l l' hab _ ih =>
    rw [List.countP_cons, List.countP_cons]
    have := hR a b hab
    split_ifs with h1 h2 h2
    · omega
    · exact absurd (this h1) h2
    · omega
    · omega

theorem start_todo {p0 p : Prog} (hp : p0.InputOK) (h : PadRel p0 (fun _ => p0.nvar) p) (hf : Fresh (fun _ => p0.nvar) p) :
    todo p ≤ p0.loopsAndDeps := by
  unfold todo Prog.loopsAndDeps
  refine Nat.add_le_add ?_ ?_
  · rw [← sum_range_getD, h.len]
    refine Finset.sum_le_sum (fun i hi => ?_)
    have hi := Finset.mem_range.mp hi
    obtain ⟨st, h1, h2⟩ := h.get (List.getElem?_eq_getElem hi)
    unfold gapAt
    rw [h1, List.getElem?_eq_getElem hi]
    simp only [Option.map_some, Option.getD_some]
    unfold gap
    rw [h2.orig, (hp.stmts _ (List.getElem_mem hi)).1]
    omega
  · refine countP_rel ?_ h.deps
    intro a b hab hb
    simp only [Bool.and_eq_true] at hb
    rw [← hab.rar]
    exact hb.1

theorem start_alive {p0 p : Prog} (hp : p0.InputOK) (hne : ∀ d ∈ p0.deps, d.rar = false → ∃ s t q, p0.Inst d s t q)
    (h : PadRel p0 (fun _ => p0.nvar) p) : Alive (skel p) := by
  intro d hd hr
  obtain ⟨d1, hd1, rfl⟩ := List.mem_map.mp hd
  obtain ⟨d0, hd0, hpd⟩ := rel_right_mem h.deps hd1
  obtain ⟨s, t, q, e1, e2, e3, e4⟩ := hne d0 hd0 (by rw [← hpd.rar]; exact hr)
  obtain ⟨b1, b2, b3, _⟩ := hp.deps d0 hd0
  have hge1 := h.ge b1
  have hge2 := h.ge b2
  refine ⟨s ++ zrow (p0.nvar - p0.dim d0.src), t ++ zrow (p0.nvar - p0.dim d0.dest), q, ?_, ?_, ?_, ?_⟩
  · show _ = p.nvar
    rw [h.nvar, List.length_append, zrow_length, e1]; omega
  · show _ = p.nvar
    rw [h.nvar, List.length_append, zrow_length, e2]; omega
  · show _ = p.npar
    rw [h.npar]; exact e3
  · show d1.dpoly.Sat _
    rw [hpd.poly]
    refine (sat_padCst e1 e2 ?_).mpr e4
    intro r hr
    rw [b3.1.2 r hr, b3.2]
    omega

end Pluto
