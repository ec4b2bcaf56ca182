import Verif.Props.SkewDims

/-! C57: levels are skewed from the outside in, each once. -/

namespace Pluto

theorem apply_quiet {isEmpty : Cst → Bool} {cc : Nat → Int} {c : Int} {k level : Nat} {src : List Bool} {sol : List Int} {s s' : Skew}
    (hp : solParallel sol s.a.p.npar = false) (h : s.apply isEmpty cc c k level src sol = some s') :
    s'.a.p.stmts = (setLevel s.a.p level sol).stmts ∧ s'.a.p.hProps = s.a.p.hProps := by
  unfold Skew.apply at h
  simp only at h
  rw [if_neg (by rw [show (setLevel s.a.p level sol).npar = s.a.p.npar from rfl, hp]; simp)] at h
  simp only [Option.bind_eq_bind, Option.bind_some, Option.bind_eq_some_iff, Option.pure_def, Option.some.injEq] at h
  obtain ⟨⟨p1, n⟩, h1, p2, h2, rfl⟩ := h
  unfold depSatUpdate at h1
  simp only [Option.bind_eq_bind, Option.bind_eq_some_iff, Option.pure_def, Option.some.injEq, Prod.mk.injEq] at h1
  obtain ⟨ds, -, rfl, -⟩ := h1
  unfold computeDepDirections at h2
  simp only [Option.bind_eq_bind, Option.bind_eq_some_iff, Option.pure_def, Option.some.injEq] at h2
  obtain ⟨ds', -, rfl⟩ := h2
  exact ⟨rfl, rfl⟩

theorem setLevel_get {p : Prog} {level : Nat} {sol : List Int} {i : Nat} {st : Stmt} (h : p.stmts[i]? = some st) :
    ∃ st', (setLevel p level sol).stmts[i]? = some st' ∧ st'.trans = st.trans.set level (hyperplaneRow p.nvar p.npar sol i) := by
  unfold setLevel
  simp only [List.getElem?_mapIdx, h, Option.map_some]
  exact ⟨_, rfl, rfl⟩

/-- No loop outside level `n` is marked. -/
def NoMarks (hProps : List HypType) (skew : List Bool) (n : Nat) : Prop :=
  ∀ l < n, hProps[l]? = some .loop → skew.getD ((hProps.take l).countP (fun h => decide (h = .loop))) false = false

theorem count_skew_lt (hs : List HypType) {l l' : Nat} (h : l < l') (hl : hs[l]? = some .loop) :
    (hs.take l).countP (fun h => decide (h = .loop)) < (hs.take l').countP (fun h => decide (h = .loop)) := by
  have e : (hs.take (l + 1)).countP (fun h => decide (h = HypType.loop)) = (hs.take l).countP (fun h => decide (h = .loop)) + 1 := by
    rw [List.take_succ, List.countP_append, hl]
    simp
  have : (hs.take (l + 1)).countP (fun h => decide (h = HypType.loop)) ≤ (hs.take l').countP (fun h => decide (h = .loop)) :=
    List.Sublist.countP_le (List.IsPrefix.sublist (List.take_prefix_take_left (by omega)))
  omega

theorem skewDims_noMarks {rar : Bool} {a : Auto} {k level : Nat} {tpd dims tpd' : List Bool}
    (ht : ∀ h ∈ a.p.hProps, h = .loop ∨ h = .scalar) (h : skewDims rar a k level tpd = some (dims, tpd')) : NoMarks a.p.hProps dims level := by
  intro l hl hloop
  rw [Bool.eq_false_iff]
  intro hm
  obtain ⟨d, -, -, l2, ⟨h2, e2, ns, ge, -⟩, -, e⟩ := ((C57_skew_dims rar a k level tpd dims tpd' h).2.2.1 _).mp hm
  have hh : h2 = .loop := (ht h2 (List.mem_of_getElem? e2)).resolve_right ns
  have hcount : loopsOutside a.p.hProps l2 = (a.p.hProps.take l2).countP (fun h => decide (h = .loop)) := by
    unfold loopsOutside
    refine List.countP_congr fun x hx => ?_
    rcases ht x (List.mem_of_mem_take hx) with rfl | rfl <;> simp
  have := count_skew_lt a.p.hProps (l' := l2) (by have := ge hh; omega) hloop
  omega

/-- Levels outside `n` are kept while only loops from level `n` on are marked, if no row found is parallel (so that no rows are exchanged). -/
theorem skewLevels_kept {o : SearchOpts} {L : Libs} {lex : Lex} {cc : Nat → Int} {c : Int} {perm : Cst} {k : Nat}
    (hq : ∀ a cst sol, lex a cst = some (some sol) → solParallel sol a.p.npar = false) (f : Nat) :
    ∀ (n level : Nat) (skew src : List Bool) (s s' : Skew), (∀ h ∈ s.a.p.hProps, h = .loop ∨ h = .scalar) → NoMarks s.a.p.hProps skew n →
      skewLevels o L lex cc c perm k f level skew src s = some s' →
      s'.a.p.stmts.length = s.a.p.stmts.length ∧ ∀ (i : Nat) (st : Stmt), s.a.p.stmts[i]? = some st → ∃ st', s'.a.p.stmts[i]? = some st' ∧
        ∀ l < n, st'.trans[l]? = st.trans[l]? := by
  induction f with
  | zero =>
    intro n level skew src s s' _ _ h
    simp only [skewLevels, Option.some.injEq] at h
    subst h
    exact ⟨rfl, fun i st hst => ⟨st, hst, fun _ _ => rfl⟩⟩
  | succ f ih =>
    intro n level skew src s s' ht hm h
    have same : some s = some s' → s'.a.p.stmts.length = s.a.p.stmts.length ∧ ∀ (i : Nat) (st : Stmt), s.a.p.stmts[i]? = some st →
        ∃ st', s'.a.p.stmts[i]? = some st' ∧ ∀ l < n, st'.trans[l]? = st.trans[l]? := by
      intro h
      simp only [Option.some.injEq] at h
      subst h
      exact ⟨rfl, fun i st hst => ⟨st, hst, fun _ _ => rfl⟩⟩
    unfold skewLevels at h
    split_ifs at h
    · exact same h
    · exact ih _ _ _ _ _ _ ht hm h
    · split at h
      · exact same h
      · rename_i l hl
        obtain ⟨h1, h2, -⟩ := (C57_next_level _ _ _).mp hl
        have hnl : n ≤ l := by
          by_contra hlt
          rw [hm l (by omega) h1] at h2
          cases h2
        simp only [Option.bind_eq_bind] at h
        obtain ⟨cst, -, h⟩ := Option.bind_eq_some_iff.mp h
        obtain ⟨r, hr, h⟩ := Option.bind_eq_some_iff.mp h
        split at h
        · exact same h
        · rename_i sol
          obtain ⟨s1, hs1, h⟩ := Option.bind_eq_some_iff.mp h
          obtain ⟨e1, e2⟩ := apply_quiet (hq _ _ _ hr) hs1
          have keep : s1.a.p.stmts.length = s.a.p.stmts.length ∧ ∀ (i : Nat) (st : Stmt), s.a.p.stmts[i]? = some st →
              ∃ st', s1.a.p.stmts[i]? = some st' ∧ ∀ l < n, st'.trans[l]? = st.trans[l]? := by
            rw [e1]
            refine ⟨by simp [setLevel], fun i st hst => ?_⟩
            obtain ⟨st', q1, q2⟩ := setLevel_get (level := l) (sol := sol) hst
            exact ⟨st', q1, fun l' hl' => by rw [q2]; exact List.getElem?_set_ne (by omega)⟩
          split_ifs at h
          · simp only [Option.some.injEq] at h
            subst h
            exact keep
          · obtain ⟨⟨skew', tpd'⟩, hd, h⟩ := Option.bind_eq_some_iff.mp h
            obtain ⟨src', -, h⟩ := Option.bind_eq_some_iff.mp h
            have ht1 : ∀ h ∈ s1.a.p.hProps, h = .loop ∨ h = .scalar := by rw [e2]; exact ht
            have hm1 := skewDims_noMarks ht1 hd
            obtain ⟨k1, k2⟩ := ih n (l + 1) skew' src' { s1 with tpd := tpd' } s' ht1 (fun l' hl' => hm1 l' (by omega)) h
            refine ⟨k1.trans keep.1, fun i st hst => ?_⟩
            obtain ⟨st1, g1, g2⟩ := keep.2 i st hst
            obtain ⟨st2, g3, g4⟩ := k2 i st1 g1
            exact ⟨st2, g3, fun l' hl' => (g4 l' hl').trans (g2 l' hl')⟩

/-- C57. Levels are skewed from the outside in, each once: whatever further levels are skewed, the level skewed first has in the end the row
found for it, and the levels outside it are as before. (If no row found is parallel; otherwise rows are exchanged, C57_exchange.) -/
theorem C57_set_once (o : SearchOpts) (L : Libs) (lex : Lex) (cc : Nat → Int) (c : Int) (perm : Cst) (k f level : Nat)
    (hq : ∀ a cst sol, lex a cst = some (some sol) → solParallel sol a.p.npar = false)
    (skew src : List Bool) (s s' : Skew) (ht : ∀ h ∈ s.a.p.hProps, h = .loop ∨ h = .scalar)
    (hlev : s.a.p.hProps[level]? = some .loop) (l : Nat) (hl : nextSkewLevel skew s.a.p.hProps 0 0 = some l)
    (cst : Cst) (hcst : skewCst s.a src skew k l perm = some cst) (sol : List Int) (hsol : lex s.a cst = some (some sol))
    (h : skewLevels o L lex cc c perm k (f + 1) level skew src s = some s') (i : Nat) (st : Stmt) (hst : s.a.p.stmts[i]? = some st)
    (hrow : l < st.trans.length) :
    ∃ st', s'.a.p.stmts[i]? = some st' ∧ st'.trans[l]? = some (hyperplaneRow s.a.p.nvar s.a.p.npar sol i) ∧
      ∀ j < l, st'.trans[j]? = st.trans[j]? := by
  unfold skewLevels at h
  rw [if_neg (by have := (List.getElem?_eq_some_iff.mp hlev).1; omega), if_neg (by rw [hlev]; simp)] at h
  simp only [hl, hcst, hsol, Option.bind_eq_bind, Option.bind_some] at h
  obtain ⟨s1, hs1, h⟩ := Option.bind_eq_some_iff.mp h
  obtain ⟨e1, e2⟩ := apply_quiet (hq _ _ _ hsol) hs1
  obtain ⟨st1, g1, g2, g3⟩ : ∃ st1, s1.a.p.stmts[i]? = some st1 ∧ st1.trans[l]? = some (hyperplaneRow s.a.p.nvar s.a.p.npar sol i) ∧
      ∀ j < l, st1.trans[j]? = st.trans[j]? := by
    rw [e1]
    obtain ⟨st', q1, q2⟩ := setLevel_get (level := l) (sol := sol) hst
    exact ⟨st', q1, by rw [q2]; exact List.getElem?_set_self hrow, fun j hj => by rw [q2]; exact List.getElem?_set_ne (by omega)⟩
  split_ifs at h
  · simp only [Option.some.injEq] at h
    subst h
    exact ⟨st1, g1, g2, g3⟩
  · obtain ⟨⟨skew', tpd'⟩, hd, h⟩ := Option.bind_eq_some_iff.mp h
    obtain ⟨src', -, h⟩ := Option.bind_eq_some_iff.mp h
    have ht1 : ∀ h ∈ s1.a.p.hProps, h = .loop ∨ h = .scalar := by rw [e2]; exact ht
    obtain ⟨-, k2⟩ := skewLevels_kept hq f (l + 1) (l + 1) skew' src' { s1 with tpd := tpd' } s' ht1 (skewDims_noMarks ht1 hd) h
    obtain ⟨st2, g4, g5⟩ := k2 i st1 g1
    exact ⟨st2, g4, (g5 l (by omega)).trans g2, fun j hj => (g5 j (by omega)).trans (g3 j hj)⟩

/-- The run of the example in Props/SkewDims.lean meets the hypotheses. -/
example : nextSkewLevel [false, true, false] (skewAuto exDeepSkew).p.hProps 0 0 = some 1 ∧
    (∀ h ∈ (skewAuto exDeepSkew).p.hProps, h = .loop ∨ h = .scalar) ∧ solParallel [1, 1, 5, 7, 0] 0 = false ∧
    ∃ cst, skewCst (skewAuto exDeepSkew) [true, false, false] [false, true, false] 0 1 ⟨6, []⟩ = some cst := by
  refine ⟨by decide, by decide, by decide, _, rfl⟩

end Pluto
