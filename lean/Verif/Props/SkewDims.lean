import Verif.Spec.SkewDims
import Verif.Props.Skew

/-! C57: which loops `introduce_skew` chooses. Definitions: Verif/Spec/SkewDims.lean. -/

namespace Pluto

theorem negComponent_iff (dirvec : List Dir) (level : Nat) : ∀ (hs : List HypType) (i n m : Nat),
    negComponent dirvec level hs i n = some m ↔
      ∃ l h, hs[l]? = some h ∧ h ≠ .scalar ∧ (h = .loop → level ≤ i + l) ∧ (dirvec[i + l]? = some .minus ∨ dirvec[i + l]? = some .star) ∧
        (∀ l' < l, ∀ h', hs[l']? = some h' → h' ≠ .scalar → (h' = .loop → level ≤ i + l') →
          ¬ (dirvec[i + l']? = some .minus ∨ dirvec[i + l']? = some .star)) ∧
        m = n + (hs.take l).countP (fun h => decide (h ≠ .scalar)) := by
  intro hs
  induction hs with
  | nil => intro i n m; simp [negComponent]
  | cons h hs ih =>
    intro i n m
    have key : ∀ c : Nat, c = (if h = .scalar then 0 else 1) →
        (h ≠ .scalar → (h = .loop → level ≤ i) → ¬ (dirvec[i]? = some .minus ∨ dirvec[i]? = some .star)) →
        (negComponent dirvec level hs (i + 1) (n + c) = some m ↔
          ∃ l h', (h :: hs)[l]? = some h' ∧ h' ≠ .scalar ∧ (h' = .loop → level ≤ i + l) ∧ (dirvec[i + l]? = some .minus ∨ dirvec[i + l]? = some .star) ∧
          (∀ l' < l, ∀ h'', (h :: hs)[l']? = some h'' → h'' ≠ .scalar → (h'' = .loop → level ≤ i + l') →
            ¬ (dirvec[i + l']? = some .minus ∨ dirvec[i + l']? = some .star)) ∧
          m = n + ((h :: hs).take l).countP (fun h => decide (h ≠ .scalar))) := by
      intro c hc hno
      rw [ih]
      constructor
      · rintro ⟨l, h', a1, a2, a3, a4, a5, a6⟩
        refine ⟨l + 1, h', by simpa using a1, a2, fun e => by have := a3 e; omega, by rw [show i + (l + 1) = i + 1 + l by omega]; exact a4, ?_, ?_⟩
        · intro l' hl' h'' b1 b2 b3
          cases l' with
          | zero =>
            simp only [List.getElem?_cons_zero, Option.some.injEq] at b1
            subst b1
            simpa using hno b2 (fun e => by simpa using b3 e)
          | succ l' =>
            rw [show i + (l' + 1) = i + 1 + l' by omega]
            exact a5 l' (by omega) h'' (by simpa using b1) b2 (fun e => by have := b3 e; omega)
        · rw [List.take_succ_cons, List.countP_cons, a6, hc]
          split_ifs <;> simp_all <;> omega
      · rintro ⟨l, h', a1, a2, a3, a4, a5, a6⟩
        cases l with
        | zero =>
          simp only [List.getElem?_cons_zero, Option.some.injEq] at a1
          subst a1
          exact absurd a4 (by simpa using hno a2 (fun e => by simpa using a3 e))
        | succ l =>
          refine ⟨l, h', by simpa using a1, a2, fun e => by have := a3 e; omega, by rw [show i + 1 + l = i + (l + 1) by omega]; exact a4, ?_, ?_⟩
          · intro l' hl' h'' b1 b2 b3
            rw [show i + 1 + l' = i + (l' + 1) by omega]
            exact a5 (l' + 1) (by omega) h'' (by simpa using b1) b2 (fun e => by have := b3 e; omega)
          · rw [List.take_succ_cons, List.countP_cons] at a6
            rw [a6, hc]
            split_ifs <;> simp_all <;> omega
    unfold negComponent
    by_cases h1 : h = .scalar
    · rw [if_pos h1]
      have := key 0 (by rw [if_pos h1]) (fun e => absurd h1 e)
      simpa using this
    · rw [if_neg h1]
      by_cases h2 : h = .loop ∧ i < level
      · rw [if_pos h2]
        exact key 1 (by rw [if_neg h1]) (fun _ e => by have := e h2.1; omega)
      · rw [if_neg h2]
        by_cases h3 : dirvec[i]? = some .minus ∨ dirvec[i]? = some .star
        · rw [if_pos h3, Option.some.injEq]
          constructor
          · rintro rfl
            refine ⟨0, h, rfl, h1, fun e => ?_, by simpa using h3, by simp, by simp⟩
            by_contra hc
            exact h2 ⟨e, by omega⟩
          · rintro ⟨l, h', a1, a2, a3, a4, a5, a6⟩
            cases l with
            | zero => simpa using a6.symm
            | succ l =>
              exfalso
              refine a5 0 (by omega) h rfl h1 (fun e => ?_) (by simpa using h3)
              by_contra hc
              exact h2 ⟨e, by omega⟩
        · rw [if_neg h3]
          exact key 1 (by rw [if_neg h1]) (fun _ _ => h3)

/-- C57. The loop found for a dependence is the first one of the band at which its direction may be negative. -/
theorem C57_negative (dirvec : List Dir) (level : Nat) (hProps : List HypType) (n : Nat) :
    negComponent dirvec level hProps 0 0 = some n ↔ FirstNegative hProps dirvec level n := by
  rw [negComponent_iff]
  simp only [Nat.zero_add]
  constructor
  · rintro ⟨l, h, a1, a2, a3, a4, a5, a6⟩
    exact ⟨l, ⟨h, a1, a2, a3, a4⟩, fun l' hl' ⟨h', b1, b2, b3, b4⟩ => a5 l' hl' h' b1 b2 b3 b4, a6⟩
  · rintro ⟨l, ⟨h, a1, a2, a3, a4⟩, a5, a6⟩
    exact ⟨l, h, a1, a2, a3, a4, fun l' hl' h' b1 b2 b3 b4 => a5 l' hl' ⟨h', b1, b2, b3, b4⟩, a6⟩

theorem setTrue_some {a b : List Bool} {n : Nat} (h : setTrue a n = some b) :
    b.length = a.length ∧ n < a.length ∧ ∀ m, b.getD m false = true ↔ a.getD m false = true ∨ m = n := by
  unfold setTrue at h
  split_ifs at h with hn
  cases h
  refine ⟨by simp, hn, fun m => ?_⟩
  rw [List.getD_eq_getElem?_getD, List.getElem?_set, List.getD_eq_getElem?_getD]
  by_cases e : n = m
  · subst e; simp [hn]
  · rw [if_neg e]
    simp [Ne.symm e]

theorem or_take {A B C D : Prop} (h : C ↔ D) : (A ∨ C) ∨ B ↔ A ∨ D ∨ B := by rw [h, or_assoc]

theorem or_skip {A B D : Prop} (h : ¬ D) : A ∨ B ↔ A ∨ D ∨ B := by rw [or_iff_right h]

theorem skewDims_fold (rar : Bool) (a : Auto) (k level : Nat) : ∀ (l : List (Dep × Nat)) (s t : List Bool × List Bool),
    l.foldlM (skewDimsStep rar a k level) s = some t →
    t.1.length = s.1.length ∧ t.2.length = s.2.length ∧
    (∀ m, t.1.getD m false = true ↔ s.1.getD m false = true ∨
      ∃ x ∈ l, LooksAt rar a.scc k x.1 ∧ FirstNegative a.p.hProps x.1.dirvec level m) ∧
    (∀ i, t.2.getD i false = true ↔ s.2.getD i false = true ∨
      ∃ x ∈ l, x.2 = i ∧ LooksAt rar a.scc k x.1 ∧ ∃ m, FirstNegative a.p.hProps x.1.dirvec level m) := by
  intro l
  induction l with
  | nil =>
    intro s t h
    simp only [List.foldlM_nil, Option.pure_def, Option.some.injEq] at h
    subst h
    simp
  | cons x l ih =>
    intro s t h
    rw [List.foldlM_cons] at h
    obtain ⟨s', h1, h2⟩ := Option.bind_eq_some_iff.mp h
    obtain ⟨i1, i2, i3, i4⟩ := ih s' t h2
    have skip : s' = s → (∀ m, ¬ (LooksAt rar a.scc k x.1 ∧ FirstNegative a.p.hProps x.1.dirvec level m)) →
        t.1.length = s.1.length ∧ t.2.length = s.2.length ∧
        (∀ m, t.1.getD m false = true ↔ s.1.getD m false = true ∨
          ∃ y ∈ x :: l, LooksAt rar a.scc k y.1 ∧ FirstNegative a.p.hProps y.1.dirvec level m) ∧
        (∀ i, t.2.getD i false = true ↔ s.2.getD i false = true ∨
          ∃ y ∈ x :: l, y.2 = i ∧ LooksAt rar a.scc k y.1 ∧ ∃ m, FirstNegative a.p.hProps y.1.dirvec level m) := by
      rintro rfl hno
      refine ⟨i1, i2, fun m => ?_, fun i => ?_⟩
      · rw [i3]
        simp only [List.mem_cons, exists_eq_or_imp]
        exact or_skip (hno m)
      · rw [i4]
        simp only [List.mem_cons, exists_eq_or_imp]
        exact or_skip (fun ⟨_, b1, m, b2⟩ => hno m ⟨b1, b2⟩)
    unfold skewDimsStep at h1
    split_ifs at h1 with c1 c2 c3
    · cases h1
      refine skip rfl (fun m hm => ?_)
      rcases hm.1.1 with e | e
      · rw [e] at c1; exact absurd c1.1 (by simp)
      · rw [e] at c1; exact absurd c1.2 (by simp)
    · cases h1
      exact skip rfl (fun m hm => c2.elim (fun e => e hm.1.2.1) (fun e => e hm.1.2.2.1))
    · have hlook : LooksAt rar a.scc k x.1 := by
        push Not at c2
        refine ⟨?_, c2.1, c2.2, c3⟩
        cases rar
        · right
          cases hx : x.1.rar
          · rfl
          · exact absurd ⟨rfl, hx⟩ c1
        · exact .inl rfl
      cases hn : negComponent x.1.dirvec level a.p.hProps 0 0 with
      | none =>
        rw [hn] at h1
        cases h1
        refine skip rfl (fun m hm => ?_)
        rw [← C57_negative, hn] at hm
        exact absurd hm.2 (by simp)
      | some n =>
        rw [hn] at h1
        simp only [Option.bind_eq_bind] at h1
        obtain ⟨dims, d1, h1⟩ := Option.bind_eq_some_iff.mp h1
        obtain ⟨tpd, d2, h1⟩ := Option.bind_eq_some_iff.mp h1
        cases h1
        obtain ⟨e1, -, e2⟩ := setTrue_some d1
        obtain ⟨f1, -, f2⟩ := setTrue_some d2
        have hfirst : ∀ m, FirstNegative a.p.hProps x.1.dirvec level m ↔ m = n := by
          intro m
          rw [← C57_negative, hn, Option.some.injEq]
          exact eq_comm
        refine ⟨i1.trans e1, i2.trans f1, fun m => ?_, fun i => ?_⟩
        · rw [i3, e2]
          simp only [List.mem_cons, exists_eq_or_imp]
          exact or_take ⟨fun e => ⟨hlook, (hfirst m).mpr e⟩, fun e => (hfirst m).mp e.2⟩
        · rw [i4, f2]
          simp only [List.mem_cons, exists_eq_or_imp]
          exact or_take ⟨fun e => ⟨e.symm, hlook, n, (hfirst n).mpr rfl⟩, fun e => e.1.symm⟩
    · cases h1
      exact skip rfl (fun m hm => c3 hm.1.2.2.2)

/-- C57. A loop is to be skewed exactly if it is the first possibly negative one of the band for one of the dependences looked at, and
these dependences are marked as preventing tiling, besides those marked before. -/
theorem C57_skew_dims (rar : Bool) (a : Auto) (k level : Nat) (tpd dims tpd' : List Bool)
    (h : skewDims rar a k level tpd = some (dims, tpd')) :
    dims.length = a.p.nvar ∧ tpd'.length = tpd.length ∧
    (∀ m, dims.getD m false = true ↔ ∃ d ∈ a.p.deps, LooksAt rar a.scc k d ∧ FirstNegative a.p.hProps d.dirvec level m) ∧
    ∀ i, tpd'.getD i false = true ↔ tpd.getD i false = true ∨
      ∃ d, a.p.deps[i]? = some d ∧ LooksAt rar a.scc k d ∧ ∃ m, FirstNegative a.p.hProps d.dirvec level m := by
  obtain ⟨h1, h2, h3, h4⟩ := skewDims_fold rar a k level _ _ _ h
  refine ⟨by simpa using h1, h2, fun m => ?_, fun i => ?_⟩
  · rw [h3 m]
    have e : (List.replicate a.p.nvar false).getD m false = false := by
      rw [List.getD_eq_getElem?_getD, List.getElem?_replicate]
      split_ifs <;> rfl
    simp only [e, Bool.false_eq_true, false_or]
    constructor
    · rintro ⟨x, hx, hl⟩
      exact ⟨x.1, List.mem_of_getElem? (List.mem_zipIdx_iff_getElem?.mp hx), hl⟩
    · rintro ⟨d, hd, hl⟩
      obtain ⟨i, hi, rfl⟩ := List.getElem_of_mem hd
      exact ⟨(a.p.deps[i], i), List.mem_zipIdx_iff_getElem?.mpr (List.getElem?_eq_getElem hi), hl⟩
  · rw [h4 i]
    refine or_congr_right ⟨?_, ?_⟩
    · rintro ⟨x, hx, rfl, hl⟩
      exact ⟨x.1, List.mem_zipIdx_iff_getElem?.mp hx, hl⟩
    · rintro ⟨d, hd, hl⟩
      exact ⟨(d, i), List.mem_zipIdx_iff_getElem?.mpr hd, rfl, hl⟩

theorem satDims_fold (p : Prog) (tpd : List Bool) : ∀ (l : List (Dep × Nat)) (s t : List Bool),
    l.foldlM (satDimsStep p tpd) s = some t →
    t.length = s.length ∧ ∀ m, t.getD m false = true ↔ s.getD m false = true ∨
      ∃ x ∈ l, tpd.getD x.2 false = true ∧ ∃ l0 < p.hProps.length, x.1.satLevel = (l0 : Int) ∧
        m = (p.hProps.take l0).countP (fun h => decide (h = .loop)) := by
  intro l
  induction l with
  | nil =>
    intro s t h
    simp only [List.foldlM_nil, Option.pure_def, Option.some.injEq] at h
    subst h
    simp
  | cons x l ih =>
    intro s t h
    rw [List.foldlM_cons] at h
    obtain ⟨s', h1, h2⟩ := Option.bind_eq_some_iff.mp h
    obtain ⟨i1, i2⟩ := ih s' t h2
    unfold satDimsStep at h1
    split_ifs at h1 with c1 c2
    · obtain ⟨e1, -, e2⟩ := setTrue_some h1
      refine ⟨i1.trans e1, fun m => ?_⟩
      rw [i2, e2]
      simp only [List.mem_cons, exists_eq_or_imp]
      have : (∃ l0 < p.hProps.length, x.1.satLevel = (l0 : Int) ∧ m = (p.hProps.take l0).countP (fun h => decide (h = .loop))) ↔
          m = (p.hProps.take x.1.satLevel.toNat).countP (fun h => decide (h = .loop)) := by
        constructor
        · rintro ⟨l0, b1, b2, b3⟩
          rw [b2]; simpa using b3
        · intro hm
          exact ⟨x.1.satLevel.toNat, by omega, by omega, hm⟩
      exact or_take ⟨fun e => ⟨c1, this.mpr e⟩, fun e => this.mp e.2⟩
    · cases h1
      refine ⟨i1, fun m => ?_⟩
      rw [i2]
      simp only [List.mem_cons, exists_eq_or_imp]
      have : ¬ ∃ l0 < p.hProps.length, x.1.satLevel = (l0 : Int) ∧ m = (p.hProps.take l0).countP (fun h => decide (h = .loop)) := by
        rintro ⟨l0, b1, b2, -⟩
        exact c2 (by omega)
      exact or_skip (fun e => this e.2)
    · cases h1
      refine ⟨i1, fun m => ?_⟩
      rw [i2]
      simp only [List.mem_cons, exists_eq_or_imp]
      exact or_skip (fun e => c1 e.1)

/-- C57. The loops by which others are skewed are those at whose level a tiling preventing dependence is satisfied. (A dependence satisfied at a scalar level counts
for the next loop inside.) -/
theorem C57_source_dims (p : Prog) (tpd src : List Bool) (h : satDims p tpd = some src) :
    src.length = p.nvar ∧ ∀ m, src.getD m false = true ↔
      ∃ i d, p.deps[i]? = some d ∧ tpd.getD i false = true ∧ ∃ l < p.hProps.length, d.satLevel = (l : Int) ∧
        m = (p.hProps.take l).countP (fun h => decide (h = .loop)) := by
  obtain ⟨h1, h2⟩ := satDims_fold p tpd _ _ _ h
  refine ⟨by simpa using h1, fun m => ?_⟩
  rw [h2 m]
  have e : (List.replicate p.nvar false).getD m false = false := by
    rw [List.getD_eq_getElem?_getD, List.getElem?_replicate]
    split_ifs <;> rfl
  simp only [e, Bool.false_eq_true, false_or]
  constructor
  · rintro ⟨x, hx, a1, a2⟩
    exact ⟨x.2, x.1, List.mem_zipIdx_iff_getElem?.mp hx, a1, a2⟩
  · rintro ⟨i, d, hd, a1, a2⟩
    exact ⟨(d, i), List.mem_zipIdx_iff_getElem?.mpr hd, a1, a2⟩

theorem nextSkewLevel_iff (skew : List Bool) : ∀ (hs : List HypType) (l n m : Nat),
    nextSkewLevel skew hs l n = some m ↔
      ∃ j, hs[j]? = some .loop ∧ m = l + j ∧ skew.getD (n + (hs.take j).countP (fun h => decide (h = .loop))) false = true ∧
        ∀ j' < j, hs[j']? = some .loop → skew.getD (n + (hs.take j').countP (fun h => decide (h = .loop))) false = false := by
  intro hs
  induction hs with
  | nil => intro l n m; simp [nextSkewLevel]
  | cons h hs ih =>
    intro l n m
    have key : ∀ c : Nat, c = (if h = .loop then 1 else 0) → (h = .loop → skew.getD n false = false) →
        (nextSkewLevel skew hs (l + 1) (n + c) = some m ↔
        ∃ j, (h :: hs)[j]? = some .loop ∧ m = l + j ∧ skew.getD (n + ((h :: hs).take j).countP (fun h => decide (h = .loop))) false = true ∧
          ∀ j' < j, (h :: hs)[j']? = some .loop → skew.getD (n + ((h :: hs).take j').countP (fun h => decide (h = .loop))) false = false) := by
      intro c hc hno
      have cnt : ∀ j, n + ((h :: hs).take (j + 1)).countP (fun h => decide (h = .loop)) = n + c + (hs.take j).countP (fun h => decide (h = .loop)) := by
        intro j
        rw [List.take_succ_cons, List.countP_cons, hc]
        split_ifs <;> simp_all <;> omega
      rw [ih]
      constructor
      · rintro ⟨j, a1, a2, a3, a4⟩
        refine ⟨j + 1, by simpa using a1, by omega, by rw [cnt]; exact a3, ?_⟩
        intro j' hj' b
        cases j' with
        | zero => simpa using hno (by simpa using b)
        | succ j' => rw [cnt]; exact a4 j' (by omega) (by simpa using b)
      · rintro ⟨j, a1, a2, a3, a4⟩
        cases j with
        | zero =>
          have := hno (by simpa using a1)
          simp only [List.take_zero, List.countP_nil, Nat.add_zero] at a3
          rw [this] at a3
          exact absurd a3 (by simp)
        | succ j =>
          refine ⟨j, by simpa using a1, by omega, by rw [← cnt]; exact a3, ?_⟩
          intro j' hj' b
          rw [← cnt]
          exact a4 (j' + 1) (by omega) (by simpa using b)
    unfold nextSkewLevel
    split_ifs with h1 h2
    · rw [Option.some.injEq]
      constructor
      · rintro rfl
        exact ⟨0, by simp [h1], by omega, by simpa using h2, by simp⟩
      · rintro ⟨j, a1, a2, a3, a4⟩
        cases j with
        | zero => omega
        | succ j =>
          have := a4 0 (by omega) (by simp [h1])
          simp only [List.take_zero, List.countP_nil, Nat.add_zero] at this
          rw [this] at h2
          exact absurd h2 (by simp)
    · exact key 1 (by rw [if_pos h1]) (fun _ => by simpa using h2)
    · simpa using key 0 (by rw [if_neg h1]) (fun e => absurd e h1)

/-- C57. The level to be skewed next is the outermost loop level that is to be skewed. -/
theorem C57_next_level (skew : List Bool) (hProps : List HypType) (m : Nat) :
    nextSkewLevel skew hProps 0 0 = some m ↔
      hProps[m]? = some .loop ∧ skew.getD ((hProps.take m).countP (fun h => decide (h = .loop))) false = true ∧
        ∀ j < m, hProps[j]? = some .loop → skew.getD ((hProps.take j).countP (fun h => decide (h = .loop))) false = false := by
  rw [nextSkewLevel_iff]
  simp only [Nat.zero_add]
  constructor
  · rintro ⟨j, a1, rfl, a3, a4⟩
    exact ⟨a1, a3, a4⟩
  · rintro ⟨a1, a3, a4⟩
    exact ⟨m, a1, rfl, a3, a4⟩

theorem outermostSat_iff (src : List Bool) (maxDim : Int) : ∀ (hs : List HypType) (i n m : Nat),
    outermostSat src maxDim hs i n = some m ↔
      ∃ j, hs[j]? = some .loop ∧ m = i + j ∧ ((n + (hs.take j).countP (fun h => decide (h = .loop)) : Nat) : Int) < maxDim ∧
        src.getD (n + (hs.take j).countP (fun h => decide (h = .loop))) false = true ∧
        ∀ j' < j, hs[j']? = some .loop → src.getD (n + (hs.take j').countP (fun h => decide (h = .loop))) false = false := by
  intro hs
  induction hs with
  | nil => intro i n m; simp [outermostSat]
  | cons h hs ih =>
    intro i n m
    unfold outermostSat
    by_cases hlt : (n : Int) < maxDim
    swap
    · rw [if_neg hlt]
      simp only [reduceCtorEq, false_iff, not_exists]
      rintro j ⟨-, -, a, -⟩
      omega
    rw [if_pos hlt]
    have key : ∀ c : Nat, c = (if h = .loop then 1 else 0) → (h = .loop → src.getD n false = false) →
        (outermostSat src maxDim hs (i + 1) (n + c) = some m ↔
        ∃ j, (h :: hs)[j]? = some .loop ∧ m = i + j ∧ ((n + ((h :: hs).take j).countP (fun h => decide (h = .loop)) : Nat) : Int) < maxDim ∧
          src.getD (n + ((h :: hs).take j).countP (fun h => decide (h = .loop))) false = true ∧
          ∀ j' < j, (h :: hs)[j']? = some .loop → src.getD (n + ((h :: hs).take j').countP (fun h => decide (h = .loop))) false = false) := by
      intro c hc hno
      have cnt : ∀ j, n + ((h :: hs).take (j + 1)).countP (fun h => decide (h = .loop)) = n + c + (hs.take j).countP (fun h => decide (h = .loop)) := by
        intro j
        rw [List.take_succ_cons, List.countP_cons, hc]
        split_ifs <;> simp_all <;> omega
      rw [ih]
      constructor
      · rintro ⟨j, a1, a2, a5, a3, a4⟩
        refine ⟨j + 1, by simpa using a1, by omega, by rw [cnt]; exact a5, by rw [cnt]; exact a3, ?_⟩
        intro j' hj' b
        cases j' with
        | zero => simpa using hno (by simpa using b)
        | succ j' => rw [cnt]; exact a4 j' (by omega) (by simpa using b)
      · rintro ⟨j, a1, a2, a5, a3, a4⟩
        cases j with
        | zero =>
          have := hno (by simpa using a1)
          simp only [List.take_zero, List.countP_nil, Nat.add_zero] at a3
          rw [this] at a3
          exact absurd a3 (by simp)
        | succ j =>
          refine ⟨j, by simpa using a1, by omega, by rw [← cnt]; exact a5, by rw [← cnt]; exact a3, ?_⟩
          intro j' hj' b
          rw [← cnt]
          exact a4 (j' + 1) (by omega) (by simpa using b)
    split_ifs with h1 h2
    · rw [Option.some.injEq]
      constructor
      · rintro rfl
        exact ⟨0, by simp [h1], by omega, by simpa using hlt, by simpa using h2, by simp⟩
      · rintro ⟨j, a1, a2, a5, a3, a4⟩
        cases j with
        | zero => omega
        | succ j =>
          have := a4 0 (by omega) (by simp [h1])
          simp only [List.take_zero, List.countP_nil, Nat.add_zero] at this
          rw [this] at h2
          exact absurd h2 (by simp)
    · exact key 1 (by rw [if_pos h1]) (fun _ => by simpa using h2)
    · simpa using key 0 (by rw [if_neg h1]) (fun e => absurd e h1)

/-- C57. A parallel new row is exchanged with the outermost loop that satisfies a tiling preventing dependence, if the component has that many
loops. -/
theorem C57_exchange_level (src : List Bool) (maxDim : Int) (hProps : List HypType) (m : Nat) :
    outermostSat src maxDim hProps 0 0 = some m ↔
      hProps[m]? = some .loop ∧ (((hProps.take m).countP (fun h => decide (h = .loop)) : Nat) : Int) < maxDim ∧
        src.getD ((hProps.take m).countP (fun h => decide (h = .loop))) false = true ∧
        ∀ j < m, hProps[j]? = some .loop → src.getD ((hProps.take j).countP (fun h => decide (h = .loop))) false = false := by
  rw [outermostSat_iff]
  simp only [Nat.zero_add]
  constructor
  · rintro ⟨j, a1, rfl, a3, a4⟩
    exact ⟨a1, a3, a4⟩
  · rintro ⟨a1, a3, a4⟩
    exact ⟨m, a1, rfl, a3, a4⟩

/-- C57. Exchanging two levels exchanges the rows of the statements of the connected component and changes nothing else. -/
theorem C57_exchange (p p' : Prog) (cc : Nat → Int) (c : Int) (l1 l2 : Nat) (h : swapTrans p cc c l1 l2 = some p') :
    l1 < l2 ∧ p'.deps = p.deps ∧ p'.hProps = p.hProps ∧ p'.stmts.length = p.stmts.length ∧
    ∀ i st, p.stmts[i]? = some st → ∃ st', p'.stmts[i]? = some st' ∧ st'.domain = st.domain ∧ st'.dim = st.dim ∧
      (cc i ≠ c → st' = st) ∧
      (cc i = c → l2 < st.trans.length → st'.trans.length = st.trans.length ∧ st'.trans[l1]? = st.trans[l2]? ∧ st'.trans[l2]? = st.trans[l1]? ∧
        ∀ l, l ≠ l1 → l ≠ l2 → st'.trans[l]? = st.trans[l]?) := by
  unfold swapTrans at h
  split_ifs at h with hc
  cases h
  refine ⟨hc.1, rfl, rfl, by simp, fun i st hst => ?_⟩
  refine ⟨if cc i = c then { st with trans := swapRows st.trans l1 l2 } else st, by simp only [List.getElem?_mapIdx, hst, Option.map_some], by split_ifs <;> rfl, by split_ifs <;> rfl, fun e => by rw [if_neg e], fun e hl => ?_⟩
  rw [if_pos e]
  have hl1 : l1 < st.trans.length := by have := hc.1; omega
  have hne : l1 ≠ l2 := by have := hc.1; omega
  simp only [swapRows, List.length_set, List.getElem?_set, List.getD_eq_getElem?_getD, List.getElem?_eq_getElem hl, List.getElem?_eq_getElem hl1, Option.getD_some]
  refine ⟨trivial, ?_, ?_, fun l n1 n2 => ?_⟩
  · rw [if_neg (Ne.symm hne)]; simp [hl1]
  · simp [hl]
  · rw [if_neg (Ne.symm n2), if_neg (Ne.symm n1)]

/-- C57. The new row is taken for parallel exactly if the bound on the dependence distances in the solution is zero. -/
theorem C57_parallel_row (sol : List Int) (npar : Nat) (hs : ∀ v ∈ sol, 0 ≤ v) :
    solParallel sol npar = true ↔ ∀ v ∈ sol.take (npar + 1), v = 0 := by
  have key : ∀ l : List Int, (∀ v ∈ l, 0 ≤ v) → 0 ≤ l.sum ∧ (l.sum = 0 ↔ ∀ v ∈ l, v = 0) := by
    intro l
    induction l with
    | nil => simp
    | cons a l ih =>
      intro h
      obtain ⟨h1, h2⟩ := ih (fun v hv => h v (List.mem_cons_of_mem _ hv))
      have ha := h a (by simp)
      rw [List.sum_cons]
      refine ⟨by omega, ?_⟩
      constructor
      · intro e v hv
        rcases List.mem_cons.mp hv with rfl | hv
        · omega
        · exact h2.mp (by omega) v hv
      · intro e
        have := h2.mpr (fun v hv => e v (List.mem_cons_of_mem _ hv))
        have := e a (by simp)
        omega
  unfold solParallel
  rw [decide_eq_true_iff]
  exact (key _ (fun v hv => hs v (List.mem_of_mem_take hv))).2

/-- Cases of these: two scalar levels and three loops. -/
example : FirstNegative [.scalar, .loop, .scalar, .loop, .loop] [.zero, .minus, .minus, .plus, .star] 2 2 ∧
    negComponent [.zero, .minus, .minus, .plus, .star] 2 [.scalar, .loop, .scalar, .loop, .loop] 0 0 = some 2 := by
  refine ⟨?_, by decide⟩
  rw [← C57_negative]
  decide

example : nextSkewLevel [false, true, true] [.scalar, .loop, .scalar, .loop, .loop] 0 0 = some 3 ∧
    outermostSat [false, true, true] 3 [.scalar, .loop, .scalar, .loop, .loop] 0 0 = some 3 ∧
    outermostSat [false, true, true] 1 [.scalar, .loop, .scalar, .loop, .loop] 0 0 = none := by decide

example : (swapTrans exSkew (fun i => i) 0 0 1).map (fun p => p.stmts.map (·.trans)) =
    some (exSkew.stmts.mapIdx fun i st => if i = 0 then [st.trans.getD 1 [], st.trans.getD 0 []] ++ st.trans.drop 2 else st.trans) := by decide

/-- A nest of three loops with a dependence satisfied by the outermost one. -/
def exDeepSkew : Prog :=
  ⟨3, 0, [⟨3, 3, ⟨4, []⟩, [true, true, true], [[1, 0, 0, 0], [0, 1, 0, 0], [0, 0, 1, 0]], [.loop, .loop, .loop]⟩],
    [⟨0, 0, false, ⟨7, []⟩, ⟨7, []⟩, true, 0, [], [.plus, .star, .star]⟩], [.loop, .loop, .loop]⟩

/-- Each level is skewed once, from the outside in: with a solver that always finds the row `(1, 5, 7)`, and directions that stay unknown, the two inner
levels of `exDeepSkew` are set, and the outermost one is kept. -/
example : (skewLevels ⟨true, true, false, true, -1⟩ ⟨fun _ _ => [], fun _ => false, fun _ => none⟩ (fun _ _ => some (some [1, 1, 5, 7, 0]))
      (fun _ => 0) 0 ⟨6, []⟩ 0 3 1 [false, true, false] [true, false, false] ⟨skewAuto exDeepSkew, [false], false⟩).map
        (fun s => (s.a.p.stmts.map (·.trans), s.tpd, s.done)) =
    some ([[[1, 0, 0, 0], [1, 5, 7, 0], [1, 5, 7, 0]]], [true], true) := by decide

end Pluto
