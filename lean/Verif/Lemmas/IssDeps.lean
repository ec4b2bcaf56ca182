import Verif.Lemmas.Iss

namespace Pluto

/-- The range of one end of a dependence in `pluto_update_deps_after_iss`. -/
theorem cutRange_one (cuts : List Cst) (b : Prop) [Decidable b] (n : Nat) (y : List Int)
    (h : CutsPartition n cuts) (hy : y.length + 1 = n) :
    ExactlyOne (List.range (if b then cuts.length else 1)) (fun a => b → ∃ c, cuts[a]? = some c ∧ c.Sat y) := by
  by_cases hb : b
  · rw [if_pos hb]
    exact (h.2 y hy).range.congr (fun x _ => ⟨fun k _ => k, fun k => k hb⟩)
  · rw [if_neg hb]
    exact ExactlyOne.singleton (fun k => absurd k hb)

theorem cutRange_get (cuts : List Cst) (b : Prop) [Decidable b] (a : Nat)
    (h : a ∈ List.range (if b then cuts.length else 1)) : ∃ c, b → cuts[a]? = some c := by
  rw [List.mem_range] at h
  by_cases hb : b
  · rw [if_pos hb] at h
    exact ⟨cuts[a], fun _ => List.getElem?_eq_getElem h⟩
  · exact ⟨⟨0, []⟩, fun k => absurd k hb⟩

/-- Where the end of a new dependence is and what its points satisfy there. -/
def CutEnd (cuts : List Cst) (id base old new : Nat) (P : Cst → Prop) : Prop :=
  (old ≠ id ∧ new = old) ∨ (old = id ∧ ∃ a cut, cuts[a]? = some cut ∧ new = base + a ∧ P cut)

/-- The new dependences for one old one. -/
theorem issSplitDep_spec (isEmpty : Cst → Bool) (hE : EmptyOracle isEmpty) (p : Prog) (cuts : List Cst)
    (id base D : Nat) (d : Dep) (hw : d.dpoly.WF) (hc : d.dpoly.ncols = D + D + p.npar + 1)
    (hsd : dimOf p d.src = D) (hdd : dimOf p d.dest = D) (hp : CutsPartition (D + p.npar + 1) cuts) :
    (∀ nd ∈ issSplitDep isEmpty p cuts id base d,
      CutEnd cuts id base d.src nd.src (fun c => ∀ x y q : List Int, x.length = D → y.length = D →
        q.length = p.npar → nd.dpoly.Sat (x ++ y ++ q) → c.Sat (x ++ q)) ∧
      CutEnd cuts id base d.dest nd.dest (fun c => ∀ x y q : List Int, x.length = D → y.length = D →
        q.length = p.npar → nd.dpoly.Sat (x ++ y ++ q) → c.Sat (y ++ q)) ∧
      nd.rar = d.rar ∧ nd.dpoly.WF ∧ nd.dpoly.ncols = d.dpoly.ncols ∧
      ∀ x y q : List Int, x.length = D → y.length = D → q.length = p.npar →
        nd.dpoly.Sat (x ++ y ++ q) → d.dpoly.Sat (x ++ y ++ q)) ∧
    ∀ x y q : List Int, x.length = D → y.length = D → q.length = p.npar → d.dpoly.Sat (x ++ y ++ q) →
      ExactlyOne (issSplitDep isEmpty p cuts id base d) (fun nd => nd.dpoly.Sat (x ++ y ++ q)) := by
  unfold issSplitDep
  by_cases h : d.src ≠ id ∧ d.dest ≠ id
  · rw [if_pos h]
    refine ⟨fun nd hnd => ?_, fun x y q _ _ _ hs => ExactlyOne.singleton hs⟩
    rw [List.mem_singleton] at hnd
    subst hnd
    exact ⟨Or.inl ⟨h.1, rfl⟩, Or.inl ⟨h.2, rfl⟩, rfl, hw, rfl, fun _ _ _ _ _ _ k => k⟩
  · rw [if_neg h]
    constructor
    · intro nd hnd
      obtain ⟨s, hs, hnd⟩ := List.mem_flatMap.mp hnd
      obtain ⟨t, ht, hnd⟩ := List.mem_flatMap.mp hnd
      obtain ⟨cs, hcs⟩ := cutRange_get cuts _ s hs
      obtain ⟨ct, hct⟩ := cutRange_get cuts _ t ht
      obtain ⟨e1, e2, e3, e4, e5, e6⟩ := (issCutDep_spec isEmpty hE p cuts id base D d s t hw hc hsd hdd cs ct
        hcs hct hp.1).1 nd hnd
      refine ⟨?_, ?_, e3, e4, e5, fun x y q hx hy hq k => ((e6 x y q hx hy hq).mp k).1⟩
      · by_cases c1 : d.src = id
        · exact Or.inr ⟨c1, s, cs, hcs c1, by rw [e1, if_pos c1],
            fun x y q hx hy hq k => ((e6 x y q hx hy hq).mp k).2.1 c1⟩
        · exact Or.inl ⟨c1, by rw [e1, if_neg c1]⟩
      · by_cases c2 : d.dest = id
        · exact Or.inr ⟨c2, t, ct, hct c2, by rw [e2, if_pos c2],
            fun x y q hx hy hq k => ((e6 x y q hx hy hq).mp k).2.2 c2⟩
        · exact Or.inl ⟨c2, by rw [e2, if_neg c2]⟩
    · intro x y q hx hy hq hsat
      have no : ∀ s ∈ List.range (if d.src = id then cuts.length else 1),
          ∀ t ∈ List.range (if d.dest = id then cuts.length else 1),
          (¬ (d.src = id → ∃ c, cuts[s]? = some c ∧ c.Sat (x ++ q)) ∨
            ¬ (d.dest = id → ∃ c, cuts[t]? = some c ∧ c.Sat (y ++ q))) →
          ∀ nd ∈ issCutDep isEmpty p cuts id base d s t, ¬ nd.dpoly.Sat (x ++ y ++ q) := by
        intro s hs t ht hn nd hnd k
        obtain ⟨cs, hcs⟩ := cutRange_get cuts _ s hs
        obtain ⟨ct, hct⟩ := cutRange_get cuts _ t ht
        obtain ⟨e1, e2, e3, e4, e5, e6⟩ := (issCutDep_spec isEmpty hE p cuts id base D d s t hw hc hsd hdd cs ct
          hcs hct hp.1).1 nd hnd
        obtain ⟨_, k1, k2⟩ := (e6 x y q hx hy hq).mp k
        rcases hn with hn | hn
        · exact hn (fun e => ⟨cs, hcs e, k1 e⟩)
        · exact hn (fun e => ⟨ct, hct e, k2 e⟩)
      refine (cutRange_one cuts (d.src = id) _ (x ++ q) hp (by simp; omega)).flatMap ?_ ?_
      · intro s hs ps
        refine (cutRange_one cuts (d.dest = id) _ (y ++ q) hp (by simp; omega)).flatMap ?_ ?_
        · intro t ht pt
          obtain ⟨cs, hcs⟩ := cutRange_get cuts _ s hs
          obtain ⟨ct, hct⟩ := cutRange_get cuts _ t ht
          refine (issCutDep_spec isEmpty hE p cuts id base D d s t hw hc hsd hdd cs ct hcs hct hp.1).2 x y q hx hy hq
            hsat ?_ ?_
          · intro e
            obtain ⟨c, h1, h2⟩ := ps e
            rw [hcs e, Option.some.injEq] at h1
            rwa [h1]
          · intro e
            obtain ⟨c, h1, h2⟩ := pt e
            rw [hct e, Option.some.injEq] at h1
            rwa [h1]
        · intro t ht pt
          exact no s hs t ht (Or.inr pt)
      · intro s hs ps nd hnd
        obtain ⟨t, ht, hnd⟩ := List.mem_flatMap.mp hnd
        exact no s hs t ht (Or.inl ps) nd hnd

/-! ### All statements -/

/-- After `k` statements: an end at one of them is at the piece for a cut its points satisfy. -/
def EndAt (n k : Nat) (cuts : List Cst) (old new : Nat) (P : Cst → Prop) : Prop :=
  (k ≤ old ∧ new = old) ∨ (old < k ∧ ∃ a cut, cuts[a]? = some cut ∧ new = n + old * cuts.length + a ∧ P cut)

/-- The new dependences `E` that stand for `d` after `k` statements have been split. -/
structure PartOK (n np D k : Nat) (cuts : List Cst) (d : Dep) (E : List Dep) : Prop where
  mem : ∀ nd ∈ E,
    EndAt n k cuts d.src nd.src (fun c => ∀ x y q : List Int, x.length = D → y.length = D → q.length = np →
      nd.dpoly.Sat (x ++ y ++ q) → c.Sat (x ++ q)) ∧
    EndAt n k cuts d.dest nd.dest (fun c => ∀ x y q : List Int, x.length = D → y.length = D → q.length = np →
      nd.dpoly.Sat (x ++ y ++ q) → c.Sat (y ++ q)) ∧
    nd.rar = d.rar ∧ nd.dpoly.WF ∧ nd.dpoly.ncols = d.dpoly.ncols ∧
    ∀ x y q : List Int, x.length = D → y.length = D → q.length = np →
      nd.dpoly.Sat (x ++ y ++ q) → d.dpoly.Sat (x ++ y ++ q)
  one : ∀ x y q : List Int, x.length = D → y.length = D → q.length = np → d.dpoly.Sat (x ++ y ++ q) →
    ExactlyOne E (fun nd => nd.dpoly.Sat (x ++ y ++ q))

theorem EndAt.step {n k : Nat} {cuts : List Cst} {old mid new : Nat} {P P' Q : Cst → Prop} (hk : k < n)
    (h : EndAt n k cuts old mid P) (hs : CutEnd cuts k (n + k * cuts.length) mid new Q)
    (h1 : ∀ c, P c → P' c) (h2 : ∀ c, Q c → P' c) : EndAt n (k + 1) cuts old new P' := by
  rcases h with ⟨a1, a2⟩ | ⟨a1, a, cut, a2, a3, a4⟩
  · subst a2
    rcases hs with ⟨b1, b2⟩ | ⟨b1, b, cut, b2, b3, b4⟩
    · exact Or.inl ⟨by omega, b2⟩
    · subst b1
      exact Or.inr ⟨by omega, b, cut, b2, b3, h2 _ b4⟩
  · have hne : mid ≠ k := by
      have : n ≤ n + old * cuts.length := Nat.le_add_right _ _
      omega
    rcases hs with ⟨b1, b2⟩ | ⟨b1, _⟩
    · exact Or.inr ⟨by omega, a, cut, a2, by rw [b2, a3], h1 _ a4⟩
    · exact absurd b1 hne

theorem EndAt.lt {n k : Nat} {cuts : List Cst} {old new : Nat} {P : Cst → Prop} (h : EndAt n k cuts old new P)
    (ho : old < n) : new < n + k * cuts.length := by
  rcases h with ⟨a1, a2⟩ | ⟨a1, a, cut, a2, a3, a4⟩
  · have := Nat.zero_le (k * cuts.length); omega
  · have ha : a < cuts.length := by rw [List.getElem?_eq_some_iff] at a2; exact a2.1
    have : (old + 1) * cuts.length ≤ k * cuts.length := Nat.mul_le_mul_right _ (by omega)
    rw [Nat.add_mul] at this
    omega

theorem PartOK.step {n D k : Nat} {cuts : List Cst} {d : Dep} {E : List Dep} (p : Prog)
    (h : PartOK n p.npar D k cuts d E) (isEmpty : Cst → Bool) (hE : EmptyOracle isEmpty) (hk : k < n)
    (hs : d.src < n) (ht : d.dest < n) (hc : d.dpoly.ncols = D + D + p.npar + 1)
    (hdim : ∀ j < n + k * cuts.length, dimOf p j = D) (hp : CutsPartition (D + p.npar + 1) cuts) :
    PartOK n p.npar D (k + 1) cuts d (E.flatMap (issSplitDep isEmpty p cuts k (n + k * cuts.length))) := by
  have key : ∀ nd ∈ E, _ := fun nd hnd =>
    have m := h.mem nd hnd
    issSplitDep_spec isEmpty hE p cuts k (n + k * cuts.length) D nd m.2.2.2.1 (m.2.2.2.2.1.trans hc)
      (hdim _ (m.1.lt hs)) (hdim _ (m.2.1.lt ht)) hp
  constructor
  · intro e he
    obtain ⟨nd, hnd, he⟩ := List.mem_flatMap.mp he
    obtain ⟨m1, m2, m3, m4, m5, m6⟩ := h.mem nd hnd
    obtain ⟨e1, e2, e3, e4, e5, e6⟩ := (key nd hnd).1 e he
    refine ⟨m1.step hk e1 ?_ (fun c hc => hc), m2.step hk e2 ?_ (fun c hc => hc), e3.trans m3, e4, e5.trans m5, ?_⟩
    · exact fun c hc x y q hx hy hq hsat => hc x y q hx hy hq (e6 x y q hx hy hq hsat)
    · exact fun c hc x y q hx hy hq hsat => hc x y q hx hy hq (e6 x y q hx hy hq hsat)
    · exact fun x y q hx hy hq hsat => m6 x y q hx hy hq (e6 x y q hx hy hq hsat)
  · intro x y q hx hy hq hsat
    refine (h.one x y q hx hy hq hsat).flatMap ?_ ?_
    · intro nd hnd hs
      exact (key nd hnd).2 x y q hx hy hq hs
    · intro nd hnd hns e he hes
      exact hns (((key nd hnd).1 e he).2.2.2.2.2 x y q hx hy hq hes)

/-- The state after splitting `k` statements. -/
structure PassOK (p : Prog) (D : Nat) (cuts : List Cst) (k : Nat) (p1 : Prog) : Prop where
  npar : p1.npar = p.npar
  len : p1.stmts.length = p.stmts.length + k * cuts.length
  old : ∀ (j : Nat) (a : Stmt), p.stmts[j]? = some a → ∃ b, p1.stmts[j]? = some b ∧ StExt a b
  new : ∀ (i c : Nat) (a : Stmt) (cut : Cst), i < k → p.stmts[i]? = some a → cuts[c]? = some cut →
    ∃ b, p1.stmts[p.stmts.length + i * cuts.length + c]? = some b ∧ StExt (issPiece a cut) b
  deps : ∃ E : Dep → List Dep, p1.deps = p.deps.flatMap E ∧
    ∀ d ∈ p.deps, PartOK p.stmts.length p.npar D k cuts d (E d)

theorem PassOK.zero (p : Prog) (D : Nat) (cuts : List Cst) (hw : ∀ d ∈ p.deps, d.dpoly.WF) :
    PassOK p D cuts 0 p where
  npar := rfl
  len := by simp
  old := fun j a h => ⟨a, h, StExt.refl a⟩
  new := fun i c a cut hi => absurd hi (Nat.not_lt_zero i)
  deps := ⟨fun d => [d], by simp, fun d hd => ⟨fun nd hnd => by
      rw [List.mem_singleton] at hnd
      subst hnd
      exact ⟨Or.inl ⟨Nat.zero_le _, rfl⟩, Or.inl ⟨Nat.zero_le _, rfl⟩, rfl, hw nd hd, rfl, fun _ _ _ _ _ _ h => h⟩,
    fun x y q _ _ _ h => ExactlyOne.singleton h⟩⟩

theorem PassOK.dims {p p1 : Prog} {D k : Nat} {cuts : List Cst} (h : PassOK p D cuts k p1)
    (hk : k ≤ p.stmts.length) (hD : ∀ st ∈ p.stmts, st.dim = D) (j : Nat)
    (hj : j < p.stmts.length + k * cuts.length) : dimOf p1 j = D := by
  unfold dimOf
  by_cases c : j < p.stmts.length
  · obtain ⟨b, hb, eb⟩ := h.old j _ (List.getElem?_eq_getElem c)
    rw [hb]
    simp only [Option.map_some, Option.getD_some, eb.1]
    exact hD _ (List.getElem_mem c)
  · have hpos : 0 < cuts.length := by
      rcases Nat.eq_zero_or_pos cuts.length with e | e
      · rw [e] at hj; omega
      · exact e
    set m := j - p.stmts.length with hm
    have h1 : m / cuts.length < k := Nat.div_lt_of_lt_mul (by rw [Nat.mul_comm]; omega)
    have h2 : m % cuts.length < cuts.length := Nat.mod_lt _ hpos
    have h3 : m / cuts.length < p.stmts.length := by omega
    obtain ⟨b, hb, eb⟩ := h.new (m / cuts.length) (m % cuts.length) _ _ h1 (List.getElem?_eq_getElem h3)
      (List.getElem?_eq_getElem h2)
    have : p.stmts.length + m / cuts.length * cuts.length + m % cuts.length = j := by
      have := Nat.div_add_mod' m cuts.length
      omega
    rw [this] at hb
    rw [hb]
    simp only [Option.map_some, Option.getD_some, eb.1]
    exact (hD _ (List.getElem_mem h3) : (p.stmts[m / cuts.length]).dim = D)

theorem PassOK.step {p p1 p2 : Prog} {D k : Nat} {cuts : List Cst} (h : PassOK p D cuts k p1)
    (isEmpty : Cst → Bool) (hE : EmptyOracle isEmpty) (hk : k < p.stmts.length)
    (hD : ∀ st ∈ p.stmts, st.dim = D) (hp : CutsPartition (D + p.npar + 1) cuts)
    (hd : ∀ d ∈ p.deps, d.src < p.stmts.length ∧ d.dest < p.stmts.length ∧ d.dpoly.ncols = D + D + p.npar + 1)
    (hne : cuts ≠ []) (hi : iss isEmpty cuts p1 k = some p2) : PassOK p D cuts (k + 1) p2 := by
  obtain ⟨b, hb, eb⟩ := h.old k _ (List.getElem?_eq_getElem hk)
  unfold iss at hi
  simp only [Option.bind_eq_bind, Option.bind_eq_some_iff] at hi
  obtain ⟨m, hm, hu⟩ := hi
  obtain ⟨m1, m2, m3, m4, m5⟩ := issPieces_spec k cuts p1 m b hb hm
  unfold updateDepsAfterIss at hu
  rw [if_neg hne] at hu
  simp only at hu
  split_ifs at hu
  simp only [Option.some.injEq] at hu
  subst hu
  have hlen : p.stmts.length + (k + 1) * cuts.length = p.stmts.length + k * cuts.length + cuts.length := by
    rw [Nat.add_mul]; omega
  refine ⟨m1.trans h.npar, by simp only; rw [m3, h.len, hlen], ?_, ?_, ?_⟩
  · intro j a ha
    obtain ⟨b1, hb1, eb1⟩ := h.old j a ha
    obtain ⟨b2, hb2, eb2⟩ := m4 j b1 hb1
    exact ⟨b2, hb2, eb1.trans eb2⟩
  · intro i c a cut hi ha hc
    by_cases hik : i < k
    · obtain ⟨b1, hb1, eb1⟩ := h.new i c a cut hik ha hc
      obtain ⟨b2, hb2, eb2⟩ := m4 _ b1 hb1
      exact ⟨b2, hb2, eb1.trans eb2⟩
    · have : i = k := by omega
      subst this
      rw [List.getElem?_eq_getElem hk, Option.some.injEq] at ha
      subst ha
      obtain ⟨b2, hb2, eb2⟩ := m5 c cut hc
      rw [h.len] at hb2
      exact ⟨b2, hb2, (stExt_piece eb cut).trans eb2⟩
  · obtain ⟨E, hE1, hE2⟩ := h.deps
    refine ⟨fun d => (E d).flatMap (issSplitDep isEmpty m cuts k p1.stmts.length), ?_, fun d hdm => ?_⟩
    · simp only
      rw [m2, hE1, List.flatMap_assoc]
    · obtain ⟨d1, d2, d3⟩ := hd d hdm
      have e : m.npar = p.npar := m1.trans h.npar
      have hP := hE2 d hdm
      rw [← e] at hP d3 hp ⊢
      rw [h.len]
      refine hP.step m isEmpty hE hk d1 d2 d3 (fun j hj => ?_) hp
      have hj1 : j < p1.stmts.length := by rw [h.len]; exact hj
      have := h.dims (by omega) hD j hj
      obtain ⟨b2, hb2, eb2⟩ := m4 j _ (List.getElem?_eq_getElem hj1)
      unfold dimOf at this ⊢
      rw [List.getElem?_eq_getElem hj1] at this
      rw [hb2]
      simpa [eb2.1] using this

theorem issPass (p : Prog) (D : Nat) (cuts : List Cst) (isEmpty : Cst → Bool) (hE : EmptyOracle isEmpty)
    (hD : ∀ st ∈ p.stmts, st.dim = D) (hp : CutsPartition (D + p.npar + 1) cuts)
    (hd : ∀ d ∈ p.deps, d.src < p.stmts.length ∧ d.dest < p.stmts.length ∧ d.dpoly.WF ∧
      d.dpoly.ncols = D + D + p.npar + 1)
    (hne : cuts ≠ []) (k : Nat) (hk : k ≤ p.stmts.length) (p1 : Prog)
    (h : (List.range k).foldlM (iss isEmpty cuts) p = some p1) : PassOK p D cuts k p1 := by
  induction k generalizing p1 with
  | zero =>
    simp only [List.range_zero, List.foldlM_nil, pure, Option.some.injEq] at h
    subst h
    exact PassOK.zero p D cuts (fun d hdm => (hd d hdm).2.2.1)
  | succ k ih =>
    rw [List.range_succ, List.foldlM_append] at h
    simp only [Option.bind_eq_bind, Option.bind_eq_some_iff] at h
    obtain ⟨m, hm, h⟩ := h
    simp only [List.foldlM_cons, List.foldlM_nil, Option.bind_eq_bind, Option.bind_eq_some_iff, pure,
      Option.some.injEq] at h
    obtain ⟨m', hm', rfl⟩ := h
    exact (ih (by omega) m hm).step isEmpty hE (by omega) hD hp
      (fun d hdm => ⟨(hd d hdm).1, (hd d hdm).2.1, (hd d hdm).2.2.2⟩) hne hm'

/-- Removing the first statement `n` times. -/
theorem removeFirst (n : Nat) (p p' : Prog) (h : (List.range n).foldlM (fun p _ => removeStmt p 0) p = some p')
    (hd : ∀ d ∈ p.deps, n ≤ d.src ∧ n ≤ d.dest ∧ d.src < p.stmts.length ∧ d.dest < p.stmts.length) :
    p'.npar = p.npar ∧ p'.stmts = p.stmts.drop n ∧
    p'.deps = p.deps.map (fun d => { d with src := d.src - n, dest := d.dest - n }) := by
  induction n generalizing p' with
  | zero =>
    simp only [List.range_zero, List.foldlM_nil, pure, Option.some.injEq] at h
    subst h
    simp
  | succ n ih =>
    rw [List.range_succ, List.foldlM_append] at h
    simp only [Option.bind_eq_bind, Option.bind_eq_some_iff] at h
    obtain ⟨m, hm, h⟩ := h
    simp only [List.foldlM_cons, List.foldlM_nil, Option.bind_eq_bind, Option.bind_eq_some_iff, pure,
      Option.some.injEq] at h
    obtain ⟨m', hm', rfl⟩ := h
    obtain ⟨i1, i2, i3⟩ := ih m hm (fun d hdm => by have := hd d hdm; omega)
    unfold removeStmt at hm'
    split at hm'
    · cases hm'
    rename_i hc
    obtain ⟨a, b⟩ := removeLoop_eq (m.stmts.length - 1 - 0) 0 m.stmts m.deps (by omega)
    rcases e : removeLoop (m.stmts.length - 1 - 0) 0 (m.stmts, m.deps) with ⟨ss, ds⟩
    rw [e] at a b hm'
    simp only [Option.some.injEq] at hm' a b
    subst hm'
    simp only [a, b]
    refine ⟨i1, ?_, ?_⟩
    · rw [i2, List.eraseIdx_zero, List.tail_drop]
    · rw [i3, List.map_map]
      apply List.map_congr_left
      intro d hdm
      have := hd d hdm
      have hl : m.stmts.length = p.stmts.length - n := by rw [i2, List.length_drop]
      simp only [Function.comp, shiftId]
      rw [if_pos (by omega), if_pos (by omega)]
      congr 1

end Pluto
