import Verif.Lemmas.IssDeps

/-! C24: index set splitting. -/

namespace Pluto

theorem exactlyOne_range (N : Nat) (P : Nat → Prop) :
    ExactlyOne (List.range N) P ↔ ∃ j < N, P j ∧ ∀ j' < N, P j' → j' = j := by
  constructor
  · rintro ⟨a, b, c, e, hb, ha, hc⟩
    have hm : ∀ j, j < N ↔ j ∈ a ++ b :: c := fun j => by rw [← e, List.mem_range]
    refine ⟨b, (hm b).mpr (by simp), hb, fun j hj hp => ?_⟩
    rcases List.mem_append.mp ((hm j).mp hj) with h | h
    · exact absurd hp (ha j h)
    · rcases List.mem_cons.mp h with h | h
      · exact h
      · exact absurd hp (hc j h)
  · rintro ⟨j, hj, hp, hu⟩
    obtain ⟨k, rfl⟩ : ∃ k, N = j + (k + 1) := ⟨N - j - 1, by omega⟩
    refine ⟨List.range j, j, (List.range k).map (fun i => j + (i + 1)), ?_, hp, ?_, ?_⟩
    · rw [List.range_add, List.range_succ_eq_map]
      simp [List.map_map, Function.comp_def]
    · intro i hi h
      rw [List.mem_range] at hi
      have := hu i (by omega) h
      omega
    · intro i hi h
      obtain ⟨m, hm, rfl⟩ := List.mem_map.mp hi
      rw [List.mem_range] at hm
      have := hu _ (by omega) h
      omega

theorem StExt.phi {a b : Stmt} (h : StExt a b) (l : Nat) (y : List Int) :
    aff ((b.trans[l]?).getD []) y = aff ((a.trans[l]?).getD []) y := by
  obtain ⟨_, _, z, hz, ho⟩ := h
  rw [hz]
  by_cases c : l < a.trans.length
  · rw [List.getElem?_append_left c]
  · rw [List.getElem?_append_right (by omega), List.getElem?_eq_none (by omega : a.trans.length ≤ l)]
    rcases e : z[l - a.trans.length]? with _ | r
    · rfl
    · have := ho r (List.mem_of_getElem? e)
      simp only [Option.getD_some, Option.getD_none, aff]
      rw [dot_all_zero _ _ this]
      simp [dot]

/-- C24. Splitting every statement by cuts that partition the space gives a program in which every
iteration of a statement is in exactly one of its pieces, and every dependent pair is represented by
exactly one new dependence, between the pieces its end points are in. Missing: the code may also run into
freed memory (`none`), see `C24_violated`. -/
theorem C24_split_partial (p p' : Prog) (D : Nat) (cuts : List Cst) (isEmpty : Cst → Bool)
    (hE : EmptyOracle isEmpty) (hD : ∀ st ∈ p.stmts, st.dim = D)
    (hp : CutsPartition (D + p.npar + 1) cuts)
    (hd : ∀ d ∈ p.deps, d.src < p.stmts.length ∧ d.dest < p.stmts.length ∧ p.DepFits d)
    (h : issAll isEmpty cuts p = some p') : SplitOf p p' (fun j => j / cuts.length) := by
  have hne : cuts ≠ [] := by
    rintro rfl
    obtain ⟨a, b, c, e, _⟩ := hp.2 (List.replicate (D + p.npar) 0) (by simp)
    simp at e
  have hpos : 0 < cuts.length := List.length_pos_iff.mpr hne
  have hdim : ∀ j < p.stmts.length, p.dim j = D := fun j hj => by
    simp [Prog.dim, List.getElem?_eq_getElem hj, hD _ (List.getElem_mem hj)]
  have hd' : ∀ d ∈ p.deps, d.src < p.stmts.length ∧ d.dest < p.stmts.length ∧ d.dpoly.WF ∧
      d.dpoly.ncols = D + D + p.npar + 1 := fun d hdm => by
    obtain ⟨a, b, c⟩ := hd d hdm
    refine ⟨a, b, c.wf, ?_⟩
    rw [c.cols, hdim _ a, hdim _ b]
  unfold issAll at h
  simp only [Option.bind_eq_bind, Option.bind_eq_some_iff] at h
  obtain ⟨p1, h1, h2⟩ := h
  have hP := issPass p D cuts isEmpty hE hD hp hd' hne _ (le_refl _) p1 h1
  obtain ⟨E, hE1, hE2⟩ := hP.deps
  have hends : ∀ d ∈ p.deps, ∀ nd ∈ E d,
      (∃ a cut, cuts[a]? = some cut ∧ nd.src = p.stmts.length + d.src * cuts.length + a ∧
        ∀ x y q : List Int, x.length = D → y.length = D → q.length = p.npar →
          nd.dpoly.Sat (x ++ y ++ q) → cut.Sat (x ++ q)) ∧
      (∃ a cut, cuts[a]? = some cut ∧ nd.dest = p.stmts.length + d.dest * cuts.length + a ∧
        ∀ x y q : List Int, x.length = D → y.length = D → q.length = p.npar →
          nd.dpoly.Sat (x ++ y ++ q) → cut.Sat (y ++ q)) := by
    intro d hdm nd hnd
    obtain ⟨a, b, _⟩ := hd' d hdm
    obtain ⟨m1, m2, _⟩ := (hE2 d hdm).mem nd hnd
    constructor
    · rcases m1 with ⟨k, _⟩ | ⟨_, k⟩
      · omega
      · exact k
    · rcases m2 with ⟨k, _⟩ | ⟨_, k⟩
      · omega
      · exact k
  have hlast : ∀ i a : Nat, i < p.stmts.length → a < cuts.length →
      i * cuts.length + a < p.stmts.length * cuts.length := by
    intro i a hi ha
    have : (i + 1) * cuts.length ≤ p.stmts.length * cuts.length := Nat.mul_le_mul_right _ hi
    rw [Nat.add_mul] at this
    omega
  have hlt : ∀ (a : Nat) (c : Cst), cuts[a]? = some c → a < cuts.length := fun a c e => by
    rw [List.getElem?_eq_some_iff] at e; exact e.1
  obtain ⟨r1, r2, r3⟩ := removeFirst _ p1 p' h2 (by
    intro nd hnd
    rw [hE1] at hnd
    obtain ⟨d, hdm, hnd⟩ := List.mem_flatMap.mp hnd
    obtain ⟨⟨a, c, k1, k2, _⟩, ⟨b, c', k3, k4, _⟩⟩ := hends d hdm nd hnd
    obtain ⟨d1, d2, _⟩ := hd' d hdm
    have e1 := hlast _ _ d1 (hlt _ _ k1)
    have e2 := hlast _ _ d2 (hlt _ _ k3)
    rw [hP.len]
    omega)
  have hlen : p'.stmts.length = p.stmts.length * cuts.length := by
    rw [r2, List.length_drop, hP.len]; omega
  have hnp : p'.npar = p.npar := r1.trans hP.npar
  -- piece `i * nc + a`
  have hpiece : ∀ (i a : Nat) (st : Stmt) (cut : Cst), p.stmts[i]? = some st → cuts[a]? = some cut →
      ∃ b, p'.stmts[i * cuts.length + a]? = some b ∧ StExt (issPiece st cut) b := by
    intro i a st cut hi ha
    have : i < p.stmts.length := by rw [List.getElem?_eq_some_iff] at hi; exact hi.1
    obtain ⟨b, hb, eb⟩ := hP.new i a st cut this hi ha
    refine ⟨b, ?_, eb⟩
    rw [r2, List.getElem?_drop, ← Nat.add_assoc]
    exact hb
  have hdiv : ∀ i a : Nat, a < cuts.length → (i * cuts.length + a) / cuts.length = i := by
    intro i a ha
    rw [Nat.mul_comm, Nat.mul_add_div hpos, Nat.div_eq_of_lt ha, Nat.add_zero]
  have hget : ∀ j, j < p'.stmts.length → ∃ st cut b, j / cuts.length < p.stmts.length ∧
      p.stmts[j / cuts.length]? = some st ∧ cuts[j % cuts.length]? = some cut ∧ p'.stmts[j]? = some b ∧
      StExt (issPiece st cut) b := by
    intro j hj
    rw [hlen] at hj
    have h1 : j / cuts.length < p.stmts.length := Nat.div_lt_of_lt_mul (by rw [Nat.mul_comm]; omega)
    have h2 : j % cuts.length < cuts.length := Nat.mod_lt _ hpos
    obtain ⟨b, hb, eb⟩ := hpiece _ _ _ _ (List.getElem?_eq_getElem h1) (List.getElem?_eq_getElem h2)
    rw [Nat.div_add_mod' j cuts.length] at hb
    exact ⟨_, _, b, h1, List.getElem?_eq_getElem h1, List.getElem?_eq_getElem h2, hb, eb⟩
  have hiter : ∀ (i a : Nat) (cut : Cst) (x q : List Int), cuts[a]? = some cut → i < p.stmts.length →
      (p'.Iter (i * cuts.length + a) x q ↔ p.Iter i x q ∧ cut.Sat (x ++ q)) := by
    intro i a cut x q ha hi
    obtain ⟨b, hb, e1, e2, _⟩ := hpiece i a _ cut (List.getElem?_eq_getElem hi) ha
    unfold Prog.Iter
    rw [hb, List.getElem?_eq_getElem hi, hnp]
    simp only [Option.some.injEq, exists_eq_left', e1, e2, issPiece, stmtDup, C27_add]
    constructor
    · rintro ⟨a1, a2, a3, a4⟩; exact ⟨⟨a1, a2, a3⟩, a4⟩
    · rintro ⟨⟨a1, a2, a3⟩, a4⟩; exact ⟨a1, a2, a3, a4⟩
  have hdim' : ∀ j < p'.stmts.length, p'.dim j = D := by
    intro j hj
    obtain ⟨st, cut, b, g1, g2, g3, g4, g5⟩ := hget j hj
    simp only [Prog.dim, g4, Option.map_some, Option.getD_some, g5.1]
    exact (hD _ (List.mem_of_getElem? g2) : st.dim = D)
  refine ⟨hnp, ?_, ?_, ?_, ?_⟩
  · intro j hj
    obtain ⟨st, cut, b, g1, g2, g3, g4, g5⟩ := hget j hj
    refine ⟨g1, by rw [hdim' j hj, hdim _ g1], fun l x q => ?_⟩
    unfold Prog.phi Prog.row
    rw [g4, g2]
    exact g5.phi l (x ++ q)
  · intro j x q hj
    have hjl : j < p'.stmts.length := by
      obtain ⟨st, hst, _⟩ := hj
      rw [List.getElem?_eq_some_iff] at hst; exact hst.1
    obtain ⟨st, cut, b, g1, g2, g3, g4, g5⟩ := hget j hjl
    rw [← Nat.div_add_mod' j cuts.length] at hj
    exact ((hiter _ _ cut x q g3 g1).mp hj).1
  · intro i x q hi
    have hil : i < p.stmts.length := by
      obtain ⟨st, hst, _⟩ := hi
      rw [List.getElem?_eq_some_iff] at hst; exact hst.1
    have hxl : x.length = D ∧ q.length = p.npar := by
      obtain ⟨st, hst, a, b, _⟩ := hi
      exact ⟨a.trans (hD _ (List.mem_of_getElem? hst)), b⟩
    obtain ⟨a, ha, ⟨c, hc, hcs⟩, hu⟩ := (exactlyOne_range _ _).mp
      (hp.2 (x ++ q) (by simp; omega)).range
    rw [exactlyOne_range]
    refine ⟨i * cuts.length + a, by rw [hlen]; exact hlast _ _ hil ha,
      ⟨hdiv _ _ ha, (hiter i a c x q hc hil).mpr ⟨hi, hcs⟩⟩, ?_⟩
    rintro j hj ⟨e, hji⟩
    obtain ⟨st, cut, b, g1, g2, g3, g4, g5⟩ := hget j hj
    have e2 := Nat.div_add_mod' j cuts.length
    rw [e] at e2
    rw [← e2] at hji
    have := hu _ (hlt _ _ g3) ⟨cut, g3, ((hiter i _ cut x q g3 hil).mp hji).2⟩
    rw [← e2, this]
  · refine ⟨p.deps.map (fun d => (E d).map (fun nd =>
        { nd with src := nd.src - p.stmts.length, dest := nd.dest - p.stmts.length })), ?_, by simp, ?_⟩
    · rw [r3, hE1, List.map_flatMap, List.flatMap_def]
    · intro k d part hk hpk
      rw [List.getElem?_map, hk, Option.map_some, Option.some.injEq] at hpk
      subst hpk
      have hdm := List.mem_of_getElem? hk
      obtain ⟨d1, d2, d3, d4⟩ := hd' d hdm
      have hinst : ∀ nd ∈ E d, ∀ s t q : List Int,
          (p'.Inst { nd with src := nd.src - p.stmts.length, dest := nd.dest - p.stmts.length } s t q ↔
          s.length = D ∧ t.length = D ∧ q.length = p.npar ∧ nd.dpoly.Sat (s ++ t ++ q)) := by
        intro nd hnd s t q
        obtain ⟨⟨a, c, k1, k2, _⟩, ⟨b, c', k3, k4, _⟩⟩ := hends d hdm nd hnd
        have e1 := hlast _ _ d1 (hlt _ _ k1)
        have e2 := hlast _ _ d2 (hlt _ _ k3)
        have f1 := hdim' (nd.src - p.stmts.length) (by omega)
        have f2 := hdim' (nd.dest - p.stmts.length) (by omega)
        constructor
        · rintro ⟨a1, a2, a3, a4⟩
          exact ⟨a1.trans f1, a2.trans f2, a3.trans hnp, a4⟩
        · rintro ⟨a1, a2, a3, a4⟩
          exact ⟨a1.trans f1.symm, a2.trans f2.symm, a3.trans hnp.symm, a4⟩
      have hinst0 : ∀ s t q : List Int, (p.Inst d s t q ↔
          s.length = D ∧ t.length = D ∧ q.length = p.npar ∧ d.dpoly.Sat (s ++ t ++ q)) := by
        intro s t q
        constructor
        · rintro ⟨a1, a2, a3, a4⟩
          exact ⟨a1.trans (hdim _ d1), a2.trans (hdim _ d2), a3, a4⟩
        · rintro ⟨a1, a2, a3, a4⟩
          exact ⟨a1.trans (hdim _ d1).symm, a2.trans (hdim _ d2).symm, a3, a4⟩
      constructor
      · intro nd' hnd'
        obtain ⟨nd, hnd, rfl⟩ := List.mem_map.mp hnd'
        obtain ⟨⟨a, c, k1, k2, k5⟩, ⟨b, c', k3, k4, k6⟩⟩ := hends d hdm nd hnd
        obtain ⟨_, _, m3, m4, m5, m6⟩ := (hE2 d hdm).mem nd hnd
        have la := hlt _ _ k1
        have lb := hlt _ _ k3
        have e1 := hlast _ _ d1 la
        have e2 := hlast _ _ d2 lb
        have s1 : nd.src - p.stmts.length = d.src * cuts.length + a := by omega
        have s2 : nd.dest - p.stmts.length = d.dest * cuts.length + b := by omega
        refine ⟨by simp only; omega, by simp only; omega, ⟨m4, ?_⟩, ?_, ?_, m3, ?_⟩
        · simp only
          rw [hdim' _ (by omega), hdim' _ (by omega), m5, d4, hnp]
        · simp only
          rw [s1, hdiv _ _ la]
        · simp only
          rw [s2, hdiv _ _ lb]
        · intro s t q hi
          obtain ⟨i1, i2, i3, i4⟩ := (hinst nd hnd s t q).mp hi
          refine ⟨(hinst0 s t q).mpr ⟨i1, i2, i3, m6 s t q i1 i2 i3 i4⟩, fun hs => ?_, fun ht => ?_⟩
          · simp only
            rw [s1]
            exact (hiter _ _ c s q k1 d1).mpr ⟨hs, k5 s t q i1 i2 i3 i4⟩
          · simp only
            rw [s2]
            exact (hiter _ _ c' t q k3 d2).mpr ⟨ht, k6 s t q i1 i2 i3 i4⟩
      · intro s t q hi
        obtain ⟨i1, i2, i3, i4⟩ := (hinst0 s t q).mp hi
        apply ExactlyOne.map
        exact ((hE2 d hdm).one s t q i1 i2 i3 i4).congr
          (fun nd hnd => ⟨fun k => (hinst nd hnd s t q).mpr ⟨i1, i2, i3, k⟩,
            fun k => ((hinst nd hnd s t q).mp k).2.2.2⟩)

theorem iss_defined {p p1 : Prog} {D k : Nat} {cuts : List Cst} (h : PassOK p D cuts k p1)
    (isEmpty : Cst → Bool) (hE : EmptyOracle isEmpty) (hk : k < p.stmts.length)
    (hD : ∀ st ∈ p.stmts, st.dim = D) (hp : CutsPartition (D + p.npar + 1) cuts)
    (hd : ∀ d ∈ p.deps, d.src < p.stmts.length ∧ d.dest < p.stmts.length ∧ d.dpoly.ncols = D + D + p.npar + 1)
    (hne : p.deps = [] ∨ ∃ d ∈ p.deps, ∃ s t q : List Int, s.length = D ∧ t.length = D ∧ q.length = p.npar ∧
      d.dpoly.Sat (s ++ t ++ q)) : ∃ p2, iss isEmpty cuts p1 k = some p2 := by
  obtain ⟨b, hb, eb⟩ := h.old k _ (List.getElem?_eq_getElem hk)
  obtain ⟨m, hm⟩ := issPieces_defined k cuts p1 b hb
  obtain ⟨m1, m2, m3, m4, m5⟩ := issPieces_spec k cuts p1 m b hb hm
  unfold iss
  simp only [Option.bind_eq_bind] at hm ⊢
  rw [hm, Option.bind_some]
  unfold updateDepsAfterIss
  by_cases hcuts : cuts = []
  · rw [if_pos hcuts]; exact ⟨_, rfl⟩
  rw [if_neg hcuts]
  simp only
  rw [if_neg]
  · exact ⟨_, rfl⟩
  rintro ⟨c1, c2⟩
  obtain ⟨E, hE1, hE2⟩ := h.deps
  rcases hne with e | ⟨d, hdm, s, t, q, hs, ht, hq, hsat⟩
  · rw [m2, hE1, e] at c2
    simp at c2
  · obtain ⟨d1, d2, d3⟩ := hd d hdm
    have e : m.npar = p.npar := m1.trans h.npar
    have hP := hE2 d hdm
    rw [← e] at hP d3 hp hq
    have st := hP.step m isEmpty hE hk d1 d2 d3 (fun j hj => by
      have hj1 : j < p1.stmts.length := by rw [h.len]; exact hj
      have := h.dims (by omega) hD j hj
      obtain ⟨b2, hb2, eb2⟩ := m4 j _ (List.getElem?_eq_getElem hj1)
      unfold dimOf at this ⊢
      rw [List.getElem?_eq_getElem hj1] at this
      rw [hb2]
      simpa [eb2.1] using this) hp
    obtain ⟨A, nd, C, eq, _⟩ := st.one s t q hs ht hq hsat
    rw [List.flatMap_eq_nil_iff] at c1
    have hmem : nd ∈ (E d).flatMap (issSplitDep isEmpty m cuts k (p.stmts.length + k * cuts.length)) := by
      rw [eq]; simp
    obtain ⟨nd0, hnd0, hnd⟩ := List.mem_flatMap.mp hmem
    have := c1 nd0 (by rw [m2, hE1]; exact List.mem_flatMap.mpr ⟨d, hdm, hnd0⟩)
    rw [h.len] at this
    rw [this] at hnd
    cases hnd

/-- C24. The splitting runs to the end when the program has no dependences or some dependence has a
dependent pair. -/
theorem C24_defined (p : Prog) (D : Nat) (cuts : List Cst) (isEmpty : Cst → Bool)
    (hE : EmptyOracle isEmpty) (hD : ∀ st ∈ p.stmts, st.dim = D)
    (hp : CutsPartition (D + p.npar + 1) cuts)
    (hd : ∀ d ∈ p.deps, d.src < p.stmts.length ∧ d.dest < p.stmts.length ∧ p.DepFits d)
    (hne : p.deps = [] ∨ ∃ d ∈ p.deps, ∃ s t q, p.Inst d s t q) :
    ∃ p', issAll isEmpty cuts p = some p' := by
  have hcne : cuts ≠ [] := by
    rintro rfl
    obtain ⟨a, b, c, e, _⟩ := hp.2 (List.replicate (D + p.npar) 0) (by simp)
    simp at e
  have hdim : ∀ j < p.stmts.length, p.dim j = D := fun j hj => by
    simp [Prog.dim, List.getElem?_eq_getElem hj, hD _ (List.getElem_mem hj)]
  have hd' : ∀ d ∈ p.deps, d.src < p.stmts.length ∧ d.dest < p.stmts.length ∧ d.dpoly.WF ∧
      d.dpoly.ncols = D + D + p.npar + 1 := fun d hdm => by
    obtain ⟨a, b, c⟩ := hd d hdm
    refine ⟨a, b, c.wf, ?_⟩
    rw [c.cols, hdim _ a, hdim _ b]
  have hd'' : ∀ d ∈ p.deps, d.src < p.stmts.length ∧ d.dest < p.stmts.length ∧
      d.dpoly.ncols = D + D + p.npar + 1 := fun d hdm =>
    ⟨(hd' d hdm).1, (hd' d hdm).2.1, (hd' d hdm).2.2.2⟩
  have hne' : p.deps = [] ∨ ∃ d ∈ p.deps, ∃ s t q : List Int, s.length = D ∧ t.length = D ∧ q.length = p.npar ∧
      d.dpoly.Sat (s ++ t ++ q) := by
    rcases hne with e | ⟨d, hdm, s, t, q, a1, a2, a3, a4⟩
    · exact Or.inl e
    · exact Or.inr ⟨d, hdm, s, t, q, a1.trans (hdim _ (hd' d hdm).1), a2.trans (hdim _ (hd' d hdm).2.1), a3, a4⟩
  have pass : ∀ k, k ≤ p.stmts.length → ∃ p1, (List.range k).foldlM (iss isEmpty cuts) p = some p1 := by
    intro k
    induction k with
    | zero => exact fun _ => ⟨p, rfl⟩
    | succ k ih =>
      intro hk
      obtain ⟨m, hm⟩ := ih (by omega)
      have hP := issPass p D cuts isEmpty hE hD hp hd' hcne k (by omega) m hm
      obtain ⟨p2, hp2⟩ := iss_defined hP isEmpty hE (by omega) hD hp hd'' hne'
      refine ⟨p2, ?_⟩
      rw [List.range_succ, List.foldlM_append, hm]
      simp [hp2]
  obtain ⟨p1, h1⟩ := pass _ (le_refl _)
  have hP := issPass p D cuts isEmpty hE hD hp hd' hcne _ (le_refl _) p1 h1
  have rem : ∀ n, n ≤ p1.stmts.length → ∃ p2, (List.range n).foldlM (fun p _ => removeStmt p 0) p1 = some p2 ∧
      p2.stmts.length = p1.stmts.length - n := by
    intro n
    induction n with
    | zero => exact fun _ => ⟨p1, rfl, rfl⟩
    | succ n ih =>
      intro hn
      obtain ⟨m, hm, hl⟩ := ih (by omega)
      obtain ⟨a, b⟩ := removeLoop_eq (m.stmts.length - 1 - 0) 0 m.stmts m.deps (by omega)
      rcases e : removeLoop (m.stmts.length - 1 - 0) 0 (m.stmts, m.deps) with ⟨ss, ds⟩
      rw [e] at a b
      rw [List.range_succ, List.foldlM_append, hm]
      simp only [Option.bind_eq_bind, Option.bind_some, List.foldlM_cons, List.foldlM_nil, pure]
      unfold removeStmt
      rw [if_neg (by omega), e]
      refine ⟨_, rfl, ?_⟩
      simp only at a ⊢
      rw [a, List.length_eraseIdx_of_lt (by omega)]
      omega
  obtain ⟨p2, h2, _⟩ := rem p.stmts.length (by rw [hP.len]; omega)
  refine ⟨p2, ?_⟩
  unfold issAll
  simp [h1, h2]

/-- One statement `0 <= i < N`, schedule `i`, with the dependence `i' = N - 1 - i` of a reversal. -/
def exRev : Prog :=
  ⟨1, 1, [⟨1, 1, ⟨3, [⟨false, [1, 0, 0]⟩, ⟨false, [-1, 1, -1]⟩]⟩, [true], [[1, 0, 0]], [.loop]⟩],
    [⟨0, 0, false, ⟨4, [⟨true, [1, 1, -1, 1]⟩, ⟨false, [1, 0, 0, 0]⟩, ⟨false, [0, 1, 0, 0]⟩]⟩,
      ⟨4, [⟨true, [1, 1, -1, 1]⟩, ⟨false, [1, 0, 0, 0]⟩, ⟨false, [0, 1, 0, 0]⟩]⟩, false, -1, [], []⟩], [.loop]⟩

/-- The cuts of `2i = N`. -/
def exRevCuts : List Cst := [⟨3, [⟨false, [-2, 1, -1]⟩]⟩, ⟨3, [⟨false, [2, -1, 0]⟩]⟩]

theorem exRevCuts_partition : CutsPartition 3 exRevCuts := by
  refine ⟨by decide, fun y hy => ?_⟩
  obtain ⟨a, b, rfl⟩ : ∃ a b, y = [a, b] := by
    rcases y with _ | ⟨a, _ | ⟨b, _ | ⟨c, y⟩⟩⟩ <;> simp at hy
    exact ⟨a, b, rfl⟩
  by_cases c : 2 * a < b
  · refine ⟨[], _, [_], rfl, ?_, by simp, ?_⟩
    · simp [Cst.Sat, Row.Sat, aff]; omega
    · simp [Cst.Sat, Row.Sat, aff]; omega
  · refine ⟨[_], _, [], rfl, ?_, ?_, by simp⟩
    · simp [Cst.Sat, Row.Sat, aff]; omega
    · simp [Cst.Sat, Row.Sat, aff]; omega

/-- The hypotheses of `C24_split_partial` and `C24_defined` are met by `exRev`; the result has two pieces
and (with no part found empty) four dependences between them. -/
example : (∀ st ∈ exRev.stmts, st.dim = 1) ∧ CutsPartition (1 + exRev.npar + 1) exRevCuts ∧
    (∀ d ∈ exRev.deps, d.src < exRev.stmts.length ∧ d.dest < exRev.stmts.length ∧ exRev.DepFits d) ∧
    (∃ d ∈ exRev.deps, ∃ s t q, exRev.Inst d s t q) ∧
    (issAll (fun _ => false) exRevCuts exRev).map (fun p => (p.stmts.map (·.domain), p.deps.map (fun d => (d.src, d.dest)))) =
      some ([⟨3, [⟨false, [1, 0, 0]⟩, ⟨false, [-1, 1, -1]⟩, ⟨false, [-2, 1, -1]⟩]⟩,
        ⟨3, [⟨false, [1, 0, 0]⟩, ⟨false, [-1, 1, -1]⟩, ⟨false, [2, -1, 0]⟩]⟩], [(0, 0), (0, 1), (1, 0), (1, 1)]) := by
  refine ⟨by decide, exRevCuts_partition, ?_, ?_, by decide +kernel⟩
  · intro d hd
    simp only [exRev, List.mem_singleton] at hd
    subst hd
    exact ⟨by decide, by decide, ⟨by decide, by decide⟩⟩
  · exact ⟨_, List.mem_singleton.mpr rfl, [0], [4], [5], rfl, rfl, rfl, by simp [Cst.Sat, Row.Sat, aff]⟩

/-- `exRev` with a dependence that has no pair (`i >= 0` and `-i - 1 >= 0`). -/
def exRevEmpty : Prog :=
  { exRev with deps := [⟨0, 0, false, ⟨4, [⟨false, [1, 0, 0, 0]⟩, ⟨false, [-1, 0, 0, -1]⟩]⟩,
      ⟨4, [⟨false, [1, 0, 0, 0]⟩, ⟨false, [-1, 0, 0, -1]⟩]⟩, false, -1, [], []⟩] }

/-- C24 fails when no dependence has a pair: all new dependences are empty, the old ones have been freed
and `prog->deps` still points to them. -/
theorem C24_violated (isEmpty : Cst → Bool) (hE : EmptyOracle isEmpty) :
    CutsPartition (1 + exRevEmpty.npar + 1) exRevCuts ∧
    (∀ d ∈ exRevEmpty.deps, d.src < exRevEmpty.stmts.length ∧ d.dest < exRevEmpty.stmts.length ∧ exRevEmpty.DepFits d) ∧
    issAll isEmpty exRevCuts exRevEmpty = none := by
  refine ⟨exRevCuts_partition, ?_, ?_⟩
  · intro d hd
    simp only [exRevEmpty, List.mem_singleton] at hd
    subst hd
    exact ⟨by decide, by decide, ⟨by decide, by decide⟩⟩
  · have emp : ∀ c : Cst, c.WF → c.ncols = 4 → (⟨false, [1, 0, 0, 0]⟩ : Row) ∈ c.rows →
        (⟨false, [-1, 0, 0, -1]⟩ : Row) ∈ c.rows → isEmpty c = true := by
      intro c hw hn h1 h2
      rw [hE c hw]
      rintro ⟨x, hx, hs⟩
      obtain ⟨a, b, e, rfl⟩ : ∃ a b e, x = [a, b, e] := by
        rcases x with _ | ⟨a, _ | ⟨b, _ | ⟨e, _ | ⟨f, x⟩⟩⟩⟩ <;> simp [hn] at hx
        exact ⟨a, b, e, rfl⟩
      have k1 := hs _ h1
      have k2 := hs _ h2
      simp [Row.Sat, aff] at k1 k2
      omega
    have e : (List.range exRevEmpty.stmts.length) = [0] := by decide
    unfold issAll
    rw [e]
    simp only [List.foldlM_cons, List.foldlM_nil]
    have : iss isEmpty exRevCuts exRevEmpty 0 = none := by
      obtain ⟨m, hm⟩ : ∃ m, exRevCuts.foldlM (fun (p : Prog) c => do
          let st ← p.stmts[0]?
          return addGivenStmt p (issPiece st c)) exRevEmpty = some m := issPieces_defined 0 _ _ _ rfl
      obtain ⟨m1, m2, m3, m4, m5⟩ := issPieces_spec 0 exRevCuts exRevEmpty m _ rfl hm
      have md : dimOf m 0 = 1 := by
        obtain ⟨b, hb, eb⟩ := m4 0 _ rfl
        unfold dimOf
        rw [hb]
        simp [eb.1]
      unfold iss
      rw [hm]
      simp only [Option.bind_eq_bind, Option.bind_some]
      unfold updateDepsAfterIss
      rw [if_neg (by decide)]
      simp only
      rw [if_pos]
      rw [m2]
      refine ⟨?_, by decide⟩
      rw [List.flatMap_eq_nil_iff]
      intro d hd
      simp only [exRevEmpty, List.mem_singleton] at hd
      subst hd
      unfold issSplitDep
      rw [if_neg (by simp), List.flatMap_eq_nil_iff]
      intro s hs
      rw [List.flatMap_eq_nil_iff]
      intro t ht
      simp only [if_true, List.mem_range] at hs ht
      have hs2 : s < 2 := hs
      have ht2 : t < 2 := ht
      unfold issCutDep
      simp only [if_true, md]
      rw [if_pos]
      apply emp
      · have : s = 0 ∨ s = 1 := by omega
        have : t = 0 ∨ t = 1 := by omega
        rcases ‹s = 0 ∨ s = 1› with rfl | rfl <;> rcases ‹t = 0 ∨ t = 1› with rfl | rfl <;> decide
      · rfl
      · simp [addCst]
      · simp [addCst]
    rw [this]
    rfl

end Pluto
