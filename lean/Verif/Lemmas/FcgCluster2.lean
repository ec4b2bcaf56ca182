import Verif.Lemmas.FcgCluster
/-! A level with one loop per statement as a coefficient vector. -/
namespace Pluto

theorem origOf_padded {p : Prog} (hp : p.Padded) {i k : Nat} (hi : i < p.stmts.length) (hk : k < p.nvar) :
    (origOf p i).getD k true = decide (k < depthOf p i) ∧ (origOf p i).getD k false = decide (k < depthOf p i) := by
  obtain ⟨h1, _, h3, _⟩ := hp p.stmts[i] (by simp)
  have e1 : origOf p i = p.stmts[i].isOrig := by simp [origOf, hi]
  have e2 : depthOf p i = p.stmts[i].dimOrig := by simp [depthOf, stmtBlock, hi]
  rw [e1, e2, h3]
  simp only [List.getD_eq_getElem?_getD]
  by_cases h : k < p.stmts[i].dimOrig
  · rw [List.getElem?_append_left (by simpa using h)]
    simp [h]
  · rw [List.getElem?_append_right (by simpa using h), List.getElem?_replicate, if_pos (by simp; omega)]
    simp [h]

theorem depth_le {p : Prog} (hp : p.Padded) {i : Nat} (hi : i < p.stmts.length) : depthOf p i ≤ p.nvar := by
  have := (hp p.stmts[i] (by simp)).1
  simpa [depthOf, stmtBlock, hi] using this

/-- In the statements of `m`, only the coefficient of loop `f i` and the shift may be other than 0; the coefficient of a loop
that the statement does not have may only be so if `one i`. -/
structure IsLev (p : Prog) (m : List Nat) (f : Nat → Nat) (one : Nat → Bool) (x : List ℚ) : Prop where
  len : SolLen p x
  mem : ∀ i ∈ m, i < p.stmts.length ∧ f i < p.nvar
  other : ∀ i ∈ m, ∀ r < p.nvar, r ≠ f i → x.getD (stmtOffset p.nvar p.npar i + r) 0 = 0
  none : ∀ i ∈ m, depthOf p i ≤ f i → one i = false → x.getD (stmtOffset p.nvar p.npar i + f i) 0 = 0

/-- The level given by a vector. -/
def levOf (p : Prog) (f : Nat → Nat) (x : List ℚ) : LoopLevel :=
  ⟨f, fun i => if f i < depthOf p i then x.getD (stmtOffset p.nvar p.npar i + f i) 0 else 0,
    fun i => x.getD (stmtOffset p.nvar p.npar i + p.nvar) 0⟩

/-- Column `idx` belongs to a padding dimension of statement `i`. -/
def IsPad (p : Prog) (i idx : Nat) : Prop :=
  ∃ k < p.nvar, (origOf p i).getD k true = false ∧ idx = stmtOffset p.nvar p.npar i + k

open Classical in
/-- Zeros in the columns of padding dimensions of two statements. -/
noncomputable def padOut (p : Prog) (i j : Nat) (x : List ℚ) : List ℚ :=
  (List.range x.length).map (fun idx => if IsPad p i idx ∨ IsPad p j idx then 0 else x.getD idx 0)

theorem padOut_len (p : Prog) (i j : Nat) (x : List ℚ) : (padOut p i j x).length = x.length := by simp [padOut]

open Classical in
theorem padOut_get (p : Prog) (i j : Nat) (x : List ℚ) (idx : Nat) :
    (padOut p i j x).getD idx 0 = if IsPad p i idx ∨ IsPad p j idx then 0 else x.getD idx 0 := by
  by_cases h : idx < x.length
  · unfold padOut
    rw [List.getD_eq_getElem?_getD, List.getElem?_map, List.getElem?_range h, Option.map_some, Option.getD_some]
  · rw [List.getD_eq_getElem?_getD, List.getElem?_eq_none (by rw [padOut_len]; omega), Option.getD_none,
      List.getD_eq_getElem?_getD, List.getElem?_eq_none (by omega), Option.getD_none]
    simp

theorem padOut_pad (p : Prog) (i j : Nat) (x : List ℚ) {idx : Nat} (h : IsPad p i idx ∨ IsPad p j idx) :
    (padOut p i j x).getD idx 0 = 0 := by rw [padOut_get, if_pos h]

theorem padOut_not (p : Prog) (i j : Nat) (x : List ℚ) {idx : Nat} (h : ¬ (IsPad p i idx ∨ IsPad p j idx)) :
    (padOut p i j x).getD idx 0 = x.getD idx 0 := by rw [padOut_get, if_neg h]

theorem padOut_zero (p : Prog) (i j : Nat) (x : List ℚ) {idx : Nat} (h : x.getD idx 0 = 0) : (padOut p i j x).getD idx 0 = 0 := by
  classical
  rw [padOut_get, h, ite_self]

theorem padOut_agree (p : Prog) (i j : Nat) (x : List ℚ) : PadAgree p i j x (padOut p i j x) := by
  refine ⟨(padOut_len p i j x).symm, fun idx _ => ?_⟩
  by_cases h : IsPad p i idx ∨ IsPad p j idx
  · right
    rcases h with ⟨k, hk, h1, h2⟩ | ⟨k, hk, h1, h2⟩
    · exact ⟨k, hk, Or.inl ⟨h1, h2⟩⟩
    · exact ⟨k, hk, Or.inr ⟨h1, h2⟩⟩
  · exact Or.inl (padOut_not p i j x h).symm

theorem getD_ext {x y : List ℚ} (hl : x.length = y.length) (h : ∀ idx, x.getD idx 0 = y.getD idx 0) : x = y := by
  apply List.ext_getElem hl
  intro n h1 h2
  have := h n
  simpa [List.getD_eq_getElem?_getD, h1, h2] using this

section
variable {p : Prog} (hp : p.Padded)
include hp

theorem isPad_iff {i k idx : Nat} (hi : i < p.stmts.length) (hk : k ≤ p.nvar) (e : idx = stmtOffset p.nvar p.npar i + k) (j : Nat)
    (hj : j < p.stmts.length) : IsPad p j idx ↔ j = i ∧ k < p.nvar ∧ depthOf p i ≤ k := by
  constructor
  · rintro ⟨k', hk', h1, h2⟩
    obtain ⟨rfl, rfl⟩ := off_inj (by omega) (by omega) (h2.symm.trans e)
    rw [(origOf_padded hp hi hk').1] at h1
    exact ⟨rfl, hk', by simpa using h1⟩
  · rintro ⟨rfl, h1, h2⟩
    exact ⟨k, h1, by rw [(origOf_padded hp hi h1).1]; simpa using h2, e⟩

theorem dep_lev {o : SearchOpts} {m : List Nat} {f : Nat → Nat} {one : Nat → Bool} {x : List ℚ} (hx : IsLev p m f one x) {d : Dep}
    (hd : DepOK p d) (h1 : d.src ∈ m) (h2 : d.dest ∈ m)
    (hc : (∀ i ∈ m, one i = true → f i < depthOf p i) ∨ d.src ≠ stmtOffset p.nvar p.npar d.dest)
    (hne : ∃ s t q : List ℚ, DepInst d.dpoly p.nvar p.nvar p.npar s t q)
    (hneb : ∃ s t q : List ℚ, DepInst d.bpoly p.nvar p.nvar p.npar s t q) :
    (depCst o.nodepbound p d).Sat x ↔
      (levOf p f x).Weak p d ∧ (o.nodepbound = false → (levOf p f x).Bounded p (x.take p.npar) (x.getD p.npar 0) d) := by
  set y := padOut p d.src d.dest x with hy
  have hyl : y.length = x.length := padOut_len _ _ _ _
  have hsat : (depCst o.nodepbound p d).Sat x ↔ (depCst o.nodepbound p d).Sat y := by
    rcases hc with hc | hc
    · have hpad : ∀ i ∈ m, ∀ idx, IsPad p i idx → x.getD idx 0 = 0 := by
        rintro i hi idx ⟨k, hk, g1, rfl⟩
        rw [(origOf_padded hp (hx.mem i hi).1 hk).1] at g1
        have g1' : depthOf p i ≤ k := by simpa using g1
        by_cases e : k = f i
        · subst e
          refine hx.none i hi g1' ?_
          by_contra h
          have := hc i hi (by simpa using h)
          omega
        · exact hx.other i hi k hk e
      have : x = y := by
        refine getD_ext hyl.symm fun idx => ?_
        by_cases h : IsPad p d.src idx ∨ IsPad p d.dest idx
        · rw [hy, padOut_pad _ _ _ _ h]
          rcases h with h | h
          · exact hpad _ h1 _ h
          · exact hpad _ h2 _ h
        · rw [hy, padOut_not _ _ _ _ h]
      rw [← this]
    · exact depCst_padAgree hc (padOut_agree p _ _ x)
  have hval : ∀ i, i = d.src ∨ i = d.dest → ∀ z : List ℚ, z.length = p.nvar → hypValue p.nvar p.npar y i z = (levOf p f x).time i z := by
    intro i hi z hz
    have him : i ∈ m := by rcases hi with rfl | rfl <;> assumption
    obtain ⟨hin, hfn⟩ := hx.mem i him
    rw [hypValue_single (n := p.stmts.length) (k := f i) (by rw [hyl]; exact hx.len) hin
      (fun k' hk' hne => padOut_zero _ _ _ _ (hx.other i him k' hk' hne)) hfn z hz]
    unfold LoopLevel.time levOf
    simp only
    have e1 : y.getD (stmtOffset p.nvar p.npar i + p.nvar) 0 = x.getD (stmtOffset p.nvar p.npar i + p.nvar) 0 := by
      refine padOut_not _ _ _ _ ?_
      rw [isPad_iff hp hin le_rfl rfl _ hd.src, isPad_iff hp hin le_rfl rfl _ hd.dest]
      omega
    rw [e1]
    split_ifs with hlt
    · rw [padOut_not]
      rw [isPad_iff hp hin hfn.le rfl _ hd.src, isPad_iff hp hin hfn.le rfl _ hd.dest]
      omega
    · rw [padOut_pad]
      rw [isPad_iff hp hin hfn.le rfl _ hd.src, isPad_iff hp hin hfn.le rfl _ hd.dest]
      rcases hi with rfl | rfl
      · exact Or.inl ⟨rfl, hfn, by omega⟩
      · exact Or.inr ⟨rfl, hfn, by omega⟩
  have hz : ∀ i, i = d.src ∨ i = d.dest → PadZeroAt p y i := by
    intro i hi k hk ho
    refine padOut_pad _ _ _ _ ?_
    rcases hi with rfl | rfl
    · exact Or.inl ⟨k, hk, ho, rfl⟩
    · exact Or.inr ⟨k, hk, ho, rfl⟩
  have hlow : ∀ idx, idx ≤ p.npar → y.getD idx 0 = x.getD idx 0 := by
    intro idx hidx
    refine padOut_not _ _ _ _ ?_
    rintro (⟨k, _, _, h⟩ | ⟨k, _, _, h⟩) <;> unfold stmtOffset at h <;> omega
  have htake : y.take p.npar = x.take p.npar := by
    refine getD_ext (by simp [hyl]) fun idx => ?_
    simp only [List.getD_eq_getElem?_getD, List.getElem?_take]
    split_ifs with h
    · have := hlow idx h.le
      simpa only [List.getD_eq_getElem?_getD] using this
    · rfl
  rw [hsat, dep_level_at (o := o) (v := levOf p f x) hd (by unfold SolLen; rw [hyl]; exact hx.len) (hz _ (Or.inl rfl)) (hz _ (Or.inr rfl)) hne hneb
    (hval _ (Or.inl rfl)) (hval _ (Or.inr rfl)), htake, hlow _ le_rfl]

end

end Pluto
