import Verif.Lemmas.FcgCluster2
/-! A system of the clustered approach has a solution iff there is a level of the loops. -/
namespace Pluto

theorem off_cases {nvar npar n idx : Nat} (h0 : npar + 1 ≤ idx) (h1 : idx < npar + 1 + n * (nvar + 1)) :
    ∃ i < n, ∃ r ≤ nvar, idx = stmtOffset nvar npar i + r := by
  refine ⟨(idx - (npar + 1)) / (nvar + 1), ?_, (idx - (npar + 1)) % (nvar + 1), ?_, ?_⟩
  · rw [Nat.div_lt_iff_lt_mul (by omega)]; omega
  · have := Nat.mod_lt (idx - (npar + 1)) (show 0 < nvar + 1 by omega); omega
  · unfold stmtOffset
    have := Nat.div_add_mod (idx - (npar + 1)) (nvar + 1)
    rw [Nat.mul_comm] at this
    omega

theorem off_div {nvar npar i r : Nat} (hr : r ≤ nvar) : (stmtOffset nvar npar i + r - (npar + 1)) / (nvar + 1) = i ∧
    (stmtOffset nvar npar i + r - (npar + 1)) % (nvar + 1) = r := by
  have e : stmtOffset nvar npar i + r - (npar + 1) = r + (nvar + 1) * i := by
    unfold stmtOffset; rw [Nat.mul_comm]; omega
  rw [e]
  constructor
  · rw [Nat.add_mul_div_left _ _ (by omega), Nat.div_eq_of_lt (by omega)]; omega
  · rw [Nat.add_mul_mod_self_left, Nat.mod_eq_of_lt (by omega)]

/-- Coefficient of the loop of statement `i`. -/
def levCoef (p : Prog) (one : Nat → Bool) (v : LoopLevel) (i : Nat) : ℚ :=
  if v.loop i < depthOf p i then v.scale i else if one i then 1 else 0

/-- The vector of a level of the statements `m`. -/
def levVec (p : Prog) (m : List Nat) (one : Nat → Bool) (u : List ℚ) (w : ℚ) (v : LoopLevel) : List ℚ :=
  (List.range (p.npar + 1 + p.stmts.length * (p.nvar + 1))).map (fun idx =>
    if idx < p.npar then u.getD idx 0 else if idx = p.npar then w
    else
      let i := (idx - (p.npar + 1)) / (p.nvar + 1)
      let r := (idx - (p.npar + 1)) % (p.nvar + 1)
      if i ∈ m then if r = p.nvar then v.shift i else if r = v.loop i then levCoef p one v i else 0 else 0)

theorem levVec_len (p : Prog) (m : List Nat) (one : Nat → Bool) (u : List ℚ) (w : ℚ) (v : LoopLevel) :
    SolLen p (levVec p m one u w v) := by simp [SolLen, levVec]

theorem levVec_stmt (p : Prog) (m : List Nat) (one : Nat → Bool) (u : List ℚ) (w : ℚ) (v : LoopLevel) {i r : Nat}
    (hi : i < p.stmts.length) (hr : r ≤ p.nvar) : (levVec p m one u w v).getD (stmtOffset p.nvar p.npar i + r) 0 =
      if i ∈ m then if r = p.nvar then v.shift i else if r = v.loop i then levCoef p one v i else 0 else 0 := by
  have he := off_end (nvar := p.nvar) (npar := p.npar) hi
  have hlow : p.npar + 1 ≤ stmtOffset p.nvar p.npar i := by unfold stmtOffset; omega
  unfold levVec
  rw [List.getD_eq_getElem?_getD, List.getElem?_map, List.getElem?_range (by omega), Option.map_some, Option.getD_some,
    if_neg (by omega), if_neg (by omega)]
  obtain ⟨e1, e2⟩ := off_div (nvar := p.nvar) (npar := p.npar) (i := i) hr
  simp only [e1, e2]

theorem levVec_bound (p : Prog) (m : List Nat) (one : Nat → Bool) (u : List ℚ) (w : ℚ) (v : LoopLevel) (hu : u.length = p.npar) :
    (levVec p m one u w v).take p.npar = u ∧ (levVec p m one u w v).getD p.npar 0 = w := by
  constructor
  · apply List.ext_getElem
    · rw [List.length_take, levVec_len, hu]; omega
    · intro n h1 h2
      have hm : n < p.npar := by omega
      rw [List.getElem_take]
      simp [levVec, hm, h2]
  · unfold levVec
    rw [List.getD_eq_getElem?_getD, List.getElem?_map, List.getElem?_range (by omega), Option.map_some, Option.getD_some,
      if_neg (by omega), if_pos rfl]

/-- The statements of `m` have the loops `f i` at level `v`. -/
def TakesAll (o : SearchOpts) (p : Prog) (m : List Nat) (f : Nat → Nat) (free : Bool) (v : LoopLevel) : Prop :=
  ∀ i ∈ m, v.Takes o p i (f i) ∧ (free = false → v.shift i = 0)

section
variable {p : Prog} (hp : p.Padded) {m : List Nat} {f : Nat → Nat} {one : Nat → Bool} {free : Bool}
  (hm : ∀ i ∈ m, i < p.stmts.length ∧ f i < p.nvar) (hone : ∀ i ∈ m, f i < depthOf p i → one i = true)
include hm

theorem mode_sat {x : List ℚ} (hx : SolLen p x) (hnn : ∀ idx < x.length, 0 ≤ x.getD idx 0) :
    (∀ idx < x.length, if (clMode p m f one free idx).1 then x.getD idx 0 + (clMode p m f one free idx).2 = 0
      else 0 ≤ x.getD idx 0 + (clMode p m f one free idx).2) ↔
    ∀ i < p.stmts.length, ∀ r ≤ p.nvar,
      (i ∈ m → r = f i → one i = true → 1 ≤ x.getD (stmtOffset p.nvar p.npar i + r) 0) ∧
      (¬ (i ∈ m ∧ r = f i ∧ one i = true) → ¬ (i ∈ m ∧ r = p.nvar ∧ free = true) → x.getD (stmtOffset p.nvar p.npar i + r) 0 = 0) := by
  have hmode : ∀ i < p.stmts.length, ∀ r ≤ p.nvar, clMode p m f one free (stmtOffset p.nvar p.npar i + r) =
      if i ∈ m ∧ r = f i ∧ one i = true then (false, -1) else if i ∈ m ∧ r = p.nvar ∧ free = true then (false, 0) else (true, 0) := by
    intro i hi r hr
    have c1 : (m.any (fun i' => one i' && stmtOffset p.nvar p.npar i + r == stmtOffset p.nvar p.npar i' + f i') = true) ↔
        (i ∈ m ∧ r = f i ∧ one i = true) := by
      simp only [List.any_eq_true, Bool.and_eq_true, beq_iff_eq]
      constructor
      · rintro ⟨i', h1, h2, h3⟩
        obtain ⟨rfl, rfl⟩ := off_inj hr (hm i' h1).2.le h3
        exact ⟨h1, rfl, h2⟩
      · rintro ⟨h1, rfl, h3⟩
        exact ⟨i, h1, h3, rfl⟩
    have c2 : (free && m.any (fun i' => stmtOffset p.nvar p.npar i + r == stmtOffset p.nvar p.npar i' + p.nvar)) = true ↔
        (i ∈ m ∧ r = p.nvar ∧ free = true) := by
      simp only [List.any_eq_true, Bool.and_eq_true, beq_iff_eq]
      constructor
      · rintro ⟨h0, i', h1, h3⟩
        obtain ⟨rfl, rfl⟩ := off_inj hr le_rfl h3
        exact ⟨h1, rfl, h0⟩
      · rintro ⟨h1, rfl, h3⟩
        exact ⟨h3, i, h1, rfl⟩
    unfold clMode
    rw [if_congr c1 rfl rfl, if_congr c2 rfl rfl, mode0]
    have hlow : p.npar + 1 ≤ stmtOffset p.nvar p.npar i + r := by unfold stmtOffset; omega
    simp [hlow]
  have hx' : x.length = p.npar + 1 + p.stmts.length * (p.nvar + 1) := hx
  constructor
  · intro h i hi r hr
    have he := off_end (nvar := p.nvar) (npar := p.npar) hi
    have := h (stmtOffset p.nvar p.npar i + r) (by omega)
    constructor
    · intro g1 g2 g3
      have e : clMode p m f one free (stmtOffset p.nvar p.npar i + r) = (false, -1) := by
        rw [hmode i hi r hr, if_pos ⟨g1, g2, g3⟩]
      rw [e] at this
      simp only [Bool.false_eq_true, if_false] at this
      push_cast at this; linarith
    · intro g1 g2
      have e : clMode p m f one free (stmtOffset p.nvar p.npar i + r) = (true, 0) := by
        rw [hmode i hi r hr, if_neg g1, if_neg g2]
      rw [e] at this
      simpa using this
  · intro h idx hidx
    by_cases h0 : p.npar + 1 ≤ idx
    · obtain ⟨i, hi, r, hr, rfl⟩ := off_cases (n := p.stmts.length) (nvar := p.nvar) h0 (by omega)
      obtain ⟨g1, g2⟩ := h i hi r hr
      by_cases k1 : i ∈ m ∧ r = f i ∧ one i = true
      · have e : clMode p m f one free (stmtOffset p.nvar p.npar i + r) = (false, -1) := by
          rw [hmode i hi r hr, if_pos k1]
        rw [e]
        have := g1 k1.1 k1.2.1 k1.2.2
        simp only [Bool.false_eq_true, if_false]
        push_cast; linarith
      by_cases k2 : i ∈ m ∧ r = p.nvar ∧ free = true
      · have e : clMode p m f one free (stmtOffset p.nvar p.npar i + r) = (false, 0) := by
          rw [hmode i hi r hr, if_neg k1, if_pos k2]
        rw [e]
        simpa using hnn _ hidx
      · have e : clMode p m f one free (stmtOffset p.nvar p.npar i + r) = (true, 0) := by
          rw [hmode i hi r hr, if_neg k1, if_neg k2]
        rw [e]
        simpa using g2 k1 k2
    · have c1 : ¬ (m.any (fun i' => one i' && idx == stmtOffset p.nvar p.npar i' + f i') = true) := by
        simp only [List.any_eq_true, Bool.and_eq_true, beq_iff_eq]
        rintro ⟨i', _, _, h⟩
        unfold stmtOffset at h; omega
      have c2 : ¬ ((free && m.any (fun i' => idx == stmtOffset p.nvar p.npar i' + p.nvar)) = true) := by
        simp only [List.any_eq_true, Bool.and_eq_true, beq_iff_eq]
        rintro ⟨_, i', _, h⟩
        unfold stmtOffset at h; omega
      unfold clMode
      rw [if_neg c1, if_neg c2, mode0]
      have := hnn idx hidx
      simpa [h0] using this

include hp hone

/-- There is a solution iff there is a level. (`hc`: either no coefficient of a padding dimension is asked for, or the columns of
padding dimensions are 0 in all the dependences.) -/
theorem lev_sys {o : SearchOpts} {D : Dep → Prop} {sys : Cst} (hsys : ∀ x : List ℚ, SolLen p x → (sys.Sat x ↔
      (coeffBoundConstraints o p).Sat x ∧ (∀ r ∈ modeRows (cstWidth p.nvar p.npar p.stmts.length) (clMode p m f one free), r.Sat x) ∧
      ∀ d ∈ p.deps, D d → (depCst o.nodepbound p d).Sat x))
    (hcols : sys.ncols = cstWidth p.nvar p.npar p.stmts.length) (hd : ∀ d ∈ p.deps, DepOK p d) (hne : NonemptyDeps p)
    (hD : ∀ d, D d → d.src ∈ m ∧ d.dest ∈ m)
    (hc : ∀ d ∈ p.deps, D d → (∀ i ∈ m, one i = true → f i < depthOf p i) ∨ d.src ≠ stmtOffset p.nvar p.npar d.dest)
    (hmne : ∃ i, i ∈ m) (hreal : (∃ i ∈ m, f i < depthOf p i) ∨ ∀ i ∈ m, one i = true → f i < depthOf p i) :
    (∀ x : List ℚ, x.length + 1 = sys.ncols → (∀ a ∈ x, 0 ≤ a) → sys.Sat x →
      TakesAll o p m f free (levOf p f x) ∧ (∀ d ∈ p.deps, D d → (levOf p f x).Weak p d) ∧
      (o.nodepbound = false → ∀ d ∈ p.deps, D d → (levOf p f x).Bounded p (x.take p.npar) (x.getD p.npar 0) d)) ∧
    (∀ v : LoopLevel, TakesAll o p m f free v → v.Legal o p D →
      ∃ x : List ℚ, x.length + 1 = sys.ncols ∧ (∀ a ∈ x, 0 ≤ a) ∧ sys.Sat x) := by
  have hlev : ∀ x : List ℚ, SolLen p x → (∀ i < p.stmts.length, ∀ r ≤ p.nvar,
      (i ∈ m → r = f i → one i = true → 1 ≤ x.getD (stmtOffset p.nvar p.npar i + r) 0) ∧
      (¬ (i ∈ m ∧ r = f i ∧ one i = true) → ¬ (i ∈ m ∧ r = p.nvar ∧ free = true) → x.getD (stmtOffset p.nvar p.npar i + r) 0 = 0)) →
      IsLev p m f one x := by
    intro x hx h
    refine ⟨hx, hm, ?_, ?_⟩
    · intro i hi r hr hne
      exact (h i (hm i hi).1 r hr.le).2 (by omega) (by omega)
    · intro i hi hle ho
      have := (hm i hi).2
      exact (h i (hm i hi).1 (f i) this.le).2 (by rw [ho]; simp) (by omega)
  constructor
  · intro x hx hnn hsat
    have hx' : x.length + 1 = cstWidth p.nvar p.npar p.stmts.length := hx.trans hcols
    have hlen : SolLen p x := by unfold SolLen; unfold cstWidth at hx'; omega
    have hlen' : x.length = p.npar + 1 + p.stmts.length * (p.nvar + 1) := hlen
    obtain ⟨hcb, hmode, hdep⟩ := (hsys x hlen).mp hsat
    have hcb' := (coeffBound_satQ o p x hx').mp hcb
    rw [modeRows_sat _ _ _ hx', mode_sat hm hlen hcb'.1] at hmode
    have hl := hlev x hlen hmode
    refine ⟨?_, ?_, ?_⟩
    · intro i hi
      obtain ⟨hin, hfn⟩ := hm i hi
      have he := off_end (nvar := p.nvar) (npar := p.npar) hin
      have hlow : p.npar + 1 ≤ stmtOffset p.nvar p.npar i := by unfold stmtOffset; omega
      refine ⟨⟨rfl, ?_, ?_, ?_, ?_⟩, ?_⟩
      · intro h
        simp only [levOf, if_pos h]
        exact ⟨(hmode i hin (f i) hfn.le).1 hi rfl (hone i hi h), fun b hb => hcb'.2 b hb _ (by omega) (by omega)⟩
      · intro h
        simp only [levOf]
        rw [if_neg (by omega)]
      · exact hcb'.1 _ (by omega)
      · exact fun b hb => hcb'.2 b hb _ (by omega) (by omega)
      · intro h
        exact (hmode i hin p.nvar le_rfl).2 (by omega) (by rw [h]; simp)
    · intro d hdm hDd
      exact ((dep_lev (o := o) hp hl (hd d hdm) (hD d hDd).1 (hD d hDd).2 (hc d hdm hDd) (hne d hdm).1 (hne d hdm).2).mp
        (hdep d hdm hDd)).1
    · intro hb d hdm hDd
      exact ((dep_lev (o := o) hp hl (hd d hdm) (hD d hDd).1 (hD d hDd).2 (hc d hdm hDd) (hne d hdm).1 (hne d hdm).2).mp
        (hdep d hdm hDd)).2 hb
  · rintro v ht ⟨hw, u, w, hu, hu0, hw0, hb⟩
    obtain ⟨eu, ew⟩ := levVec_bound p m one u w v hu
    have hlen := levVec_len p m one u w v
    have hst := fun (i : Nat) (hi : i < p.stmts.length) (r : Nat) (hr : r ≤ p.nvar) => levVec_stmt p m one u w v (r := r) hi hr
    set x := levVec p m one u w v with hxdef
    have hlen' : x.length = p.npar + 1 + p.stmts.length * (p.nvar + 1) := hlen
    have hx' : x.length + 1 = cstWidth p.nvar p.npar p.stmts.length := by rw [hlen']; rfl
    have hloop : ∀ i ∈ m, v.loop i = f i := fun i hi => (ht i hi).1.1
    have hcoef0 : ∀ i ∈ m, 0 ≤ levCoef p one v i := by
      intro i hi
      unfold levCoef
      split_ifs with h1 h2
      · have := ((ht i hi).1.2.1 (by rw [← hloop i hi]; exact h1)).1
        linarith
      · exact zero_le_one
      · exact le_rfl
    have hcoefb : ∀ i ∈ m, ∀ b, Cap o p b → 0 ≤ (b : ℚ) ∧ levCoef p one v i ≤ b := by
      intro i hi b hbb
      have hb0 : 0 ≤ (b : ℚ) := by
        have h1 := (ht i hi).1.2.2.2.1
        have h2 := (ht i hi).1.2.2.2.2 b hbb
        linarith
      refine ⟨hb0, ?_⟩
      unfold levCoef
      split_ifs with h1 h2
      · exact ((ht i hi).1.2.1 (by rw [← hloop i hi]; exact h1)).2 b hbb
      · rcases hreal with ⟨i', hi', hr'⟩ | hr'
        · obtain ⟨g1, g2⟩ := (ht i' hi').1.2.1 hr'
          have := g2 b hbb
          linarith
        · rw [hloop i hi] at h1
          exact absurd (hr' i hi h2) h1
      · exact hb0
    have hnn : ∀ idx < x.length, 0 ≤ x.getD idx 0 := by
      intro idx hidx
      by_cases h0 : p.npar + 1 ≤ idx
      · obtain ⟨i, hi, r, hr, rfl⟩ := off_cases (n := p.stmts.length) (nvar := p.nvar) h0 (by omega)
        rw [hst i hi r hr]
        split_ifs with h1 h2 h3
        · exact (ht i h1).1.2.2.2.1
        · exact hcoef0 i h1
        · exact le_rfl
        · exact le_rfl
      · by_cases h1 : idx = p.npar
        · rw [h1, ew]; exact hw0
        · have h2 : idx < p.npar := by omega
          have : x.getD idx 0 = u.getD idx 0 := by
            rw [← eu]
            simp only [List.getD_eq_getElem?_getD]
            rw [List.getElem?_take_of_lt h2]
          rw [this, List.getD_eq_getElem?_getD, List.getElem?_eq_getElem (by omega)]
          exact hu0 _ (List.getElem_mem _)
    have hmode : ∀ i < p.stmts.length, ∀ r ≤ p.nvar,
        (i ∈ m → r = f i → one i = true → 1 ≤ x.getD (stmtOffset p.nvar p.npar i + r) 0) ∧
        (¬ (i ∈ m ∧ r = f i ∧ one i = true) → ¬ (i ∈ m ∧ r = p.nvar ∧ free = true) → x.getD (stmtOffset p.nvar p.npar i + r) 0 = 0) := by
      intro i hi r hr
      rw [hst i hi r hr]
      constructor
      · rintro h1 rfl h3
        have := (hm i h1).2
        rw [if_pos h1, if_neg (by omega), if_pos (hloop i h1).symm, levCoef]
        split_ifs with h4
        · exact ((ht i h1).1.2.1 (by rw [← hloop i h1]; exact h4)).1
        · exact le_rfl
      · intro h1 h2
        split_ifs with h3 h4 h5
        · refine (ht i h3).2 ?_
          by_contra h
          exact h2 ⟨h3, h4, by simpa using h⟩
        · rw [hloop i h3] at h5
          have h6 : one i = false := by
            by_contra h
            exact h1 ⟨h3, h5, by simpa using h⟩
          have h7 : ¬ f i < depthOf p i := fun h => by rw [hone i h3 h] at h6; cases h6
          rw [levCoef, hloop i h3, if_neg h7, if_neg (by simp [h6])]
        · rfl
        · rfl
    have hl := hlev x hlen hmode
    refine ⟨x, by rw [hcols]; exact hx', ?_, (hsys x hlen).mpr ⟨?_, ?_, ?_⟩⟩
    · intro a ha
      obtain ⟨n, hn, rfl⟩ := List.getElem_of_mem ha
      have := hnn n hn
      rwa [List.getD_eq_getElem?_getD, List.getElem?_eq_getElem hn] at this
    · rw [coeffBound_satQ o p x hx']
      refine ⟨hnn, fun b hbb idx hidx h0 => ?_⟩
      obtain ⟨i, hi, r, hr, rfl⟩ := off_cases (n := p.stmts.length) (nvar := p.nvar) h0 (by omega)
      obtain ⟨i0, hi0⟩ := hmne
      have hb0 : 0 ≤ (b : ℚ) := (hcoefb i0 hi0 b hbb).1
      rw [hst i hi r hr]
      split_ifs with h1 h2 h3
      · exact (ht i h1).1.2.2.2.2 b hbb
      · exact (hcoefb i h1 b hbb).2
      · exact hb0
      · exact hb0
    · rw [modeRows_sat _ _ _ hx', mode_sat hm hlen hnn]
      exact hmode
    · intro d hdm hDd
      rw [dep_lev (o := o) hp hl (hd d hdm) (hD d hDd).1 (hD d hDd).2 (hc d hdm hDd) (hne d hdm).1 (hne d hdm).2, eu, ew]
      have htime : ∀ i ∈ m, ∀ z, (levOf p f x).time i z = v.time i z := by
        intro i hi z
        obtain ⟨hin, hfn⟩ := hm i hi
        simp only [LoopLevel.time, levOf, hloop i hi]
        have e1 : x.getD (stmtOffset p.nvar p.npar i + p.nvar) 0 = v.shift i := by
          rw [hst i hin p.nvar le_rfl, if_pos hi, if_pos rfl]
        have e2 : f i < depthOf p i → x.getD (stmtOffset p.nvar p.npar i + f i) 0 = v.scale i := by
          intro h
          rw [hst i hin (f i) hfn.le, if_pos hi, if_neg (by omega), if_pos (hloop i hi).symm, levCoef, hloop i hi, if_pos h]
        rw [e1]
        split_ifs with h
        · rw [e2 h]
        · rw [(ht i hi).1.2.2.1 (by omega)]
      constructor
      · intro hr s t q hi
        rw [htime _ (hD d hDd).1, htime _ (hD d hDd).2]
        exact hw d hdm hDd hr s t q hi
      · intro hbn s t q hi
        rw [htime _ (hD d hDd).1, htime _ (hD d hDd).2]
        exact hb hbn d hdm hDd s t q hi

end

end Pluto
