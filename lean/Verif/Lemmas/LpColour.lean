import Verif.Lemmas.FcgCluster4
import Verif.Lemmas.SatFold
import Verif.Lemmas.MatSum
import Verif.Spec.LpColour
/-! The systems of `mark_parallel_sccs`. -/
namespace Pluto

theorem hypValue_congr {nvar npar n i : Nat} {x y : List ℚ} (hx : x.length = npar + 1 + n * (nvar + 1)) (hy : y.length = x.length) (hi : i < n)
    (h : ∀ r ≤ nvar, x.getD (stmtOffset nvar npar i + r) 0 = y.getD (stmtOffset nvar npar i + r) 0) (z : List ℚ) :
    hypValue nvar npar x i z = hypValue nvar npar y i z := by
  have he := off_end (nvar := nvar) (npar := npar) hi
  unfold hypValue
  congr 1
  change (x.drop (stmtOffset nvar npar i)).take (nvar + 1) = (y.drop (stmtOffset nvar npar i)).take (nvar + 1)
  refine getD_ext (by simp [hy]) fun r => ?_
  simp only [List.getD_eq_getElem?_getD, List.getElem?_take, List.getElem?_drop]
  split_ifs with hr
  · have := h r (by omega)
    simpa only [List.getD_eq_getElem?_getD] using this
  · rfl

open Classical in
/-- Zeros in the columns of all padding dimensions. -/
noncomputable def padAll (p : Prog) (x : List ℚ) : List ℚ :=
  (List.range x.length).map (fun idx => if ∃ i < p.stmts.length, IsPad p i idx then 0 else x.getD idx 0)

theorem padAll_len (p : Prog) (x : List ℚ) : (padAll p x).length = x.length := by simp [padAll]

open Classical in
theorem padAll_get (p : Prog) (x : List ℚ) (idx : Nat) :
    (padAll p x).getD idx 0 = if ∃ i < p.stmts.length, IsPad p i idx then 0 else x.getD idx 0 := by
  by_cases h : idx < x.length
  · unfold padAll
    rw [List.getD_eq_getElem?_getD, List.getElem?_map, List.getElem?_range h, Option.map_some, Option.getD_some]
  · rw [List.getD_eq_getElem?_getD, List.getElem?_eq_none (by rw [padAll_len]; omega), Option.getD_none,
      List.getD_eq_getElem?_getD, List.getElem?_eq_none (by omega), Option.getD_none]
    simp

theorem padAll_low (p : Prog) (x : List ℚ) {idx : Nat} (h : idx ≤ p.npar) : (padAll p x).getD idx 0 = x.getD idx 0 := by
  rw [padAll_get, if_neg]
  rintro ⟨i, _, k, _, _, e⟩
  unfold stmtOffset at e
  omega

theorem padAll_stmt {p : Prog} (hp : p.Padded) (x : List ℚ) {i k : Nat} (hi : i < p.stmts.length) (hk : k ≤ p.nvar) :
    (padAll p x).getD (stmtOffset p.nvar p.npar i + k) 0 =
      if k < p.nvar ∧ depthOf p i ≤ k then 0 else x.getD (stmtOffset p.nvar p.npar i + k) 0 := by
  rw [padAll_get]
  have : (∃ j < p.stmts.length, IsPad p j (stmtOffset p.nvar p.npar i + k)) ↔ k < p.nvar ∧ depthOf p i ≤ k := by
    constructor
    · rintro ⟨j, hj, h⟩
      exact ((isPad_iff hp hi hk rfl j hj).mp h).2
    · exact fun h => ⟨i, hi, (isPad_iff hp hi hk rfl i hi).mpr ⟨rfl, h⟩⟩
  simp only [this]

theorem padOut_stmt {p : Prog} (hp : p.Padded) (x : List ℚ) {i j k : Nat} (hi : i < p.stmts.length) (hj : j < p.stmts.length) {m : Nat}
    (hm : m = i ∨ m = j) (hk : k ≤ p.nvar) :
    (padOut p i j x).getD (stmtOffset p.nvar p.npar m + k) 0 = (padAll p x).getD (stmtOffset p.nvar p.npar m + k) 0 := by
  have hml : m < p.stmts.length := by rcases hm with rfl | rfl <;> assumption
  rw [padAll_stmt hp x hml hk]
  split_ifs with h
  · refine padOut_pad _ _ _ _ ?_
    rcases hm with rfl | rfl
    · exact Or.inl ((isPad_iff hp hml hk rfl _ hml).mpr ⟨rfl, h⟩)
    · exact Or.inr ((isPad_iff hp hml hk rfl _ hml).mpr ⟨rfl, h⟩)
  · refine padOut_not _ _ _ _ ?_
    rw [isPad_iff hp hml hk rfl _ hi, isPad_iff hp hml hk rfl _ hj]
    tauto

/-- The constraints of a dependence in terms of the vector without padding. -/
theorem dep_padAll {p : Prog} (hp : p.Padded) {nb : Bool} {d : Dep} (hd : DepOK p d) (hc : d.src ≠ stmtOffset p.nvar p.npar d.dest)
    (hne : ∃ s t q : List ℚ, DepInst d.dpoly p.nvar p.nvar p.npar s t q)
    (hneb : ∃ s t q : List ℚ, DepInst d.bpoly p.nvar p.nvar p.npar s t q) {x : List ℚ} (hx : SolLen p x) :
    (depCst nb p d).Sat x ↔
      (d.rar = false → ∀ s t q : List ℚ, DepInst d.dpoly p.nvar p.nvar p.npar s t q →
        hypValue p.nvar p.npar (padAll p x) d.src s ≤ hypValue p.nvar p.npar (padAll p x) d.dest t) ∧
      (nb = false → ∀ s t q : List ℚ, DepInst d.bpoly p.nvar p.nvar p.npar s t q →
        hypValue p.nvar p.npar (padAll p x) d.dest t - hypValue p.nvar p.npar (padAll p x) d.src s ≤
          boundValue p.npar (padAll p x) q) := by
  have hl : (padOut p d.src d.dest x).length = p.npar + 1 + p.stmts.length * (p.nvar + 1) := by rw [padOut_len]; exact hx
  have hz : ∀ i, i = d.src ∨ i = d.dest → PadZeroAt p (padOut p d.src d.dest x) i := by
    intro i hi k hk ho
    refine padOut_pad _ _ _ _ ?_
    rcases hi with rfl | rfl
    · exact Or.inl ⟨k, hk, ho, rfl⟩
    · exact Or.inr ⟨k, hk, ho, rfl⟩
  have hv : ∀ i, i = d.src ∨ i = d.dest → ∀ z, hypValue p.nvar p.npar (padOut p d.src d.dest x) i z = hypValue p.nvar p.npar (padAll p x) i z := by
    intro i hi z
    refine hypValue_congr hl (by rw [padAll_len, padOut_len]) (by rcases hi with rfl | rfl; exacts [hd.src, hd.dest]) (fun r hr => ?_) z
    exact padOut_stmt hp x hd.src hd.dest hi hr
  have hb : ∀ q, boundValue p.npar (padOut p d.src d.dest x) q = boundValue p.npar (padAll p x) q := by
    intro q
    unfold boundValue
    congr 1
    refine getD_ext (by simp [padAll_len, padOut_len]) fun r => ?_
    simp only [List.getD_eq_getElem?_getD, List.getElem?_take]
    split_ifs with hr
    · have e1 := padAll_low p x (show r ≤ p.npar by omega)
      have e2 : (padOut p d.src d.dest x).getD r 0 = x.getD r 0 := by
        refine padOut_not _ _ _ _ ?_
        rintro (⟨k, _, _, h⟩ | ⟨k, _, _, h⟩) <;> unfold stmtOffset at h <;> omega
      have := e2.trans e1.symm
      simpa only [List.getD_eq_getElem?_getD] using this
    · rfl
  rw [depCst_padAgree hc (padOut_agree p _ _ x), dep_exact_at nb p d _ hd hl (hz _ (Or.inl rfl)) (hz _ (Or.inr rfl)) hne hneb]
  simp only [hv _ (Or.inl rfl), hv _ (Or.inr rfl), hb, sub_nonneg]

/-- A vector without padding stays as it is. -/
theorem padAll_self {p : Prog} (hp : p.Padded) {x : List ℚ} (h : ∀ i < p.stmts.length, ∀ k, depthOf p i ≤ k → k < p.nvar → loopCoef p x i k = 0) :
    padAll p x = x := by
  refine getD_ext (padAll_len p x) fun idx => ?_
  rw [padAll_get]
  split_ifs with hpad
  · obtain ⟨i, hi, k, hk, h1, rfl⟩ := hpad
    rw [(origOf_padded hp hi hk).1] at h1
    exact (h i hi k (by simpa using h1) hk).symm
  · rfl

theorem mem_uncoloured {p : Prog} {colour : List Nat} {i k : Nat} : k ∈ uncoloured p colour i ↔ NoColour p colour i k := by
  unfold uncoloured NoColour colourOf
  simp

theorem uncoloured_eq {p : Prog} {colour : List Nat} {i : Nat} :
    uncoloured p colour i = (List.range (depthOf p i)).filter (fun k => NoColour p colour i k) := by
  unfold uncoloured
  refine List.filter_congr fun k hk => ?_
  have : k < depthOf p i := by simpa using hk
  simp [NoColour, colourOf, this]

theorem dot_indicator (off n : Nat) (x : List ℚ) : ∀ l : List Nat, l.Nodup → (∀ k ∈ l, off + k < n) →
    dot ((List.range n).map (fun idx => if l.any (fun k => idx == off + k) then (1 : Int) else 0)) x = (l.map (fun k => x.getD (off + k) 0)).sum := by
  intro l hl hk
  rw [dot_eq_sum _ _ n (by simp)]
  have h1 : ∀ j ∈ Finset.range n, ((coef ((List.range n).map (fun idx => if l.any (fun k => idx == off + k) then (1 : Int) else 0)) j : Int) : ℚ) * x.getD j 0 =
      if l.any (fun k => j == off + k) then x.getD j 0 else 0 := by
    intro j hj
    rw [coef_map_range _ _ _ (Finset.mem_range.mp hj)]
    split_ifs <;> simp
  rw [Finset.sum_congr rfl h1]
  clear h1
  induction l with
  | nil => simp
  | cons a l ih =>
    have hnd := List.nodup_cons.mp hl
    rw [List.map_cons, List.sum_cons, ← ih hnd.2 (fun k hk' => hk k (List.mem_cons_of_mem _ hk'))]
    have h2 : ∀ j ∈ Finset.range n, (if (a :: l).any (fun k => j == off + k) then x.getD j 0 else 0) =
        (if j = off + a then x.getD j 0 else 0) + if l.any (fun k => j == off + k) then x.getD j 0 else 0 := by
      intro j _
      by_cases e : j = off + a
      · have : l.any (fun k => j == off + k) = false := by
          rw [List.any_eq_false]
          intro k hk' h
          have : k = a := by have := (beq_iff_eq.mp h); omega
          exact hnd.1 (this ▸ hk')
        rw [this, if_pos (by simp [e]), if_pos e]
        simp
      · simp [e]
    rw [Finset.sum_congr rfl h2, Finset.sum_add_distrib, Finset.sum_ite_eq' , if_pos (Finset.mem_range.mpr (hk a List.mem_cons_self))]

theorem orthoRow_sat {p : Prog} (hp : p.Padded) {colour : List Nat} {i : Nat} (hi : i < p.stmts.length) {x : List ℚ} (hx : SolLen p x) :
    (orthoRow p colour i).Sat x ↔ 1 ≤ ((uncoloured p colour i).map (loopCoef p x i)).sum := by
  have hw : cstWidth p.nvar p.npar p.stmts.length - 1 = x.length := by
    rw [hx]; unfold cstWidth; omega
  have he := off_end (nvar := p.nvar) (npar := p.npar) hi
  have hdl := depth_le hp hi
  have hk : ∀ k ∈ uncoloured p colour i, stmtOffset p.nvar p.npar i + k < x.length := by
    intro k hk
    have := (mem_uncoloured.mp hk).1
    rw [hx]
    omega
  unfold orthoRow Row.Sat
  simp only [hw]
  rw [if_neg (by decide)]
  have e : aff ((List.range x.length).map (fun idx => if (uncoloured p colour i).any (fun k => idx == stmtOffset p.nvar p.npar i + k) then (1 : Int) else 0)
      ++ [-1]) x = ((uncoloured p colour i).map (loopCoef p x i)).sum - 1 := by
    have := dot_indicator (stmtOffset p.nvar p.npar i) x.length x (uncoloured p colour i)
      (List.Nodup.filter _ List.nodup_range) hk
    unfold aff
    rw [dot_append _ _ _ _ (by simp), this]
    have e2 : (uncoloured p colour i).map (fun k => x.getD (stmtOffset p.nvar p.npar i + k) 0) = (uncoloured p colour i).map (loopCoef p x i) :=
      List.map_congr_left fun k _ => rfl
    rw [e2]
    simp [dot, sub_eq_add_neg]
  rw [e, sub_nonneg]

theorem mem_sccDeps {a : Auto} {s : Nat} {d : Dep} (hd : d ∈ a.p.deps → DepOK a.p d) : d ∈ sccDeps a s ↔ d ∈ a.p.deps ∧ LiveIn a s d := by
  unfold sccDeps LiveIn InScc
  rw [List.mem_filter]
  refine and_congr_right fun hm => ?_
  have h1 := (hd hm).src
  have h2 := (hd hm).dest
  simp [h1, h2, and_assoc]

theorem markSystem_some {o : SearchOpts} {a : Auto} {colour : List Nat} {s : Nat} {c : Cst} (h : markSystem o a colour s = some c) :
    c.ncols = cstWidth a.p.nvar a.p.npar a.p.stmts.length ∧ (∃ i, InScc a s i ∧ ∃ k, NoColour a.p colour i k) ∧
    c.rows = (((a.sccStmts s).filter (fun i => !(uncoloured a.p colour i).isEmpty)).map (orthoRow a.p colour)) ++ (coeffBoundConstraints o a.p).rows ++
      (sccDeps a s).flatMap (fun d => (depCst o.nodepbound a.p d).rows) := by
  unfold markSystem sccOrtho at h
  split at h
  · cases h
  · rename_i hne
    simp only [Option.map_some, Option.some.injEq] at h
    subst h
    refine ⟨rfl, ?_, rfl⟩
    obtain ⟨i, hi⟩ := List.exists_mem_of_ne_nil _ hne
    rw [List.mem_filter] at hi
    refine ⟨i, inScc_mem.mp hi.1, ?_⟩
    have : uncoloured a.p colour i ≠ [] := by simpa using hi.2
    obtain ⟨k, hk⟩ := List.exists_mem_of_ne_nil _ this
    exact ⟨k, mem_uncoloured.mp hk⟩

theorem markSystem_none {o : SearchOpts} {a : Auto} {colour : List Nat} {s : Nat} (h : markSystem o a colour s = none) :
    ∀ i, InScc a s i → ∀ k, ¬ NoColour a.p colour i k := by
  unfold markSystem sccOrtho at h
  split at h
  · rename_i hnil
    intro i hi k hk
    have : i ∈ (a.sccStmts s).filter (fun i => !(uncoloured a.p colour i).isEmpty) := by
      rw [List.mem_filter]
      refine ⟨inScc_mem.mpr hi, ?_⟩
      have := mem_uncoloured.mpr hk
      simp only [Bool.not_eq_true', List.isEmpty_eq_false_iff]
      exact List.ne_nil_of_mem this
    rw [hnil] at this
    simp at this
  · cases h

section
variable {o : SearchOpts} {a : Auto} (hp : a.p.Padded) (hd : ∀ d ∈ a.p.deps, DepOK a.p d) (hne : NonemptyDeps a.p) {colour : List Nat} {s : Nat}
  (hc : ∀ d ∈ a.p.deps, LiveIn a s d → d.src ≠ a.p.npar + 1 + d.dest * (a.p.nvar + 1)) {c : Cst} (h : markSystem o a colour s = some c)
include hp hd h

theorem markSystem_wf : c.WF := by
  obtain ⟨h1, _, h3⟩ := markSystem_some h
  refine ⟨by rw [h1]; unfold cstWidth; omega, fun r hr => ?_⟩
  rw [h3] at hr
  rw [h1]
  simp only [List.mem_append, List.mem_flatMap, List.mem_map] at hr
  rcases hr with (⟨i, _, rfl⟩ | hr) | ⟨d, hdl, hr⟩
  · simp [orthoRow, cstWidth]
  · exact (coeffBound_wid o a.p).2 r hr
  · have hdm := (List.mem_filter.mp hdl).1
    obtain ⟨g1, g2⟩ := depCst_wf o.nodepbound a.p d (hd d hdm).src (hd d hdm).dest
    rw [← g2]
    exact g1.2 r hr

include hne hc

/-- A solution gives a hyperplane. -/
theorem markSystem_hyp {x : List ℚ} (hx : x.length + 1 = c.ncols) (h0 : ∀ v ∈ x, 0 ≤ v) (hs : c.Sat x) :
    SccHyp o a colour s (padAll a.p x) := by
  obtain ⟨h1, _, h3⟩ := markSystem_some h
  have hl : SolLen a.p x := by rw [h1] at hx; unfold SolLen; unfold cstWidth at hx; omega
  have hs' : ∀ r ∈ c.rows, r.Sat x := hs
  rw [h3, rows_append, rows_append, rows_flatMap] at hs'
  obtain ⟨⟨s1, s2⟩, s3⟩ := hs'
  obtain ⟨b1, b2⟩ := (coeffBound_satQ o a.p x (by rw [← h1]; exact hx)).mp s2
  have hst : ∀ i < a.p.stmts.length, ∀ k ≤ a.p.nvar, loopCoef a.p (padAll a.p x) i k =
      if k < a.p.nvar ∧ depthOf a.p i ≤ k then 0 else loopCoef a.p x i k := fun i hi k hk => padAll_stmt hp x hi hk
  have hg : ∀ idx, 0 ≤ x.getD idx 0 := by
    intro idx
    by_cases hi : idx < x.length
    · exact b1 idx hi
    · rw [List.getD_eq_getElem?_getD, List.getElem?_eq_none (by omega)]; simp
  refine ⟨by rw [padAll_len]; exact hl, ?_, ?_, ?_, ?_, ?_, ?_⟩
  · intro v hv
    obtain ⟨n, hn, rfl⟩ := List.getElem_of_mem hv
    have := padAll_get a.p x n
    rw [List.getD_eq_getElem?_getD, List.getElem?_eq_getElem hn, Option.getD_some] at this
    rw [this]
    split_ifs
    · exact le_rfl
    · exact hg n
  · intro b hb i hi k hk
    have hcap := b2 b hb
    have he := off_end (nvar := a.p.nvar) (npar := a.p.npar) hi
    have hle : loopCoef a.p x i k ≤ b := hcap _ (by rw [hl]; unfold stmtOffset at he; omega) (by omega)
    rw [hst i hi k hk]
    split_ifs
    · exact le_trans (hg _) hle
    · exact hle
  · intro i hi k h1 h2
    rw [hst i hi k h2.le, if_pos ⟨h2, h1⟩]
  · rintro i hi ⟨k, hk⟩
    have hm : i ∈ (a.sccStmts s).filter (fun i => !(uncoloured a.p colour i).isEmpty) := by
      rw [List.mem_filter]
      refine ⟨inScc_mem.mpr hi, ?_⟩
      simp only [Bool.not_eq_true', List.isEmpty_eq_false_iff]
      exact List.ne_nil_of_mem (mem_uncoloured.mpr hk)
    have := (orthoRow_sat hp hi.1 hl).mp (s1 _ (List.mem_map_of_mem hm))
    rw [← uncoloured_eq]
    have e : (uncoloured a.p colour i).map (loopCoef a.p (padAll a.p x) i) = (uncoloured a.p colour i).map (loopCoef a.p x i) := by
      refine List.map_congr_left fun k' hk' => ?_
      have h1 := (mem_uncoloured.mp hk').1
      have h2 := depth_le hp hi.1
      rw [hst i hi.1 k' (by omega), if_neg (by omega)]
    rw [e]
    exact this
  · intro d hdm hlv hr y z q hi
    have := (dep_padAll hp (nb := o.nodepbound) (hd d hdm) (hc d hdm hlv) (hne d hdm).1 (hne d hdm).2 hl).mp
      (s3 d ((mem_sccDeps (hd d)).mpr ⟨hdm, hlv⟩))
    exact this.1 hr y z q hi
  · intro hb d hdm hlv y z q hi
    have := (dep_padAll hp (nb := o.nodepbound) (hd d hdm) (hc d hdm hlv) (hne d hdm).1 (hne d hdm).2 hl).mp
      (s3 d ((mem_sccDeps (hd d)).mpr ⟨hdm, hlv⟩))
    exact this.2 hb y z q hi

/-- A hyperplane is a solution. -/
theorem markSystem_sol {x : List ℚ} (hx : SccHyp o a colour s x) : x.length + 1 = c.ncols ∧ (∀ v ∈ x, 0 ≤ v) ∧ c.Sat x := by
  obtain ⟨h1, _, h3⟩ := markSystem_some h
  have hl : SolLen a.p x := hx.len
  have hxc : x.length + 1 = cstWidth a.p.nvar a.p.npar a.p.stmts.length := by rw [hl]; unfold cstWidth; omega
  refine ⟨by rw [h1]; exact hxc, hx.nonneg, ?_⟩
  show ∀ r ∈ c.rows, r.Sat x
  rw [h3, rows_append, rows_append, rows_flatMap]
  refine ⟨⟨?_, (coeffBound_satQ o a.p x hxc).mpr ⟨?_, ?_⟩⟩, ?_⟩
  · intro r hr
    obtain ⟨i, hi, rfl⟩ := List.mem_map.mp hr
    rw [List.mem_filter] at hi
    have hi1 := inScc_mem.mp hi.1
    rw [orthoRow_sat hp hi1.1 hl, uncoloured_eq]
    have : uncoloured a.p colour i ≠ [] := by simpa using hi.2
    obtain ⟨k, hk⟩ := List.exists_mem_of_ne_nil _ this
    exact hx.new i hi1 ⟨k, mem_uncoloured.mp hk⟩
  · intro i hi
    rw [List.getD_eq_getElem?_getD, List.getElem?_eq_getElem hi]
    exact hx.nonneg _ (List.getElem_mem _)
  · intro b hb idx hi h2
    obtain ⟨i, hin, r, hr, rfl⟩ := off_cases (nvar := a.p.nvar) (n := a.p.stmts.length) h2 (by rw [← hl]; exact hi)
    exact hx.cap b hb i hin r hr
  · intro d hdl
    obtain ⟨hdm, hlv⟩ := (mem_sccDeps (hd d)).mp hdl
    rw [dep_padAll hp (hd d hdm) (hc d hdm hlv) (hne d hdm).1 (hne d hdm).2 hl, padAll_self hp hx.pad]
    exact ⟨fun hr => hx.weak d hdm hlv hr, fun hb => hx.bound hb d hdm hlv⟩

end

theorem precise_same {isEmpty : Cst → Bool} {p p' : Prog} {n : Nat} (h : computeDepSatisfactionPrecise isEmpty p = some (p', n)) :
    p' = { p with deps := p'.deps } ∧
    ∀ d' ∈ p'.deps, ∃ d ∈ p.deps, d'.src = d.src ∧ d'.dest = d.dest ∧ d'.dpoly = d.dpoly ∧ d'.bpoly = d.bpoly := by
  unfold computeDepSatisfactionPrecise at h
  obtain ⟨ds, h1, h⟩ := Option.bind_eq_some_iff.mp h
  simp only [Option.pure_def, Option.some.injEq, Prod.mk.injEq] at h
  obtain ⟨rfl, _⟩ := h
  refine ⟨rfl, fun d' hd' => ?_⟩
  obtain ⟨d, hd, e⟩ := forall₂_right_mem (mapM_forall₂ _ _ _ h1) hd'
  refine ⟨d, hd, ?_⟩
  unfold preciseDep at e
  obtain ⟨_, _, e⟩ := Option.bind_eq_some_iff.mp e
  simp only [Option.pure_def, Option.some.injEq] at e
  subst e
  exact ⟨rfl, rfl, rfl, rfl⟩

end Pluto
