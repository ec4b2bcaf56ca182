import Verif.Model.Diamond
import Verif.Lemmas.AutoFind
import Verif.Lemmas.Dims
import Verif.Lemmas.CoeffBounds
import Verif.Props.CstEdit

/-! Meaning of the system whose solution replaces an evicted hyperplane. -/

namespace Pluto

theorem coef_writeSlice_last (w a off : Nat) (f : Int) (hs : List Int) (ha : a < off) (ho : off < w - 1)
    (hw : off + 1 + hs.length ≤ w) (hz : off + 1 + hs.length ≤ w - 1 ∨ ∀ h ∈ hs, h = 0) :
    coef (writeSlice (((zrow w).set a 1).set off (-f)) (off + 1) hs) (w - 1) = 0 := by
  unfold coef writeSlice
  rw [List.getD_eq_getElem?_getD]
  have hl : ((((zrow w).set a 1).set off (-f)).take (off + 1)).length = off + 1 := by simp [zrow]; omega
  by_cases hc : off + 1 + hs.length ≤ w - 1
  · rw [List.getElem?_append_right (by rw [List.length_append, hl]; exact hc), List.getElem?_drop, List.length_append, hl,
      show off + 1 + hs.length + (w - 1 - (off + 1 + hs.length)) = w - 1 by omega,
      List.getElem?_set_ne (by omega), List.getElem?_set_ne (by omega)]
    simp [zrow, List.getElem?_replicate]
    split <;> rfl
  · have hz' : ∀ h ∈ hs, h = 0 := by
      rcases hz with h | h
      · exact absurd h hc
      · exact h
    by_cases h0 : hs.length = 0
    · exfalso; omega
    · rw [List.getElem?_append_left (by rw [List.length_append, hl]; omega), List.getElem?_append_right (by rw [hl]; omega), hl]
      cases hx : hs[w - 1 - (off + 1)]? with
      | none => rfl
      | some v => exact hz' v (List.mem_of_getElem? hx)

theorem cone_row_value (w a off : Nat) (f : Int) (hs : List Int) (z : List Int) (hz : z.length = w) (ha : a < off) (ho : off < w - 1)
    (hw : off + 1 + hs.length ≤ w) (hl : off + 1 + hs.length ≤ w - 1 ∨ ∀ h ∈ hs, h = 0) :
    dot ((writeSlice (((zrow w).set a 1).set off (-f)) (off + 1) hs).set (w - 1) 0) z =
      z.getD a 0 - f * z.getD off 0 + dot hs (z.drop (off + 1)) := by
  have hlen : (((zrow w).set a 1).set off (-f)).length = w := by simp [zrow]
  rw [dot_set_eq _ _ _ _ (by rw [writeSlice_length _ _ _ (by rw [hlen]; exact hw), hlen]; omega),
    coef_writeSlice_last w a off f hs ha ho hw hl,
    dot_writeSlice _ _ _ _ (by rw [hlen]; exact hw) (by rw [hlen, hz])]
  have hd : (((zrow w).set a 1).set off (-f)).drop (off + 1) = zrow (w - (off + 1)) := by
    rw [List.drop_set_of_lt (by omega), List.drop_set_of_lt (by omega)]
    simp [zrow]
  have hz0 : dot ((zrow (w - (off + 1))).take hs.length) (z.drop (off + 1)) = 0 := by
    rw [zrow, List.take_replicate]
    exact dot_zrow _ _
  rw [hd, hz0, dot_set_eq _ _ _ _ (by simp [zrow]; omega), dot_set_zrow _ _ _ _ (by omega),
    coef_set _ _ _ _ (by simp [zrow]; omega), if_neg (by omega), coef_zrow]
  simp
  ring

theorem stmtOffset_lambdaBase (p : Prog) (i j : Nat) (hi : i < p.stmts.length) (hj : j ≤ p.nvar) :
    stmtOffset p.nvar p.npar i + j < lambdaBase p := by
  have := stmtOffset_bound p.nvar p.npar p.stmts.length i hi
  unfold cstWidth at this
  unfold lambdaBase
  omega

theorem addLb_wid {w : Nat} {c : Cst} (h : Wid w c) (i : Nat) (v : Int) : Wid w (addLb c i v) := by
  refine ⟨h.1, fun r hr => ?_⟩
  rcases List.mem_append.mp hr with h' | h'
  · exact h.2 r h'
  · rw [List.mem_singleton] at h'
    rw [h']
    show (unitRow _ _ _ _).length = w
    rw [unitRow_len, h.1]

theorem foldl_wid {α : Type*} {w : Nat} (f : Cst → α → Cst) (hf : ∀ c a, Wid w c → Wid w (f c a)) (l : List α) :
    ∀ c, Wid w c → Wid w (l.foldl f c) := by
  induction l with
  | nil => intro c h; exact h
  | cons a l ih => intro c h; exact ih _ (hf _ _ h)

theorem coneCoeffBounds_wid (p : Prog) : Wid (cstWidth p.nvar p.npar p.stmts.length) (coneCoeffBounds p) := by
  unfold coneCoeffBounds
  refine foldl_wid _ (fun c s h => addLb_wid (foldl_wid _ (fun c i h => addLb_wid h _ _) _ _ h) _ _) _ _ ?_
  exact foldl_wid _ (fun c i h => addLb_wid h _ _) _ _ ⟨rfl, by simp⟩

theorem coneEquality_len {full : Bool} {p : Prog} {b : Band} {faces : List (List Int)} {evict cone s j : Nat} {r : Row}
    (h : coneEquality full p b faces evict cone s j = some r) : r.val.length = coneWidth p b.loop.stmts.length := by
  unfold coneEquality at h
  simp only [Option.bind_eq_bind, Option.bind_eq_some_iff] at h
  obtain ⟨i, _, f, _, hs, _, h⟩ := h
  split_ifs at h with hw
  simp only [Option.pure_def, Option.some.injEq] at h
  rw [← h, List.length_set, writeSlice_length]
  · simp [zrow]
  · simp [zrow]; omega

/-- The system of one band: the part built from dependences, and the multipliers. -/
theorem coneSystem_sat (full : Bool) (p : Prog) (base : Cst) (b : Band) (faces : List (List Int)) (evict cone : Nat)
    (c : Cst) (hb : base.WF) (hn : base.ncols = cstWidth p.nvar p.npar p.stmts.length)
    (h : coneSystem full p base b faces evict cone = some c) :
    c.WF ∧ c.ncols = coneWidth p b.loop.stmts.length ∧
    ∀ sol : List Int, sol.length + 1 = c.ncols → c.Sat sol →
    base.Sat (sol.take (lambdaBase p)) ∧ (coneCoeffBounds p).Sat (sol.take (lambdaBase p)) ∧
    (∀ j < p.nvar * b.loop.stmts.length, 1 ≤ sol.getD (lambdaBase p + j) 0) ∧
    ∀ s < b.loop.stmts.length, ∀ j < p.nvar, ∃ r, coneEquality full p b faces evict cone s j = some r ∧ r.Sat sol := by
  unfold coneSystem lambdaCst at h
  simp only [Option.bind_eq_bind, Option.bind_eq_some_iff] at h
  obtain ⟨lam, ⟨eqs, he, h1⟩, h⟩ := h
  simp only [Option.pure_def, Option.some.injEq] at h1 h
  have hcw : cstWidth p.nvar p.npar p.stmts.length = lambdaBase p + 1 := by unfold cstWidth lambdaBase; rfl
  have hbw : Wid (cstWidth p.nvar p.npar p.stmts.length) base := ⟨hn, fun r hr => by rw [← hn]; exact hb.2 r hr⟩
  have hall := (hbw.add (coneCoeffBounds_wid p)).wf (by rw [hcw]; omega)
  have hnc : (addCst base (coneCoeffBounds p)).ncols = lambdaBase p + 1 := by rw [← hcw, ← hn]; rfl
  have hb1 : base.ncols - 1 = lambdaBase p := by rw [hn, hcw]; omega
  rw [hb1] at h
  obtain ⟨w1, w2⟩ := addDims_wf hall (pos := lambdaBase p) (by rw [hnc]; omega) (p.nvar * b.loop.stmts.length)
  have hcn : c.ncols = coneWidth p b.loop.stmts.length := by
    rw [← h]
    show (addDims _ _ _).ncols = _
    rw [w2, hnc]
    rfl
  have hf := mapM_forall₂ _ _ _ he
  have heq : ∀ s < b.loop.stmts.length, ∀ j < p.nvar, ∃ r ∈ eqs.flatten,
      coneEquality full p b faces evict cone s j = some r := by
    intro s hs j hj
    have hf' := List.forall₂_iff_get.mp hf
    have hs' : s < eqs.length := by rw [← hf'.1]; simpa using hs
    have := hf'.2 s (by simpa using hs) hs'
    simp only [List.get_eq_getElem, List.getElem_range] at this
    have hg := List.forall₂_iff_get.mp (mapM_forall₂ _ _ _ this)
    have hj' : j < eqs[s].length := by rw [← hg.1]; simpa using hj
    have hx := hg.2 j (by simpa using hj) hj'
    simp only [List.get_eq_getElem, List.getElem_range] at hx
    exact ⟨eqs[s][j], List.mem_flatten.mpr ⟨eqs[s], List.getElem_mem hs', List.getElem_mem hj'⟩, hx⟩
  have hlen : ∀ r ∈ eqs.flatten, r.val.length = coneWidth p b.loop.stmts.length := by
    intro r hr
    obtain ⟨l, hl, hr⟩ := List.mem_flatten.mp hr
    obtain ⟨s, hs', rfl⟩ := List.getElem_of_mem hl
    obtain ⟨j, hj', rfl⟩ := List.getElem_of_mem hr
    have hf' := List.forall₂_iff_get.mp hf
    have := hf'.2 s (by rw [hf'.1]; exact hs') hs'
    simp only [List.get_eq_getElem, List.getElem_range] at this
    have hg := List.forall₂_iff_get.mp (mapM_forall₂ _ _ _ this)
    have hx := hg.2 j (by rw [hg.1]; exact hj') hj'
    exact coneEquality_len hx
  refine ⟨⟨by rw [hcn]; unfold coneWidth; omega, ?_⟩, hcn, ?_⟩
  · intro r hr
    rw [hcn]
    rw [← h, ← h1] at hr
    rcases List.mem_append.mp hr with hr | hr
    · rw [w1.2 r hr, w2, hnc]; rfl
    · rcases List.mem_append.mp hr with hr | hr
      · obtain ⟨j, _, rfl⟩ := List.mem_map.mp hr
        exact unitRow_len _ _ _ _
      · exact hlen r hr
  · intro sol hl hs
    have hsl : sol.length = lambdaBase p + p.nvar * b.loop.stmts.length := by
      rw [hcn] at hl; unfold coneWidth at hl; omega
    rw [← h, C27_add, ← h1] at hs
    obtain ⟨s1, s2⟩ := hs
    have hA : (sol.take (lambdaBase p)).length = lambdaBase p := by simp; omega
    have hZ : (sol.drop (lambdaBase p)).length = p.nvar * b.loop.stmts.length := by simp; omega
    have e := sat_addDims (c := addCst base (coneCoeffBounds p)) (sol.take (lambdaBase p)) (sol.drop (lambdaBase p)) [] hall
      (by rw [hnc, hA]; simp)
    rw [hA, hZ, List.append_nil, List.append_nil, List.take_append_drop] at e
    have s3 := e.mp s1
    rw [C27_add] at s3
    refine ⟨s3.1, s3.2, ?_, ?_⟩
    · intro j hj
      have := s2 ⟨false, unitRow (coneWidth p b.loop.stmts.length) (lambdaBase p + j) 1 (-1)⟩
        (List.mem_append_left _ (List.mem_map.mpr ⟨j, List.mem_range.mpr hj, rfl⟩))
      unfold Row.Sat at this
      simp only [Bool.false_eq_true, if_false] at this
      rw [aff_unitRow _ _ _ _ _ (by unfold coneWidth; omega) (by rw [hl, hcn])] at this
      omega
    · intro s hs j hj
      obtain ⟨r, hr, hx⟩ := heq s hs j hj
      exact ⟨r, hx, s2 r (List.mem_append_right _ hr)⟩

/-- The equality of iterator `j`, read at a solution. -/
theorem coneEquality_value (full : Bool) (p : Prog) (b : Band) (faces : List (List Int)) (evict cone s j : Nat) (r : Row)
    (sol : List Int) (i : Nat) (f hs : List Int) (hi : b.loop.stmts[s]? = some i) (hip : i < p.stmts.length)
    (hj : j < p.nvar) (hf : faces[s]? = some f) (hh : coneHyps full p b evict cone i j = some hs)
    (hl : hs.length + 1 ≤ p.nvar ∨ ∀ h ∈ hs, h = 0)
    (h : coneEquality full p b faces evict cone s j = some r)
    (hsl : sol.length + 1 = coneWidth p b.loop.stmts.length) (hr : r.Sat sol) :
    sol.getD (stmtOffset p.nvar p.npar i + j) 0 + dot hs (sol.drop (lambdaBase p + s * p.nvar + 1) ++ [1]) =
      coef f j * sol.getD (lambdaBase p + s * p.nvar) 0 := by
  unfold coneEquality at h
  rw [hi, hf] at h
  simp only [Option.bind_eq_bind, Option.bind_some, hh] at h
  split_ifs at h with hw
  simp only [Option.pure_def, Option.some.injEq] at h
  have hsn : s < b.loop.stmts.length := (List.getElem?_eq_some_iff.mp hi).1
  have hmul : s * p.nvar + p.nvar ≤ p.nvar * b.loop.stmts.length := by
    have : (s + 1) * p.nvar ≤ b.loop.stmts.length * p.nvar := Nat.mul_le_mul_right _ hsn
    rw [Nat.add_mul, Nat.one_mul] at this
    rw [Nat.mul_comm p.nvar]
    exact this
  have hoff := stmtOffset_lambdaBase p i j hip (by omega)
  have hcw : coneWidth p b.loop.stmts.length = lambdaBase p + 1 + p.nvar * b.loop.stmts.length := rfl
  have hslen : sol.length = lambdaBase p + p.nvar * b.loop.stmts.length := by omega
  have hv := cone_row_value (coneWidth p b.loop.stmts.length) (stmtOffset p.nvar p.npar i + j)
    (lambdaBase p + s * p.nvar) (coef f j) hs (sol ++ [1]) (by simpa using hsl) (by omega) (by omega) (by omega)
    (hl.imp (fun h => by omega) id)
  rw [← h] at hr
  unfold Row.Sat aff at hr
  simp only [if_true] at hr
  rw [hr, getD_append_left' _ _ _ (by omega), getD_append_left' _ _ _ (by omega),
    List.drop_append_of_le_length (by omega)] at hv
  omega

end Pluto
