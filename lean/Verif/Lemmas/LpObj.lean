import Verif.Lemmas.LpMain

/-! The objective, and the wrapper with GLPK without `--lp` and `--dfp`. -/

namespace Pluto

theorem dot_weights (c : Int) (l : List Int) :
    dot ((List.range l.length).map (fun k : Nat => c * ((l.length : Int) - k))) l.reverse =
      (l.mapIdx (fun k a => c * ((k : Int) + 1) * a)).sum := by
  induction l using List.reverseRecOn with
  | nil => rfl
  | append_singleton l a ih =>
    rw [List.reverse_append, List.length_append, List.length_singleton, List.range_succ_eq_map, List.map_cons, List.map_map,
      List.reverse_singleton, List.singleton_append, List.mapIdx_append, List.sum_append, ← ih]
    simp only [dot]
    have e : (List.range l.length).map ((fun k : Nat => c * (((l.length + 1 : Nat) : Int) - k)) ∘ Nat.succ) =
        (List.range l.length).map (fun k : Nat => c * ((l.length : Int) - k)) := by
      apply List.map_congr_left
      intro k _
      simp only [Function.comp]
      push_cast
      ring
    rw [e]
    simp
    ring

theorem dot_blocks (c : Int) (sts : List Stmt) : ∀ (L : Nat → Stmt → List Int) (e : Nat → Int),
    (∀ i st, sts[i]? = some st → (L i st).length = st.dimOrig) →
    dot (sts.flatMap (fun st => (List.range st.dimOrig).map (fun k : Nat => c * ((st.dimOrig : Int) - k)) ++ [1]))
        (sts.mapIdx (fun i st => (L i st).reverse ++ [e i])).flatten =
      (sts.mapIdx (fun i st => ((L i st).mapIdx (fun k a => c * ((k : Int) + 1) * a)).sum + e i)).sum := by
  induction sts with
  | nil => intros; rfl
  | cons st sts ih =>
    intro L e h
    have h0 := h 0 st (by simp)
    rw [List.flatMap_cons, List.mapIdx_cons, List.mapIdx_cons, List.flatten_cons, List.sum_cons,
      dot_append _ _ _ _ (by simp [h0]), dot_append _ _ _ _ (by simp [h0]),
      ih (fun i => L (i + 1)) (fun i => e (i + 1)) (fun i s hs => h (i + 1) s (by simpa using hs)), ← h0, dot_weights]
    simp [dot]

theorem cplexObjective_value (p : Prog) (ho : p.OrigOK) (z : List Int) (hz : SolLen p z) :
    dot (cplexObjective p) (searchOrder false p z) = objValue p z := by
  have hz' : z.length = p.npar + 1 + p.stmts.length * (p.nvar + 1) := hz
  have hlen : ∀ (i : Nat) (st : Stmt), p.stmts[i]? = some st →
      (loopCoeffs p.nvar (p.npar + 1 + i * (p.nvar + 1)) st z).length = st.dimOrig := by
    intro i st hi
    have hlt := (List.getElem?_eq_some_iff.mp hi).1
    have hm := ho st (List.mem_of_getElem? hi)
    have hb : p.npar + 1 + i * (p.nvar + 1) + p.nvar ≤ z.length := by
      have : (i + 1) * (p.nvar + 1) ≤ p.stmts.length * (p.nvar + 1) := Nat.mul_le_mul_right _ (by omega)
      have e : (i + 1) * (p.nvar + 1) = i * (p.nvar + 1) + (p.nvar + 1) := by ring
      omega
    rw [loopCoeffs_eq _ _ _ _ hb, stMask_eq _ _ hm.1, keepMask_length _ _ (by simp; omega), hm.2]
  have hrep : ∀ (n : Nat) (a : Int) (l : List Int), l.length = n → dot (List.replicate n a) l = a * l.sum := by
    intro n a
    induction n with
    | zero => intro l hl; simp at hl; subst hl; simp [dot]
    | succ n ih =>
      intro l hl
      cases l with
      | nil => simp at hl
      | cons b l =>
        rw [List.replicate_succ]
        simp only [dot, List.sum_cons]
        rw [ih l (by simpa using hl)]
        simp
        ring
  have htake : z.take (p.npar + 1) = z.take p.npar ++ [z.getD p.npar 0] := by
    rw [List.take_add_one, List.getD_eq_getElem?_getD, List.getElem?_eq_getElem (by omega)]
    rfl
  unfold cplexObjective searchOrder objValue
  simp only [Bool.false_eq_true, if_false]
  rw [dot_append _ _ _ _ (by simp; omega), htake, dot_append _ _ _ _ (by simp; omega), hrep _ _ _ (by simp; omega)]
  have hb := dot_blocks ((p.nvar : Int) + 2) p.stmts (fun i st => loopCoeffs p.nvar (p.npar + 1 + i * (p.nvar + 1)) st z)
    (fun i => z.getD (p.npar + 1 + i * (p.nvar + 1) + p.nvar) 0) hlen
  rw [← hb]
  simp [dot]

/-- An exact integer solver exists. -/
theorem exists_ilpOptimal : ∃ ilp, IlpOptimal ilp := by
  classical
  have key : ∀ (c : Cst) (obj : List Int), NonNeg obj → (∃ y : List Int, y.length + 1 = c.ncols ∧ NonNeg y ∧ c.Sat y) →
      ∃ z : List Int, z.length + 1 = c.ncols ∧ NonNeg z ∧ c.Sat z ∧
        ∀ y : List Int, y.length + 1 = c.ncols → NonNeg y → c.Sat y → dot obj z ≤ dot obj y := by
    intro c obj hobj hex
    have hnn : ∀ (obj y : List Int), NonNeg obj → NonNeg y → 0 ≤ dot obj y := by
      intro obj
      induction obj with
      | nil => intro y _ _; simp [dot]
      | cons a obj ih =>
        intro y ho hy
        cases y with
        | nil => simp [dot]
        | cons b y =>
          simp only [dot, Int.cast_id]
          exact add_nonneg (mul_nonneg (ho a (by simp)) (hy b (by simp)))
            (ih y (fun c hc => ho c (by simp [hc])) (fun c hc => hy c (by simp [hc])))
    have hN : ∃ n : Nat, ∃ y : List Int, y.length + 1 = c.ncols ∧ NonNeg y ∧ c.Sat y ∧ dot obj y = n := by
      obtain ⟨y, h1, h2, h3⟩ := hex
      exact ⟨(dot obj y).toNat, y, h1, h2, h3, (Int.toNat_of_nonneg (hnn _ _ hobj h2)).symm⟩
    obtain ⟨z, h1, h2, h3, h4⟩ := Nat.find_spec hN
    refine ⟨z, h1, h2, h3, fun y y1 y2 y3 => ?_⟩
    have := Nat.find_min' hN ⟨y, y1, y2, y3, (Int.toNat_of_nonneg (hnn _ _ hobj y2)).symm⟩
    have h0 := hnn _ _ hobj y2
    omega
  refine ⟨fun c obj => if h : NonNeg obj ∧ ∃ y : List Int, y.length + 1 = c.ncols ∧ NonNeg y ∧ c.Sat y
    then some ((key c obj h.1 h.2).choose.map (fun a : Int => (a : ℚ))) else none, ?_⟩
  intro c obj _ hobj
  constructor
  · intro x hx
    beta_reduce at hx
    by_cases h : NonNeg obj ∧ ∃ y : List Int, y.length + 1 = c.ncols ∧ NonNeg y ∧ c.Sat y
    · rw [dif_pos h, Option.some.injEq] at hx
      obtain ⟨a1, a2, a3, a4⟩ := (key c obj h.1 h.2).choose_spec
      exact ⟨_, hx.symm, a1, a2, a3, a4⟩
    · rw [dif_neg h] at hx; cases hx
  · intro hx hex
    beta_reduce at hx
    rw [dif_pos ⟨hobj, hex⟩] at hx
    cases hx

/-- An exact solver of scaling problems exists. -/
theorem exists_mipPoints : ∃ mip, MipPoints mip := by
  classical
  refine ⟨fun P => if h : ∃ s, P.Sol s then some h.choose else none, fun P => ⟨fun s hs => ?_, fun hn hex => ?_⟩⟩
  · beta_reduce at hs
    by_cases h : ∃ s, P.Sol s
    · rw [dif_pos h, Option.some.injEq] at hs
      rw [← hs]
      exact h.choose_spec
    · rw [dif_neg h] at hs; cases hs
  · beta_reduce at hn
    rw [dif_pos hex] at hn; cases hn

theorem cplexObjective_nonneg (p : Prog) : NonNeg (cplexObjective p) := by
  intro a ha
  unfold cplexObjective at ha
  rw [List.mem_append, List.mem_append] at ha
  rcases ha with (ha | ha) | ha
  · rw [List.eq_of_mem_replicate ha]; positivity
  · rw [List.mem_singleton] at ha; rw [ha]; positivity
  · obtain ⟨st, _, ha⟩ := List.mem_flatMap.mp ha
    rw [List.mem_append] at ha
    rcases ha with ha | ha
    · obtain ⟨k, hk, rfl⟩ := List.mem_map.mp ha
      have : k < st.dimOrig := List.mem_range.mp hk
      have h2 : (0 : Int) ≤ (st.dimOrig : Int) - k := by omega
      positivity
    · rw [List.mem_singleton] at ha; omega

end Pluto
