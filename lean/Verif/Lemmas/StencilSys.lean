import Verif.Lemmas.StencilForm
import Verif.Lemmas.Dims
import Verif.Spec.Stencil

/-! What the system of the stencil test means. -/

namespace Pluto

theorem flatten_slice {α : Type*} (m : Nat) : ∀ (l : List (List α)) (i : Nat), (∀ a ∈ l, a.length = m) → ∀ a, l[i]? = some a →
    (l.flatten.drop (i * m)).take m = a
  | [], i, _, a, h => by simp at h
  | b :: l, 0, hl, a, h => by
    simp only [List.getElem?_cons_zero, Option.some.injEq] at h
    subst h
    have := hl b (by simp)
    simp [← this]
  | b :: l, i + 1, hl, a, h => by
    rw [List.getElem?_cons_succ] at h
    have hb := hl b (by simp)
    have e : (i + 1) * m = b.length + i * m := by rw [hb]; ring
    rw [List.flatten_cons, e, List.drop_length_add_append]
    exact flatten_slice m l i (fun a ha => hl a (List.mem_cons_of_mem _ ha)) a h

theorem flatten_len {α : Type*} (m : Nat) : ∀ (l : List (List α)), (∀ a ∈ l, a.length = m) → l.flatten.length = l.length * m
  | [], _ => by simp
  | b :: l, hl => by
    have := flatten_len m l (fun a ha => hl a (List.mem_cons_of_mem _ ha))
    rw [List.flatten_cons, List.length_append, this, hl b (by simp), List.length_cons]
    ring

/-- The coefficient vector with zero `u`, bound `w` and hyperplanes `h`. -/
def planeSol (p : Prog) (w : Int) (h : Nat → List Int) : List Int :=
  List.replicate p.npar 0 ++ [w] ++ ((List.range p.stmts.length).map h).flatten

theorem planeSol_len {p : Prog} {w : Int} {h : Nat → List Int} (hl : ∀ i < p.stmts.length, (h i).length = p.nvar + 1) :
    (planeSol p w h).length + 1 = cstWidth p.nvar p.npar p.stmts.length := by
  unfold planeSol cstWidth
  have := flatten_len (p.nvar + 1) ((List.range p.stmts.length).map h) (by
    intro a ha
    obtain ⟨i, hi, rfl⟩ := List.mem_map.mp ha
    exact hl i (List.mem_range.mp hi))
  simp only [List.length_append, List.length_replicate, List.length_cons, List.length_nil, this, List.length_map, List.length_range]

theorem planeSol_slice {p : Prog} {w : Int} {h : Nat → List Int} (hl : ∀ i < p.stmts.length, (h i).length = p.nvar + 1) {i : Nat}
    (hi : i < p.stmts.length) : solSlice p.nvar p.npar (planeSol p w h) i = h i := by
  unfold solSlice planeSol stmtOffset
  have e : p.npar + 1 + i * (p.nvar + 1) = (List.replicate p.npar (0 : Int) ++ [w]).length + i * (p.nvar + 1) := by simp
  rw [e, List.drop_length_add_append]
  apply flatten_slice
  · intro a ha
    obtain ⟨i, hi, rfl⟩ := List.mem_map.mp ha
    exact hl i (List.mem_range.mp hi)
  · simp [hi]

theorem planeSol_take (p : Prog) (w : Int) (h : Nat → List Int) :
    (planeSol p w h).take (p.npar + 1) = List.replicate p.npar 0 ++ [w] := by
  unfold planeSol
  rw [List.take_append_of_le_length (by simp)]
  simp

theorem planeSol_w (p : Prog) (w : Int) (h : Nat → List Int) : (planeSol p w h).getD p.npar 0 = w := by
  unfold planeSol
  rw [List.append_assoc, getD_append_right' _ _ _ (by simp)]
  simp

theorem getD_slice {p : Prog} {x : List Int} (i k : Nat) (hk : k < p.nvar + 1) :
    (solSlice p.nvar p.npar x i).getD k 0 = x.getD (stmtOffset p.nvar p.npar i + k) 0 := by
  unfold solSlice
  simp [List.getD_eq_getElem?_getD, List.getElem?_take, List.getElem?_drop, hk]

/-- Values of the hyperplanes over the rationals. -/
theorem hypValue_cast (p : Prog) (x : List Int) (i : Nat) (s : List ℚ) :
    hypValue p.nvar p.npar (x.map (Int.cast : Int → ℚ)) i s = aff (solSlice p.nvar p.npar x i) s := by
  rw [hypValue_eq]
  unfold aff
  rw [dot_eq_ldot]
  unfold solSlice
  rw [List.map_take, List.map_drop]

theorem boundValue_cast (p : Prog) (x : List Int) (w : Int) (hx : x.take (p.npar + 1) = List.replicate p.npar 0 ++ [w]) (q : List ℚ)
    (hq : q.length = p.npar) : boundValue p.npar (x.map (Int.cast : Int → ℚ)) q = w := by
  unfold boundValue
  rw [← List.map_take, hx, List.map_append, ldot_append _ _ _ _ (by simp [hq])]
  rw [List.map_replicate]
  simp only [Int.cast_zero]
  rw [ldot_zeros]
  simp [ldot]

theorem row_sat_cast (r : Row) (x : List Int) : r.Sat (x.map (Int.cast : Int → ℚ)) ↔ r.Sat x := by
  have := Cst.sat_castInt ⟨0, [r]⟩ x
  simpa [Cst.Sat] using this

/-! ### The bounds on the coefficients -/

theorem shortBounds_sat (p : Prog) (x : List Int) (hx : x.length + 1 = cstWidth p.nvar p.npar p.stmts.length) :
    (shortBounds p).Sat x ↔ (∀ i, p.npar ≤ i → i < x.length → 0 ≤ x.getD i 0) ∧ (∀ i < p.npar, x.getD i 0 = 0) ∧ x.getD p.npar 0 ≤ 10 := by
  have hn : p.npar + 1 < cstWidth p.nvar p.npar p.stmts.length := by unfold cstWidth; omega
  unfold shortBounds
  have h1 := addLb_fold (List.range' p.npar (cstWidth p.nvar p.npar p.stmts.length - 1 - p.npar)) 0
    ⟨cstWidth p.nvar p.npar p.stmts.length, []⟩ x hx (by
      intro i hi
      rw [List.mem_range'_1] at hi
      show i + 1 < cstWidth p.nvar p.npar p.stmts.length
      omega)
  have h2 := addUb_fold [p.npar] 10 ⟨cstWidth p.nvar p.npar p.stmts.length,
    ((List.range' p.npar (cstWidth p.nvar p.npar p.stmts.length - 1 - p.npar)).foldl (fun c i => addLb c i 0)
      ⟨cstWidth p.nvar p.npar p.stmts.length, []⟩).rows ++
      (List.range p.npar).map (fun i => ⟨true, (zrow (cstWidth p.nvar p.npar p.stmts.length)).set i 1⟩)⟩ x hx (by
      intro i hi
      rw [List.mem_singleton] at hi
      subst hi
      exact hn)
  rw [List.foldl_cons, List.foldl_nil] at h2
  rw [h2.2]
  have h3 := h1.2
  simp only [Cst.Sat, List.not_mem_nil, false_implies, implies_true, true_and] at h3
  have e1 : (∀ r ∈ (List.range p.npar).map (fun i => (⟨true, (zrow (cstWidth p.nvar p.npar p.stmts.length)).set i 1⟩ : Row)), r.Sat x) ↔
      ∀ i < p.npar, x.getD i 0 = 0 := by
    simp only [List.forall_mem_map, List.mem_range]
    refine forall₂_congr fun i hi => ?_
    unfold Row.Sat
    simp only [if_true]
    rw [aff_set_zrow _ _ _ _ (by omega) (by omega)]
    simp
  simp only [Cst.Sat, List.forall_mem_append, h3, e1, List.forall_mem_singleton, List.mem_range'_1]
  rw [and_assoc]
  refine and_congr ⟨fun h i a b => h i ⟨a, by omega⟩, fun h i a => h i a.1 (by omega)⟩ Iff.rfl

/-! ### The rows for the faces -/

theorem setOnes_fold (off : Nat) (c : Nat → Bool) (x : List Int) : ∀ (l : List Nat) (row : List Int), l.Nodup →
    (∀ k ∈ l, off + k < row.length ∧ off + k < x.length ∧ coef row (off + k) = 0) →
    (l.foldl (fun r k => if c k then r.set (off + k) 1 else r) row).length = row.length ∧
    (∀ j, (∀ k ∈ l, j ≠ off + k) → coef (l.foldl (fun r k => if c k then r.set (off + k) 1 else r) row) j = coef row j) ∧
    aff (l.foldl (fun r k => if c k then r.set (off + k) 1 else r) row) x =
      aff row x + ((l.filter c).map (fun k => x.getD (off + k) 0)).sum
  | [], row, _, _ => by simp
  | k :: l, row, hn, h => by
    obtain ⟨h1, h2, h3⟩ := h k (by simp)
    rw [List.nodup_cons] at hn
    rw [List.foldl_cons]
    by_cases hc : c k
    · rw [if_pos hc]
      obtain ⟨i1, i2, i3⟩ := setOnes_fold off c x l (row.set (off + k) 1) hn.2 (by
        intro j hj
        obtain ⟨g1, g2, g3⟩ := h j (List.mem_cons_of_mem _ hj)
        refine ⟨by simpa using g1, g2, ?_⟩
        rw [coef_set _ _ _ _ h1, if_neg, g3]
        intro e
        have : j = k := by omega
        exact hn.1 (this ▸ hj))
      refine ⟨by rw [i1]; simp, fun j hj => ?_, ?_⟩
      · rw [i2 j (fun k' hk' => hj k' (List.mem_cons_of_mem _ hk')), coef_set _ _ _ _ h1, if_neg]
        exact fun e => hj k (by simp) e.symm
      · rw [i3, List.filter_cons_of_pos hc, List.map_cons, List.sum_cons]
        unfold aff
        rw [dot_set_eq _ _ _ _ h1, h3, getD_append_left' _ _ _ h2]
        simp
        ring
    · rw [if_neg hc]
      obtain ⟨i1, i2, i3⟩ := setOnes_fold off c x l row hn.2 (fun j hj => h j (List.mem_cons_of_mem _ hj))
      refine ⟨i1, fun j hj => i2 j (fun k' hk' => hj k' (List.mem_cons_of_mem _ hk')), ?_⟩
      rw [i3, List.filter_cons_of_neg hc]

theorem orthoSum_spec (p : Prog) (i : Nat) (hi : i < p.stmts.length) (f x : List Int)
    (hx : x.length + 1 = cstWidth p.nvar p.npar p.stmts.length) :
    (orthoSum p i f).val.length = cstWidth p.nvar p.npar p.stmts.length ∧
    ((orthoSum p i f).Sat x ↔
      1 ≤ (((List.range p.nvar).filter (fun k => decide (f.getD k 0 = 0))).map (fun k => x.getD (stmtOffset p.nvar p.npar i + k) 0)).sum) := by
  have hb := stmtOffset_bound p.nvar p.npar p.stmts.length i hi
  obtain ⟨h1, h2, h3⟩ := setOnes_fold (stmtOffset p.nvar p.npar i) (fun k => decide (f.getD k 0 = 0)) x (List.range p.nvar)
    (zrow (cstWidth p.nvar p.npar p.stmts.length)) List.nodup_range (by
      intro k hk
      rw [List.mem_range] at hk
      exact ⟨by simp [zrow]; omega, by omega, coef_zrow _ _⟩)
  simp only [decide_eq_true_eq] at h1 h2 h3
  unfold orthoSum
  simp only []
  refine ⟨by rw [List.length_set, h1, zrow_length], ?_⟩
  unfold Row.Sat
  simp only [Bool.false_eq_true, if_false]
  obtain ⟨m, hm⟩ : ∃ m, cstWidth p.nvar p.npar p.stmts.length = m + 1 := ⟨x.length, hx.symm⟩
  rw [hm] at h1 h2 h3 hb hx ⊢
  rw [Nat.add_sub_cancel, aff_set_last _ _ _ m (by rw [h1, zrow_length]) (by omega), h3, aff_zrow]
  · constructor <;> intro h <;> omega
  · rw [h2 m, coef_zrow]
    intro k hk
    rw [List.mem_range] at hk
    omega

theorem orthoZero_spec (p : Prog) (i : Nat) (hi : i < p.stmts.length) (f x : List Int)
    (hx : x.length + 1 = cstWidth p.nvar p.npar p.stmts.length) :
    (∀ r ∈ orthoZero p i f, r.val.length = cstWidth p.nvar p.npar p.stmts.length) ∧
    ((∀ r ∈ orthoZero p i f, r.Sat x) ↔ ∀ k < p.nvar, f.getD k 0 ≠ 0 → x.getD (stmtOffset p.nvar p.npar i + k) 0 = 0) := by
  have hb := stmtOffset_bound p.nvar p.npar p.stmts.length i hi
  unfold orthoZero
  simp only [List.forall_mem_map, List.mem_filter, List.mem_range, decide_eq_true_eq, and_imp]
  refine ⟨fun k _ _ => by simp [zrow], forall₃_congr fun k hk _ => ?_⟩
  unfold Row.Sat
  simp only [if_true]
  rw [aff_set_zrow _ _ _ _ (by omega) (by omega)]
  simp

theorem sum_pos_iff (l : List Int) (h : ∀ a ∈ l, 0 ≤ a) : 1 ≤ l.sum ↔ ∃ a ∈ l, a ≠ 0 := by
  induction l with
  | nil => simp
  | cons a l ih =>
    have h0 := h a (by simp)
    have hs : 0 ≤ l.sum := List.sum_nonneg (fun b hb => h b (List.mem_cons_of_mem _ hb))
    have ih := ih (fun b hb => h b (List.mem_cons_of_mem _ hb))
    rw [List.sum_cons]
    simp only [List.mem_cons, exists_eq_or_imp]
    rw [← ih]
    constructor
    · intro h; by_cases ha : a = 0
      · right; omega
      · left; exact ha
    · rintro (h | h) <;> omega

theorem mem_zip_iff {α β : Type*} (l : List α) (m : List β) (a : α) (b : β) :
    (a, b) ∈ l.zip m ↔ ∃ i : Nat, l[i]? = some a ∧ m[i]? = some b := by
  rw [List.mem_iff_getElem?]
  refine exists_congr fun i => ?_
  rw [List.getElem?_zip_eq_some]

/-! ### The whole system -/

/-- The rows of the system. -/
theorem stencilSystem_rows {p : Prog} {S : List Nat} {faces : List (List Int)} {c : Cst} (hc : stencilSystem false p S faces = some c) :
    c.ncols = cstWidth p.nvar p.npar p.stmts.length ∧ depsInside p S ≠ [] ∧
    ∀ r, r ∈ c.rows ↔ (∃ d ∈ depsInside p S, r ∈ boundRows p d ∨ r ∈ lowerRows p d) ∨
      (∃ x ∈ S.zip faces, r = orthoSum p x.1 x.2 ∨ r ∈ orthoZero p x.1 x.2) ∨
      r = ⟨false, zrow (cstWidth p.nvar p.npar p.stmts.length)⟩ ∨ r ∈ (shortBounds p).rows := by
  unfold stencilSystem boundInside at hc
  split at hc
  · cases hc
  rename_i hne
  simp only [Option.bind_eq_bind, Option.bind_some, pure, Option.some.injEq] at hc
  subst hc
  refine ⟨rfl, fun h => hne (Or.inl h), fun r => ?_⟩
  simp only [addCst, orthoFaces, lowerInside, List.mem_append, List.mem_flatMap, List.mem_map, List.mem_cons]
  constructor
  · rintro (((⟨d, hd, h⟩ | ⟨x, hx, rfl⟩ | ⟨x, hx, h⟩) | h | ⟨d, hd, h⟩) | h)
    · exact Or.inl ⟨d, hd, Or.inl h⟩
    · exact Or.inr (Or.inl ⟨x, hx, Or.inl rfl⟩)
    · exact Or.inr (Or.inl ⟨x, hx, Or.inr h⟩)
    · exact Or.inr (Or.inr (Or.inl h))
    · exact Or.inl ⟨d, hd, Or.inr h⟩
    · exact Or.inr (Or.inr (Or.inr h))
  · rintro (⟨d, hd, h | h⟩ | ⟨x, hx, rfl | h⟩ | h | h)
    · exact Or.inl (Or.inl (Or.inl ⟨d, hd, h⟩))
    · exact Or.inl (Or.inr (Or.inr ⟨d, hd, h⟩))
    · exact Or.inl (Or.inl (Or.inr (Or.inl ⟨x, hx, rfl⟩)))
    · exact Or.inl (Or.inl (Or.inr (Or.inr ⟨x, hx, h⟩)))
    · exact Or.inl (Or.inr (Or.inl h))
    · exact Or.inr h

theorem mem_depsInside (p : Prog) (S : List Nat) (d : Dep) : d ∈ depsInside p S ↔ d ∈ p.deps ∧ d.Inside S := by
  unfold depsInside Dep.Inside
  rw [List.mem_filter]
  simp [and_assoc]

theorem shortBounds_wf (p : Prog) : ∀ r ∈ (shortBounds p).rows, r.val.length = cstWidth p.nvar p.npar p.stmts.length := by
  have key : ∀ (l : List Nat) (c : Cst), (∀ r ∈ c.rows, r.val.length = c.ncols) →
      (l.foldl (fun c i => addLb c i 0) c).ncols = c.ncols ∧
      ∀ r ∈ (l.foldl (fun c i => addLb c i 0) c).rows, r.val.length = c.ncols := by
    intro l
    induction l with
    | nil => intro c h; exact ⟨rfl, h⟩
    | cons i l ih =>
      intro c h
      rw [List.foldl_cons]
      exact ih (addLb c i 0) (by
        intro r hr
        simp only [addLb, List.mem_append, List.mem_singleton] at hr
        rcases hr with hr | rfl
        · exact h r hr
        · simp [unitRow, addLb])
  intro r hr
  unfold shortBounds at hr
  simp only [addUb, List.mem_append, List.mem_map, List.mem_range, List.mem_singleton] at hr
  rcases hr with (hr | ⟨i, _, rfl⟩) | rfl
  · exact (key _ ⟨_, []⟩ (by simp)).2 r hr
  · simp [zrow]
  · simp [unitRow]

theorem stencilSystem_wf {p : Prog} {S : List Nat} (hS : ∀ i ∈ S, i < p.stmts.length) (hd : ∀ d ∈ p.deps, DepOK p d)
    {faces : List (List Int)} {c : Cst} (hc : stencilSystem false p S faces = some c) : c.WF := by
  obtain ⟨h1, -, h2⟩ := stencilSystem_rows hc
  refine ⟨by rw [h1]; unfold cstWidth; omega, fun r hr => ?_⟩
  rw [h1]
  have hx : (List.replicate (cstWidth p.nvar p.npar p.stmts.length - 1) (0 : Int)).length + 1 = cstWidth p.nvar p.npar p.stmts.length := by
    simp [cstWidth]
  rcases (h2 r).mp hr with ⟨d, hdm, h | h⟩ | ⟨⟨i, f⟩, hx', h⟩ | h | h
  · have hk := hd d ((mem_depsInside p S d).mp hdm).1
    exact mapRows_scatter_len p d.src d.dest (p.npar + 1) _ hk.src hk.dest (le_refl _) r h
  · have hk := hd d ((mem_depsInside p S d).mp hdm).1
    rw [lowerRows_eq] at h
    exact mapRows_scatter_len p d.src d.dest (p.npar + 1) _ hk.src hk.dest (le_refl _) r h
  · have hi := hS i (List.of_mem_zip hx').1
    rcases h with rfl | h
    · exact (orthoSum_spec p i hi f _ hx).1
    · exact (orthoZero_spec p i hi f _ hx).1 r h
  · rw [h]; exact zrow_length _
  · exact shortBounds_wf p r h

theorem take_of_zero {p : Prog} {x : List Int} (hx : x.length + 1 = cstWidth p.nvar p.npar p.stmts.length)
    (h0 : ∀ i < p.npar, x.getD i 0 = 0) : x.take (p.npar + 1) = List.replicate p.npar 0 ++ [x.getD p.npar 0] := by
  have hl : p.npar < x.length := by unfold cstWidth at hx; omega
  rw [List.take_succ_eq_append_getElem hl]
  congr 1
  · apply List.ext_getElem
    · simp; omega
    · intro i h1 h2
      simp at h1 h2
      have := h0 i h2
      simp only [List.getD_eq_getElem?_getD, List.getElem?_eq_getElem (show i < x.length by omega), Option.getD_some] at this
      simpa using this
  · simp [List.getD_eq_getElem?_getD, hl]

/-- A solution of the system describes a short plane. -/
theorem stencil_sound {p : Prog} {S : List Nat} (hS : ∀ i ∈ S, i < p.stmts.length) (hd : ∀ d ∈ p.deps, DepOK p d)
    {faces : List (List Int)} {c : Cst} (hc : stencilSystem false p S faces = some c) {x : List Int}
    (hx : x.length + 1 = cstWidth p.nvar p.npar p.stmts.length) (hs : c.Sat x) :
    ShortPlane p S faces (x.getD p.npar 0) (fun i => solSlice p.nvar p.npar x i) ∧ 0 ≤ x.getD p.npar 0 ∧ x.getD p.npar 0 ≤ 10 ∧
      x.take (p.npar + 1) = List.replicate p.npar 0 ++ [x.getD p.npar 0] ∧ NonNeg x := by
  obtain ⟨-, -, hr⟩ := stencilSystem_rows hc
  have hsb : (shortBounds p).Sat x := fun r h => hs r ((hr r).mpr (Or.inr (Or.inr (Or.inr h))))
  obtain ⟨b1, b2, b3⟩ := (shortBounds_sat p x hx).mp hsb
  have hl : p.npar < x.length := by unfold cstWidth at hx; omega
  have htake := take_of_zero hx b2
  have hnn : NonNeg x := by
    intro a ha
    obtain ⟨i, hi, rfl⟩ := List.getElem_of_mem ha
    by_cases hip : i < p.npar
    · have := b2 i hip
      simp only [List.getD_eq_getElem?_getD, List.getElem?_eq_getElem hi, Option.getD_some] at this
      omega
    · have := b1 i (by omega) hi
      simpa only [List.getD_eq_getElem?_getD, List.getElem?_eq_getElem hi, Option.getD_some] using this
  refine ⟨⟨?_, ?_, ?_, ?_, ?_⟩, b1 _ (le_refl _) hl, b3, htake, hnn⟩
  · intro i hi
    exact solSlice_length p.nvar p.npar p.stmts.length x i hi hx
  · intro i _ v hv
    exact hnn v (List.mem_of_mem_drop (List.mem_of_mem_take hv))
  · intro a i f h1 h2 k hk hf
    have hi := hS i (List.mem_of_getElem? h1)
    rw [getD_slice i k (by omega)]
    exact (orthoZero_spec p i hi f x hx).2.mp (fun r h => hs r ((hr r).mpr (Or.inr (Or.inl ⟨(i, f), (mem_zip_iff _ _ _ _).mpr ⟨a, h1, h2⟩, Or.inr h⟩)))) k hk hf
  · intro a i f h1 h2
    have hi := hS i (List.mem_of_getElem? h1)
    have := (orthoSum_spec p i hi f x hx).2.mp (hs _ ((hr _).mpr (Or.inr (Or.inl ⟨(i, f), (mem_zip_iff _ _ _ _).mpr ⟨a, h1, h2⟩, Or.inl rfl⟩))))
    rw [sum_pos_iff] at this
    · obtain ⟨v, hv, hv0⟩ := this
      obtain ⟨k, hk, rfl⟩ := List.mem_map.mp hv
      rw [List.mem_filter, List.mem_range, decide_eq_true_eq] at hk
      exact ⟨k, hk.1, hk.2, by rw [getD_slice i k (by omega)]; exact hv0⟩
    · intro v hv
      obtain ⟨k, hk, rfl⟩ := List.mem_map.mp hv
      rw [List.mem_filter, List.mem_range] at hk
      have := stmtOffset_bound p.nvar p.npar p.stmts.length i hi
      exact b1 _ (by unfold stmtOffset; omega) (by omega)
  · intro d hdm hin s t q hi
    have hm := (mem_depsInside p S d).mpr ⟨hdm, hin⟩
    have hx' : (x.map (Int.cast : Int → ℚ)).length + 1 = cstWidth p.nvar p.npar p.stmts.length := by simpa using hx
    have := distRows_sound (hd d hdm) hx' (fun r h => (row_sat_cast r x).mpr (hs r ((hr r).mpr (Or.inl ⟨d, hm, Or.inl h⟩))))
      (fun r h => (row_sat_cast r x).mpr (hs r ((hr r).mpr (Or.inl ⟨d, hm, Or.inr h⟩)))) s t q hi
    rw [hypValue_cast, hypValue_cast, boundValue_cast p x _ htake q hi.hp] at this
    exact this

/-- A short plane is a solution of the system, if the dependences have rational points. -/
theorem stencil_complete {p : Prog} {S : List Nat} (hS : ∀ i ∈ S, i < p.stmts.length) (hd : ∀ d ∈ p.deps, DepOK p d)
    (hne : ∀ d ∈ p.deps, d.Inside S → ∃ s t q : List ℚ, DepInst d.bpoly p.nvar p.nvar p.npar s t q)
    {faces : List (List Int)} {c : Cst} (hc : stencilSystem false p S faces = some c) {w : Int} {h : Nat → List Int}
    (hp : ShortPlane p S faces w h) (hw0 : 0 ≤ w) (hw : w ≤ 10) : c.Sat (planeSol p w h) := by
  obtain ⟨-, -, hr⟩ := stencilSystem_rows hc
  have hx := planeSol_len (w := w) hp.len
  have hnn : NonNeg (planeSol p w h) := by
    intro a ha
    unfold planeSol at ha
    simp only [List.mem_append, List.mem_singleton, List.mem_flatten, List.mem_map, List.mem_range] at ha
    rcases ha with (ha | rfl) | ⟨l, ⟨i, hi, rfl⟩, ha⟩
    · rw [List.eq_of_mem_replicate ha]
    · exact hw0
    · exact hp.nonneg i hi a ha
  have hget : ∀ i < (planeSol p w h).length, 0 ≤ (planeSol p w h).getD i 0 := by
    intro i hi
    simp only [List.getD_eq_getElem?_getD, List.getElem?_eq_getElem hi, Option.getD_some]
    exact hnn _ (List.getElem_mem hi)
  intro r hrm
  rcases (hr r).mp hrm with ⟨d, hdm, hrd⟩ | ⟨⟨i, f⟩, hz, hrf⟩ | rfl | hrs
  · obtain ⟨hdp, hin⟩ := (mem_depsInside p S d).mp hdm
    have hx' : ((planeSol p w h).map (Int.cast : Int → ℚ)).length + 1 = cstWidth p.nvar p.npar p.stmts.length := by simpa using hx
    have := distRows_complete (hd d hdp) hx' (hne d hdp hin) (by
      intro s t q hi
      rw [hypValue_cast, hypValue_cast, boundValue_cast p _ _ (planeSol_take p w h) q hi.hp,
        planeSol_slice hp.len (hd d hdp).src, planeSol_slice hp.len (hd d hdp).dest]
      exact hp.short d hdp hin s t q hi)
    rw [← row_sat_cast]
    rcases hrd with h1 | h1
    · exact this.1 r h1
    · exact this.2 r h1
  · obtain ⟨a, h1, h2⟩ := (mem_zip_iff _ _ _ _).mp hz
    have hi := hS i (List.mem_of_getElem? h1)
    have hb := stmtOffset_bound p.nvar p.npar p.stmts.length i hi
    rcases hrf with rfl | hrf
    · rw [(orthoSum_spec p i hi f _ hx).2, sum_pos_iff]
      · obtain ⟨k, hk, hf, hv⟩ := hp.other a i f h1 h2
        refine ⟨_, List.mem_map.mpr ⟨k, List.mem_filter.mpr ⟨List.mem_range.mpr hk, decide_eq_true hf⟩, rfl⟩, ?_⟩
        rw [← getD_slice i k (by omega), planeSol_slice hp.len hi]
        exact hv
      · intro v hv
        obtain ⟨k, hk, rfl⟩ := List.mem_map.mp hv
        rw [List.mem_filter, List.mem_range] at hk
        exact hget _ (by omega)
    · refine (orthoZero_spec p i hi f _ hx).2.mpr (fun k hk hf => ?_) r hrf
      rw [← getD_slice i k (by omega), planeSol_slice hp.len hi]
      exact hp.face a i f h1 h2 k hk hf
  · unfold Row.Sat
    simp [aff_zrow]
  · refine (shortBounds_sat p _ hx).mpr ⟨fun i _ hi => hget i hi, fun i hi => ?_, by rw [planeSol_w]; exact hw⟩ r hrs
    unfold planeSol
    rw [List.append_assoc, getD_append_left' _ _ _ (by simpa using hi)]
    simp [List.getD_eq_getElem?_getD, hi]

/-- Comparing two solutions compares their bounds. -/
theorem lexLe_bound : ∀ (n : Nat) (w w' : Int) (r r' : List Int),
    LexLe (List.replicate n 0 ++ [w] ++ r) (List.replicate n 0 ++ [w'] ++ r') → w ≤ w'
  | 0, w, w', r, r', h => by
    simp only [List.replicate_zero, List.nil_append, List.cons_append, LexLe] at h
    omega
  | n + 1, w, w', r, r', h => by
    simp only [List.replicate_succ, List.cons_append, LexLe] at h
    rcases h with h | ⟨-, h⟩
    · omega
    · exact lexLe_bound n w w' r r' (by simpa using h)

end Pluto
