import Verif.Spec.Osl
import Verif.Props.IslConv

/-! Relations of OpenScop and what is made from them. -/

namespace Pluto

theorem filter_single {α : Type*} (l : List α) (P : α → Bool) (i : Nat) (a : α) (hi : l[i]? = some a) (hP : P a = true)
    (h : ∀ (j : Nat) (b : α), j ≠ i → l[j]? = some b → P b = false) : l.filter P = [a] := by
  obtain ⟨hi', rfl⟩ := List.getElem?_eq_some_iff.mp hi
  have e : l = l.take i ++ l[i] :: l.drop (i + 1) := by
    rw [← List.drop_eq_getElem_cons hi', List.take_append_drop]
  have h1 : (l.take i).filter P = [] := by
    rw [List.filter_eq_nil_iff]
    intro b hb
    obtain ⟨j, hj, rfl⟩ := List.mem_iff_getElem.mp hb
    simp only [List.length_take] at hj
    simp only [List.getElem_take]
    rw [h j l[j] (by omega) (List.getElem?_eq_getElem (by omega))]
    simp
  have h2 : (l.drop (i + 1)).filter P = [] := by
    rw [List.filter_eq_nil_iff]
    intro b hb
    obtain ⟨j, hj, rfl⟩ := List.mem_iff_getElem.mp hb
    simp only [List.length_drop] at hj
    simp only [List.getElem_drop]
    rw [h (i + 1 + j) _ (by omega) (List.getElem?_eq_getElem (by omega))]
    simp
  have e2 := congrArg (List.filter P) e
  rw [List.filter_append, List.filter_cons, if_pos hP, h1, h2] at e2
  exact e2

/-- The row of output dimension `i`. -/
def funRow (f : List (List Int)) (i : Nat) (g : List Int) : List Int := 0 :: ((List.replicate f.length 0).set i (-1) ++ g)

theorem OslRel.IsFun.rowOf {r : OslRel} {f : List (List Int)} (h : r.IsFun f) (i : Nat) (hi : i < f.length) :
    r.rowOf (i + 1) = some (funRow f i f[i]) := by
  have hl : r.rows.length = f.length := by rw [h.rows.length_eq]; simp
  unfold OslRel.rowOf
  rw [if_neg (by omega)]
  have hf : (f.mapIdx (fun i g => funRow f i g)).filter (fun w => w.getD (i + 1) 0 != 0) = [funRow f i f[i]] := by
    refine filter_single _ _ i _ ?_ ?_ ?_
    · rw [List.getElem?_mapIdx, List.getElem?_eq_getElem hi]; rfl
    · simp [funRow, List.getD_eq_getElem?_getD, List.getElem?_append, hi]
    · intro j b hj hb
      rw [List.getElem?_mapIdx] at hb
      obtain ⟨g, hg, rfl⟩ := Option.map_eq_some_iff.mp hb
      simp [funRow, List.getD_eq_getElem?_getD, List.getElem?_append, hi, List.getElem?_set, hj]
  have hp := h.rows.filter (fun w => w.getD (i + 1) 0 != 0)
  rw [show (f.mapIdx fun i g => 0 :: ((List.replicate f.length 0).set i (-1) ++ g)) = f.mapIdx (fun i g => funRow f i g) from rfl, hf] at hp
  rw [List.perm_singleton.mp hp]

theorem aff_neg_unit (n i : Nat) (hi : i < n) (g t y : List Int) (ht : t.length = n) :
    aff ((List.replicate n 0).set i (-1) ++ g) (t ++ y) = aff g y - t.getD i 0 := by
  unfold aff
  rw [List.append_assoc, dot_append _ _ _ _ (by simp [ht])]
  have : dot ((List.replicate n (0 : Int)).set i (-1)) t = - t.getD i 0 := by
    clear ht g y
    induction n generalizing i t with
    | zero => omega
    | succ n ih =>
      cases t with
      | nil => cases i <;> simp [List.replicate_succ, dot]
      | cons a t =>
        cases i with
        | zero => simp [List.replicate_succ, dot, dot_zero]
        | succ i => simp [List.replicate_succ, dot, ih i (by omega)]
  rw [this]
  ring

/-- A function in the usual form relates an input to its values only. -/
theorem OslRel.IsFun.has {r : OslRel} {f : List (List Int)} (h : r.IsFun f) (h0 : r.nloc = 0) (t x q : List Int) :
    r.Has t x q ↔ x.length = r.nin ∧ q.length = r.npar ∧ t = f.map (fun g => aff g (x ++ q)) := by
  unfold OslRel.Has
  have key : t.length = f.length → ((∀ w ∈ r.rows, if w.headD 0 = 0 then aff (w.drop 1) (t ++ x ++ [] ++ q) = 0 else 0 ≤ aff (w.drop 1) (t ++ x ++ [] ++ q)) ↔
      t = f.map (fun g => aff g (x ++ q))) := by
    intro ht
    have h1 : (∀ w ∈ r.rows, if w.headD 0 = 0 then aff (w.drop 1) (t ++ x ++ [] ++ q) = 0 else 0 ≤ aff (w.drop 1) (t ++ x ++ [] ++ q)) ↔
        ∀ (i : Nat) (g : List Int), f[i]? = some g → aff g (x ++ q) = t.getD i 0 := by
      constructor
      · intro hw i g hg
        have hi := (List.getElem?_eq_some_iff.mp hg).1
        have := hw (funRow f i g) (h.rows.mem_iff.mpr (List.mem_mapIdx.mpr ⟨i, hi, by rw [(List.getElem?_eq_some_iff.mp hg).2]; rfl⟩))
        simp only [funRow, List.headD_cons, if_true, List.drop_succ_cons, List.drop_zero, List.append_nil] at this
        rw [List.append_assoc, aff_neg_unit _ i hi _ _ _ ht] at this
        omega
      · intro hg w hw
        obtain ⟨i, hi, rfl⟩ := List.mem_mapIdx.mp (h.rows.mem_iff.mp hw)
        simp only [List.headD_cons, if_true, List.drop_succ_cons, List.drop_zero, List.append_nil]
        rw [List.append_assoc, aff_neg_unit _ i hi _ _ _ ht, hg i _ (List.getElem?_eq_getElem hi)]
        omega
    rw [h1]
    constructor
    · intro hg
      apply List.ext_getElem (by simp [ht])
      intro i hi hi'
      have := hg i f[i] (List.getElem?_eq_getElem (by omega))
      rw [List.getElem_map, this, List.getD_eq_getElem?_getD, List.getElem?_eq_getElem hi]
      rfl
    · rintro rfl i g hg
      rw [List.getD_eq_getElem?_getD, List.getElem?_map, hg]
      rfl
  constructor
  · rintro ⟨a, b, c, z, hz, hw⟩
    have : z = [] := List.length_eq_zero_iff.mp (by omega)
    subst this
    exact ⟨b, c, (key (by rw [a, h.out])).mp hw⟩
  · rintro ⟨b, c, e⟩
    have ht : t.length = f.length := by rw [e]; simp
    exact ⟨by rw [ht, h.out], b, c, [], by simp [h0], (key ht).mpr e⟩

theorem OslRel.IsFun.nrows {r : OslRel} {f : List (List Int)} (h : r.IsFun f) : r.rows.length = f.length := by
  rw [h.rows.length_eq]; simp

theorem mapM_range_some {β : Type*} {F : Nat → Option β} (n : Nat) (l : List β) (hl : l.length = n) (h : ∀ (i : Nat) (b : β), l[i]? = some b → F i = some b) :
    (List.range n).mapM F = some l := by
  subst hl
  induction l using List.reverseRecOn with
  | nil => rfl
  | append_singleton l b ih =>
    rw [List.length_append, List.length_singleton, List.range_succ, List.mapM_append]
    rw [ih (fun i c hc => h i c (by rw [List.getElem?_append_left (List.getElem?_eq_some_iff.mp hc).1]; exact hc))]
    have := h l.length b (by simp)
    simp [this]

/-- The matrix made from a scattering. -/
theorem OslRel.IsFun.trans {r : OslRel} {f : List (List Int)} (h : r.IsFun f) (h0 : r.nloc = 0) : oslTrans r = some f := by
  unfold oslTrans
  rw [if_neg]
  · refine mapM_range_some _ f h.nrows.symm (fun i g hg => ?_)
    obtain ⟨hi, rfl⟩ := List.getElem?_eq_some_iff.mp hg
    rw [h.rowOf i hi, h.out]
    simp [funRow]
  · rintro (h1 | ⟨w, hw, h1⟩)
    · exact h1 h0
    · obtain ⟨i, hi, rfl⟩ := List.mem_mapIdx.mp (h.rows.mem_iff.mp hw)
      exact h1 rfl

theorem map_putSi {w : List Int} (h : ∀ v ∈ w, -(2 ^ 31) ≤ v ∧ v < 2 ^ 31) : w.map putSi = w := by
  conv_rhs => rw [← List.map_id w]
  exact List.map_congr_left (fun v hv => putSi_eq (h v hv))

theorem OslRel.IsFun.small {r : OslRel} {f : List (List Int)} (h : r.IsFun f) (hw : r.WF) (i : Nat) (hi : i < f.length) :
    ∀ v ∈ funRow f i f[i], -(2 ^ 31) ≤ v ∧ v < 2 ^ 31 :=
  hw.small _ (h.rows.mem_iff.mpr (List.mem_mapIdx.mpr ⟨i, hi, rfl⟩))

/-- Relations given by equalities in solved form. -/
theorem solved_has (nin npar : Nat) (f : List (List Int)) (hf : ∀ g ∈ f, g.length = nin + npar + 1) (x t q : List Int) :
    (⟨nin, f.length, 0, npar, (f.mapIdx (fun i g => (List.replicate f.length 0).set i (-1) ++ g)).map (outInRow nin f.length), []⟩ : BMap).Has x t q ↔
      x.length = nin ∧ q.length = npar ∧ t = f.map (fun g => aff g (x ++ q)) := by
  have row : x.length = nin → q.length = npar → t.length = f.length → ∀ (i : Nat) (hi : i < f.length),
      aff (outInRow nin f.length ((List.replicate f.length 0).set i (-1) ++ f[i])) (x ++ t ++ q) = aff f[i] (x ++ q) - t.getD i 0 := by
    intro hx hq ht i hi
    have hg := hf f[i] (List.getElem_mem hi)
    rw [aff_outIn (npar := npar) (by simp; omega) hx ht, List.append_assoc, aff_neg_unit _ i hi _ _ _ ht]
  unfold BMap.Has
  simp only [List.not_mem_nil, false_imp_iff, implies_true, and_true]
  constructor
  · rintro ⟨hx, ht, hq, z, hz, h⟩
    have : z = [] := List.length_eq_zero_iff.mp hz
    subst this
    refine ⟨hx, hq, List.ext_getElem (by simp [ht]) (fun i hi hi' => ?_)⟩
    have hi2 : i < f.length := by omega
    have := h _ (List.mem_map_of_mem (List.mem_mapIdx.mpr ⟨i, hi2, rfl⟩))
    rw [List.append_nil, row hx hq ht i hi2] at this
    rw [List.getElem_map]
    rw [List.getD_eq_getElem?_getD, List.getElem?_eq_getElem hi] at this
    simp only [Option.getD_some] at this
    omega
  · rintro ⟨hx, hq, e⟩
    have ht : t.length = f.length := by rw [e]; simp
    refine ⟨hx, ht, hq, [], rfl, fun w hw => ?_⟩
    obtain ⟨w', hw', rfl⟩ := List.mem_map.mp hw
    obtain ⟨i, hi, rfl⟩ := List.mem_mapIdx.mp hw'
    rw [List.append_nil, row hx hq ht i hi, e, List.getD_eq_getElem?_getD, List.getElem?_map, List.getElem?_eq_getElem hi]
    simp

/-- The isl map made from a scattering. -/
theorem OslRel.IsFun.scatMap {r : OslRel} {f : List (List Int)} (h : r.IsFun f) (hw : r.WF) :
    ∃ b, oslScatMap r = some b ∧ b.nin = r.nin ∧ b.nout = r.nout ∧ b.npar = r.npar ∧ b.ndiv = 0 ∧
      ∀ x t q, b.Has x t q ↔ r.Has t x q := by
  have e : (List.range r.rows.length).mapM (fun i => (r.rowOf (i + 1)).map (fun w => (w.drop 1).map putSi)) =
      some (f.mapIdx (fun i g => (List.replicate f.length 0).set i (-1) ++ g)) := by
    refine mapM_range_some _ _ (by simp [h.nrows]) (fun i g hg => ?_)
    rw [List.getElem?_mapIdx] at hg
    obtain ⟨g', hg', rfl⟩ := Option.map_eq_some_iff.mp hg
    obtain ⟨hi, rfl⟩ := List.getElem?_eq_some_iff.mp hg'
    rw [h.rowOf i hi]
    have := h.small hw i hi
    simp only [Option.map_some, funRow, List.drop_succ_cons, List.drop_zero, Option.some.injEq]
    exact map_putSi (fun v hv => this v (List.mem_cons_of_mem _ hv))
  unfold oslScatMap
  rw [if_neg (by simp [hw.noLocal]), e]
  refine ⟨_, rfl, rfl, rfl, rfl, rfl, fun x t q => ?_⟩
  rw [h.has hw.noLocal, h.out]
  exact solved_has r.nin r.npar f h.cols x t q

end Pluto
