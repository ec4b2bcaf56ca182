import Verif.Spec.Footprint
import Verif.Props.Rank
import Mathlib.Order.Interval.Finset.Defs
import Mathlib.Data.Int.Interval
import Mathlib.LinearAlgebra.Dimension.Constructions
import Mathlib.Algebra.BigOperators.Ring.Finset

/-! Lemmas on footprints. -/

namespace Pluto

theorem independentRows_full (m : Mat) (hm : m.WF) (h : rowRank m.ncols m.rows = m.rows.length) : independentRows m = m := by
  have h1 := C25_lower_partial m hm
  have h2 : m.getRank ≤ m.rows.length := by
    have e : m.toRowEchelon.rows.length = m.rows.length := by
      have inv := echelon_inv m hm (min m.ncols m.rows.length) (Nat.min_le_right _ _)
      exact inv.1
    unfold Mat.getRank
    simp only
    omega
  unfold independentRows
  rw [if_pos (by omega)]

theorem simple_rank {loops : List Nat} {m : Mat} {ls : List Nat} (h : SimpleSubscripts loops m ls)
    (hl : ∀ l ∈ loops, l < m.ncols) : rowRank m.ncols m.rows = m.rows.length := by
  have hlen := h.rows.length_eq
  have e : rowSpace m.ncols m.rows = Submodule.span ℚ (Set.range (fun i : Fin m.rows.length => qvec m.ncols m.rows[i])) := by
    unfold rowSpace
    congr 1
    ext v
    constructor
    · rintro ⟨r, hr, rfl⟩
      obtain ⟨i, hi, rfl⟩ := List.mem_iff_getElem.mp hr
      exact ⟨⟨i, hi⟩, rfl⟩
    · rintro ⟨i, rfl⟩
      exact ⟨_, List.getElem_mem i.2, rfl⟩
  unfold rowRank
  rw [e, finrank_span_eq_card, Fintype.card_fin]
  rw [Fintype.linearIndependent_iff]
  intro g hg i
  have key : ∀ (a b : Nat) (ha : a < m.rows.length) (hb : b < ls.length), (m.rows[a]).getD ls[b] 0 = if a = b then 1 else 0 := by
    intro a b ha hb
    obtain ⟨h1, h2, h3⟩ := h.rows.get (i := a) ha (by omega)
    have hb' : b < m.rows.length := by omega
    obtain ⟨k1, k2, k3⟩ := h.rows.get (i := b) hb' hb
    simp only [List.get_eq_getElem] at h1 h2 h3 k1 k2 k3
    by_cases hab : a = b
    · subst hab
      rw [if_pos rfl]; exact h2
    · rw [if_neg hab]
      apply h3 _ k1
      intro ee
      exact hab ((List.Nodup.getElem_inj_iff h.distinct).mp ee).symm
  have hi : i.1 < ls.length := by omega
  obtain ⟨k1, k2, k3⟩ := h.rows.get (i := i.1) i.2 hi
  have hc : ls[i.1] < m.ncols := hl _ k1
  have := congrFun hg ⟨ls[i.1], hc⟩
  simp only [Finset.sum_apply, Pi.smul_apply, Pi.zero_apply, smul_eq_mul] at this
  rw [Finset.sum_eq_single i] at this
  · have kk : qvec m.ncols m.rows[i] ⟨ls[i.1], hc⟩ = 1 := by
      show (((m.rows[i.1]).getD ls[i.1] 0 : Int) : ℚ) = 1
      rw [key i.1 i.1 i.2 hi, if_pos rfl]; norm_num
    rw [kk, mul_one] at this
    exact this
  · intro b _ hb
    have : b.1 ≠ i.1 := fun ee => hb (Fin.ext ee)
    have kk : qvec m.ncols m.rows[b] ⟨ls[i.1], hc⟩ = 0 := by
      show (((m.rows[b.1]).getD ls[i.1] 0 : Int) : ℚ) = 0
      rw [key b.1 i.1 b.2 hi, if_neg this]; norm_num
    rw [kk, mul_zero]
  · intro hn
    exact absurd (Finset.mem_univ i) hn

theorem footLoop_zero (c : FootCfg) (row : List Int) (s : FootRow) (loops : List Nat) (hl : ∀ l ∈ loops, l < row.length)
    (hz : ∀ l ∈ loops, row.getD l 0 = 0) : loops.foldlM (footLoop c row) s = some s := by
  induction loops with
  | nil => rfl
  | cons l t ih =>
    rw [List.foldlM_cons]
    have e : footLoop c row s l = some s := by
      have h1 := hl l (by simp)
      have h2 := hz l (by simp)
      rw [List.getD_eq_getElem?_getD, List.getElem?_eq_getElem h1, Option.getD_some] at h2
      unfold footLoop
      rw [List.getElem?_eq_getElem h1, h2]
      rfl
    rw [e]
    exact ih (fun l h => hl l (by simp [h])) (fun l h => hz l (by simp [h]))

/-- What one loop with coefficient 1 contributes. -/
def oneLoop (c : FootCfg) (l : Nat) : FootRow :=
  if l - c.depth = c.vectorDim then ⟨0, true, false, false, 0⟩
  else if l - c.depth = c.par then ⟨0, false, false, true, 0⟩
  else if c.wave ∧ (l = c.depth ∨ l = c.depth + 1) then ⟨0, false, false, false, 1⟩
  else ⟨c.reuse.getD (l - c.depth) 0, false, true, false, 0⟩

theorem footLoops_one (c : FootCfg) (row : List Int) (loops : List Nat) (l : Nat) (hn : loops.Nodup) (hlen : ∀ l ∈ loops, l < row.length)
    (hm : l ∈ loops) (h1 : row.getD l 0 = 1) (hz : ∀ j ∈ loops, j ≠ l → row.getD j 0 = 0) (hr : l - c.depth < c.reuse.length) :
    loops.foldlM (footLoop c row) ⟨0, false, false, false, 0⟩ = some (oneLoop c l) := by
  obtain ⟨a, b, rfl⟩ := List.append_of_mem hm
  have hnd := List.nodup_append.mp hn
  have na : ∀ j ∈ a, j ≠ l := fun j hj e => hnd.2.2 j hj l (by simp) e
  have nb : ∀ j ∈ b, j ≠ l := by
    intro j hj e
    have := (List.nodup_cons.mp hnd.2.1).1
    exact this (e ▸ hj)
  rw [List.foldlM_append, footLoop_zero c row _ a (fun j hj => hlen j (by simp [hj])) (fun j hj => hz j (by simp [hj]) (na j hj))]
  simp only [Option.bind_eq_bind, Option.bind_some, List.foldlM_cons]
  have e : footLoop c row ⟨0, false, false, false, 0⟩ l = some (oneLoop c l) := by
    have h2 := hlen l hm
    rw [List.getD_eq_getElem?_getD, List.getElem?_eq_getElem h2, Option.getD_some] at h1
    unfold footLoop oneLoop
    rw [List.getElem?_eq_getElem h2, h1]
    simp only [Option.bind_eq_bind, Option.bind_some]
    rw [if_neg (by decide)]
    split
    · rfl
    · split
      · rfl
      · split
        · rfl
        · rw [List.getElem?_eq_getElem hr, List.getD_eq_getElem?_getD, List.getElem?_eq_getElem hr]
          simp
  rw [e]
  exact footLoop_zero c row _ b (fun j hj => hlen j (by simp [hj])) (fun j hj => hz j (by simp [hj]) (nb j hj))

/-- The loop at level `l` is along the vector dimension or one of those whose tile size depends on `T`. -/
def StartsProduct (c : FootCfg) (l : Nat) : Prop :=
  l - c.depth = c.vectorDim ∨ (l - c.depth ≠ c.par ∧ ¬(c.wave ∧ (l = c.depth ∨ l = c.depth + 1)))

instance (c : FootCfg) (l : Nat) : Decidable (StartsProduct c l) := by unfold StartsProduct; infer_instance

theorem footRow_one (c : FootCfg) (loops : List Nat) (T : Nat) (row : List Int) (l : Nat) (g : Nat × Nat) (hn : loops.Nodup)
    (hlen : ∀ l ∈ loops, l < row.length) (hm : l ∈ loops) (h1 : row.getD l 0 = 1) (hz : ∀ j ∈ loops, j ≠ l → row.getD j 0 = 0)
    (hr : l - c.depth < c.reuse.length) (hp : 0 < tileLen c T l) (hg : 0 < g.1 ∨ (g = (0, 0) ∧ StartsProduct c l)) :
    ∃ g', footRow c loops g row = some g' ∧ 0 < g'.1 ∧ g'.1 * T ^ g'.2 = (if g.1 = 0 then 1 else g.1 * T ^ g.2) * tileLen c T l := by
  unfold footRow
  rw [footLoops_one c row loops l hn hlen hm h1 hz hr]
  unfold tileLen at hp ⊢
  unfold oneLoop
  obtain ⟨x, d⟩ := g
  simp only [Option.bind_eq_bind, Option.bind_some]
  by_cases c1 : l - c.depth = c.vectorDim
  · rcases hg with hg | ⟨hg, _⟩
    · have hx : x ≠ 0 := by omega
      simp [c1, hx]
      refine ⟨by omega, by ring⟩
    · cases hg
      simp [c1]
  · by_cases c2 : l - c.depth = c.par
    · rcases hg with hg | ⟨_, hg⟩
      · have hx : x ≠ 0 := by omega
        have c1' : ¬ c.par = c.vectorDim := c2 ▸ c1
        simp [c2, hx, c1']
        refine ⟨by omega, by ring⟩
      · rcases hg with hg | hg
        · exact absurd hg c1
        · exact absurd c2 hg.1
    · by_cases c3 : c.wave = true ∧ (l = c.depth ∨ l = c.depth + 1)
      · rcases hg with hg | ⟨_, hg⟩
        · have hx : x ≠ 0 := by omega
          simp only [if_neg c1, if_neg c2, if_pos c3]
          simp [hx]
          refine ⟨by omega, by ring⟩
        · rcases hg with hg | hg
          · exact absurd hg c1
          · exact absurd c3 hg.2
      · simp only [if_neg c1, if_neg c2, if_neg c3] at hp ⊢
        have hrp : 0 < c.reuse.getD (l - c.depth) 0 := Nat.pos_of_mul_pos_right hp
        generalize c.reuse.getD (l - c.depth) 0 = r at hrp
        rcases hg with hg | ⟨hg, _⟩
        · have hx : x ≠ 0 := by omega
          simp [hrp, hx]
          refine ⟨by omega, by ring⟩
        · cases hg
          simp [hrp]

theorem footRows_prod (c : FootCfg) (loops : List Nat) (T : Nat) (n : Nat) (hn : loops.Nodup) (hlen : ∀ l ∈ loops, l < n)
    (hp : ∀ l ∈ loops, 0 < tileLen c T l) (hr : ∀ l ∈ loops, l - c.depth < c.reuse.length) (rows : List (List Int)) (ls : List Nat)
    (h : List.Forall₂ (fun r l => l ∈ loops ∧ r.getD l 0 = 1 ∧ ∀ j ∈ loops, j ≠ l → r.getD j 0 = 0) rows ls)
    (hw : ∀ r ∈ rows, r.length = n) (g : Nat × Nat) (hg : 0 < g.1) :
    ∃ g', rows.foldlM (footRow c loops) g = some g' ∧ 0 < g'.1 ∧ g'.1 * T ^ g'.2 = g.1 * T ^ g.2 * (ls.map (tileLen c T)).prod := by
  induction h generalizing g with
  | nil => exact ⟨g, rfl, hg, by simp⟩
  | @cons r l rs ls h1 h2 ih =>
    obtain ⟨g1, e1, p1, q1⟩ := footRow_one c loops T r l g hn (by rw [hw r (by simp)]; exact hlen) h1.1 h1.2.1 h1.2.2 (hr l h1.1)
      (hp l h1.1) (.inl hg)
    obtain ⟨g2, e2, p2, q2⟩ := ih (fun r hr => hw r (by simp [hr])) g1 p1
    refine ⟨g2, ?_, p2, ?_⟩
    · rw [List.foldlM_cons, e1]; exact e2
    · rw [q2, q1, if_neg (by omega), List.map_cons, List.prod_cons]; ring

/-- A box of lists has as many elements as the product of its sides. -/
theorem ncard_box (ps : List (Int × Nat)) :
    {v : List Int | List.Forall₂ (fun (p : Int × Nat) (a : Int) => p.1 ≤ a ∧ a < p.1 + (p.2 : Int)) ps v}.ncard = (ps.map (·.2)).prod := by
  induction ps with
  | nil =>
    have : {v : List Int | List.Forall₂ (fun (p : Int × Nat) (a : Int) => p.1 ≤ a ∧ a < p.1 + (p.2 : Int)) [] v} = {[]} := by
      ext v
      simp
    rw [this, Set.ncard_singleton]; rfl
  | cons p ps ih =>
    have e : {v : List Int | List.Forall₂ (fun (p : Int × Nat) (a : Int) => p.1 ≤ a ∧ a < p.1 + (p.2 : Int)) (p :: ps) v} =
        (fun q : Int × List Int => q.1 :: q.2) '' (((Finset.Ico p.1 (p.1 + p.2) : Finset Int) : Set Int) ×ˢ
          {v : List Int | List.Forall₂ (fun (p : Int × Nat) (a : Int) => p.1 ≤ a ∧ a < p.1 + (p.2 : Int)) ps v}) := by
      ext v
      constructor
      · intro h
        cases h with
        | cons h1 h2 => exact ⟨(_, _), ⟨by simpa using h1, h2⟩, rfl⟩
      · rintro ⟨⟨a, w⟩, ⟨h1, h2⟩, rfl⟩
        exact List.Forall₂.cons (by simpa using h1) h2
    rw [e, Set.ncard_image_of_injective _ (by
      rintro ⟨a, v⟩ ⟨b, w⟩ h
      simp only [List.cons.injEq] at h
      exact Prod.ext h.1 h.2), Set.ncard_prod, ih, Set.ncard_coe_finset, Int.card_Ico, List.map_cons, List.prod_cons]
    congr 1
    omega

theorem subscript_diff (r : List Int) (x y : Nat → Int) (l : Nat) (hl : l < r.length) (h1 : r.getD l 0 = 1)
    (h : ∀ j, j ≠ l → r.getD j 0 = 0 ∨ x j = y j) : subscript r x = subscript r y + (x l - y l) := by
  unfold subscript
  have : ∑ j ∈ Finset.range r.length, r.getD j 0 * x j - ∑ j ∈ Finset.range r.length, r.getD j 0 * y j = x l - y l := by
    rw [← Finset.sum_sub_distrib, Finset.sum_eq_single l]
    · rw [h1]; ring
    · intro j _ hj
      rcases h j hj with h | h
      · rw [h]; ring
      · rw [h]; ring
    · intro hn
      exact absurd (Finset.mem_range.mpr hl) hn
  omega

theorem subscript_same (r : List Int) (x y : Nat → Int) (h : ∀ j, r.getD j 0 = 0 ∨ x j = y j) : subscript r x = subscript r y := by
  unfold subscript
  apply Finset.sum_congr rfl
  intro j _
  rcases h j with h | h
  · rw [h]; ring
  · rw [h]

/-- The elements of simple subscripts are a box. -/
theorem tileElems_box (loops : List Nat) (len : Nat → Nat) (base : Nat → Int) (n : Nat) (hlen : ∀ l ∈ loops, l < n)
    (hp : ∀ l ∈ loops, 0 < len l) (rows : List (List Int)) (ls : List Nat)
    (h : List.Forall₂ (fun r l => l ∈ loops ∧ r.getD l 0 = 1 ∧ ∀ j ∈ loops, j ≠ l → r.getD j 0 = 0) rows ls)
    (hw : ∀ r ∈ rows, r.length = n) (hnd : ls.Nodup) :
    tileElems loops len base rows = {v : List Int | List.Forall₂ (fun (p : Int × Nat) (a : Int) => p.1 ≤ a ∧ a < p.1 + (p.2 : Int))
      (List.zipWith (fun r l => (subscript r base, len l)) rows ls) v} := by
  ext v
  constructor
  · rintro ⟨x, hx, hy, rfl⟩
    clear hnd
    show List.Forall₂ _ _ _
    induction h with
    | nil => exact List.Forall₂.nil
    | @cons r l rs ls h1 h2 ih =>
      refine List.Forall₂.cons ?_ (ih (fun r hr => hw r (by simp [hr])))
      have e := subscript_diff r x base l (by rw [hw r (by simp)]; exact hlen l h1.1) h1.2.1 (by
        intro j hj
        by_cases hjl : j ∈ loops
        · exact .inl (h1.2.2 j hjl hj)
        · exact .inr (hy j hjl))
      have := hx l h1.1
      simp only
      omega
  · intro hv
    have main : ∃ x : Nat → Int, (∀ j ∈ loops, base j ≤ x j ∧ x j < base j + len j) ∧ (∀ j, j ∉ ls → x j = base j) ∧
        v = rows.map (subscript · x) := by
      change List.Forall₂ _ _ v at hv
      induction h generalizing v with
      | nil =>
        cases hv
        refine ⟨base, fun j hj => ⟨le_refl _, ?_⟩, fun j _ => rfl, rfl⟩
        have := hp j hj
        omega
      | @cons r l rs ls h1 h2 ih =>
        rw [List.zipWith_cons_cons] at hv
        cases hv with
        | @cons _ a _ w ha hw' =>
          have hnd' := List.nodup_cons.mp hnd
          obtain ⟨x, x1, x2, x3⟩ := ih (fun r hr => hw r (by simp [hr])) hnd'.2 w hw'
          simp only at ha
          refine ⟨Function.update x l (base l + (a - subscript r base)), ?_, ?_, ?_⟩
          · intro j hj
            by_cases e : j = l
            · subst e
              rw [Function.update_self]
              omega
            · rw [Function.update_of_ne e]
              exact x1 j hj
          · intro j hj
            rw [List.mem_cons, not_or] at hj
            rw [Function.update_of_ne hj.1]
            exact x2 j hj.2
          · rw [List.map_cons]
            congr 1
            · have e := subscript_diff r (Function.update x l (base l + (a - subscript r base))) base l
                (by rw [hw r (by simp)]; exact hlen l h1.1) h1.2.1 (by
                  intro j hj
                  by_cases hjl : j ∈ loops
                  · exact .inl (h1.2.2 j hjl hj)
                  · right
                    rw [Function.update_of_ne hj]
                    apply x2
                    intro hm
                    obtain ⟨r', hr'⟩ : ∃ r', (r' ∈ rs) ∧ j ∈ loops := by
                      clear ih x1 x2 x3 hw' hw hnd
                      induction h2 with
                      | nil => simp at hm
                      | @cons r2 l2 _ _ g1 _ ih2 =>
                        rcases List.mem_cons.mp hm with rfl | hm
                        · exact ⟨r2, by simp, g1.1⟩
                        · exact absurd hm (fun hm => by
                            obtain ⟨r3, _, h3⟩ := ih2 ⟨fun hh => hnd'.1 (by simp [hh]), (List.nodup_cons.mp hnd'.2).2⟩ hm
                            exact hjl h3)
                    exact hjl hr'.2)
              rw [Function.update_self] at e
              rw [e]; ring
            · rw [x3]
              apply List.map_congr_left
              intro r' hr'
              apply subscript_same
              intro j
              by_cases e : j = l
              · subst e
                left
                obtain ⟨i, hi, rfl⟩ := List.mem_iff_getElem.mp hr'
                have hi' : i < ls.length := by rw [← h2.length_eq]; exact hi
                obtain ⟨k1, k2, k3⟩ := h2.get (i := i) hi hi'
                simp only [List.get_eq_getElem] at k1 k2 k3
                apply k3 j h1.1
                intro ee
                exact hnd'.1 (ee ▸ List.getElem_mem hi')
              · right
                rw [Function.update_of_ne e]
    obtain ⟨x, x1, x2, x3⟩ := main
    refine ⟨x, x1, ?_, x3⟩
    intro j hj
    apply x2
    intro hm
    obtain ⟨i, hi, rfl⟩ := List.mem_iff_getElem.mp hm
    exact hj (h.get (i := i) (by rw [h.length_eq]; exact hi) hi).1

theorem zipWith_lens (len : Nat → Nat) (base : Nat → Int) (rows : List (List Int)) (ls : List Nat) (h : rows.length = ls.length) :
    (List.zipWith (fun r l => (subscript r base, len l)) rows ls).map (·.2) = ls.map len := by
  induction rows generalizing ls with
  | nil =>
    cases ls with
    | nil => rfl
    | cons _ _ => simp at h
  | cons r rs ih =>
    cases ls with
    | nil => simp at h
    | cons l ls =>
      rw [List.zipWith_cons_cons, List.map_cons, List.map_cons, ih ls (by simpa using h)]

end Pluto
