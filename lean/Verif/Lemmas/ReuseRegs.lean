import Verif.Lemmas.Reuse
import Verif.Spec.Tile
import Mathlib.Data.Set.Card

namespace Pluto

/-- The element that a transformed access with divisor `D` touches at a time. -/
def elemAt (b : Access) (D : Int) (Tl q : List Int) : Nat × List Int :=
  (b.arr, b.mat.rows.map (fun r => dot r (Tl ++ q ++ [1]) / D))

theorem elem_eq_elemAt {p : Prog} (hT : p.TransOK) {i : Nat} {a b : Access} (ha : a.mat.WF) (h : newAccess p i a = some b)
    {D : Int} (hD : ∀ st m divs, p.stmts[i]? = some st → newAccessFunc st.dim p.npar st.trans a.mat = some (m, divs) → ∀ k ∈ divs, k = D)
    {x q : List Int} (hx : x.length = p.dim i) (hq : q.length = p.npar) {st : Stmt} (hst : p.stmts[i]? = some st) :
    a.elem x q = elemAt b D (timesOf st.trans x q) q := by
  obtain ⟨st', divs, hst', hn, h0, h1, _, h3, h4, h5⟩ := newAccess_spec hT ha h
  rw [hst, Option.some.injEq] at hst'
  subst hst'
  unfold Access.elem elemAt
  rw [h0]
  congr 1
  apply List.ext_getElem
  · simp [h1]
  intro k hk1 hk2
  have hk : k < a.mat.rows.length := by simpa using hk1
  have e := h5 x q hx hq k hk
  have hd : divs.getD k 0 = D := by
    rw [List.getD_eq_getElem _ _ (by omega)]
    exact hD st _ _ hst hn _ (List.getElem_mem _)
  have hp := getD_pos h4 (k := k) (by omega)
  rw [hd] at e hp
  rw [List.getElem_map, List.getElem_map]
  rw [List.getD_eq_getElem _ _ (by omega), List.getD_eq_getElem _ _ hk] at e
  rw [e, Int.mul_ediv_cancel_left _ (by omega)]

/-- The elements that one transformed access can touch when level `d` takes `u` values. -/
def elemsOf (D : Int) (d : Nat) (Tl : List Int) (v : Int) (u : Nat) (q : List Int) (b : Access) : List (Nat × List Int) :=
  if accInvariant b.mat d then [elemAt b D (Tl.set d v) q] else (List.range u).map (fun w : Nat => elemAt b D (Tl.set d (v + (w : Int))) q)

theorem elemAt_invariant {b : Access} {D : Int} {d : Nat} {Tl q : List Int} (hb : accInvariant b.mat d = true) (v w : Int) :
    elemAt b D (Tl.set d v) q = elemAt b D (Tl.set d w) q := by
  unfold elemAt
  congr 1
  apply List.map_congr_left
  intro r hr
  unfold accInvariant at hb
  rw [List.all_eq_true] at hb
  have h0 : coef r d = 0 := by simpa using hb r hr
  by_cases hd : d < Tl.length
  · have e : ∀ z : Int, Tl.set d z ++ q ++ [1] = (Tl ++ q ++ [1]).set d z := by
      intro z
      rw [List.append_assoc, List.append_assoc, List.set_append_left _ _ hd]
    rw [e, e, dot_point_set _ _ _ _ (by simp; omega), dot_point_set _ _ _ _ (by simp; omega), h0]
    simp
  · rw [List.set_eq_of_length_le (by omega), List.set_eq_of_length_le (by omega)]

theorem elemsOf_length (D : Int) (d : Nat) (Tl : List Int) (v : Int) (u : Nat) (q : List Int) (hu : 1 ≤ u) (us : List Access) :
    (us.flatMap (elemsOf D d Tl v u q)).length + (us.filter (fun a => accInvariant a.mat d)).length * (u - 1) = us.length * u := by
  induction us with
  | nil => simp
  | cons b us ih =>
    rw [List.flatMap_cons, List.length_append, List.filter_cons, List.length_cons]
    unfold elemsOf at ih ⊢
    by_cases hb : accInvariant b.mat d = true
    · rw [if_pos hb, if_pos hb, List.length_cons, List.length_cons, List.length_nil]
      rw [add_mul, add_mul, ← ih]
      omega
    · rw [if_neg hb, if_neg hb, add_mul, ← ih]
      simp
      omega

/-- Every touched element is in the list. -/
theorem touched_subset {p : Prog} (hok : p.OK) {A : Accs} {g : List Nat} (hA : ∀ i ∈ g, ∀ a ∈ A i, a.mat.WF) {us : List Access}
    (h : uniqueAccesses p A g = some us) {D : Int}
    (hD : ∀ i ∈ g, ∀ a ∈ A i, ∀ st m divs, p.stmts[i]? = some st →
      newAccessFunc st.dim p.npar st.trans a.mat = some (m, divs) → ∀ k ∈ divs, k = D)
    (d : Nat) (T : Nat → Int) (v : Int) (u : Nat) (q : List Int) (hq : q.length = p.npar) (e : Nat × List Int)
    (he : e ∈ p.Touched A g d T v u q) :
    e ∈ us.flatMap (elemsOf D d ((List.range p.hProps.length).map T) v u q) := by
  have hT : p.TransOK := fun st hst r hr => (hok.stmts st hst).trans r hr
  obtain ⟨i, hi, a, ha, x, hx, hs, hv1, hv2, rfl⟩ := he
  obtain ⟨b, hb, hn⟩ := (uniqueAccesses_spec h).2.1 i hi a ha
  obtain ⟨st, _, hst, _⟩ := newAccess_spec hT (hA i hi a ha) hn
  have hl : st.trans.length = p.hProps.length := hok.levels st (List.mem_of_getElem? hst)
  have et : timesOf st.trans x q = ((List.range p.hProps.length).map T).set d (p.phi i d x q) := by
    apply List.ext_getElem?
    intro l
    rw [List.getElem?_set]
    by_cases hlt : l < st.trans.length
    · have h1 : (timesOf st.trans x q)[l]? = some (p.phi i l x q) := by
        simp [timesOf, Prog.phi, Prog.row, hst, hlt]
      rw [h1]
      by_cases hd : d = l
      · subst hd
        rw [if_pos rfl, if_pos (by simp; omega)]
      · rw [if_neg hd, hs l (by omega) (Ne.symm hd)]
        simp [← hl, hlt]
    · have h1 : (timesOf st.trans x q)[l]? = none := by simp [timesOf, not_lt.mp hlt]
      rw [h1]
      by_cases hd : d = l
      · subst hd
        rw [if_pos rfl, if_neg (by simp; omega)]
      · rw [if_neg hd]
        simp [← hl, hlt]
  rw [List.mem_flatMap]
  refine ⟨b, hb, ?_⟩
  rw [elem_eq_elemAt hT (hA i hi a ha) hn (hD i hi a ha) hx hq hst, et]
  unfold elemsOf
  by_cases hbi : accInvariant b.mat d = true
  · rw [if_pos hbi, List.mem_singleton]
    exact elemAt_invariant hbi _ _
  · rw [if_neg hbi, List.mem_map]
    refine ⟨(p.phi i d x q - v).toNat, by simp; omega, ?_⟩
    congr 2
    omega

/-- The number of touched elements. -/
theorem touched_card {p : Prog} (hok : p.OK) {A : Accs} {g : List Nat} (hA : ∀ i ∈ g, ∀ a ∈ A i, a.mat.WF) {us : List Access}
    (h : uniqueAccesses p A g = some us) {D : Int}
    (hD : ∀ i ∈ g, ∀ a ∈ A i, ∀ st m divs, p.stmts[i]? = some st →
      newAccessFunc st.dim p.npar st.trans a.mat = some (m, divs) → ∀ k ∈ divs, k = D)
    (d : Nat) (T : Nat → Int) (v : Int) (u : Nat) (hu : 1 ≤ u) (q : List Int) (hq : q.length = p.npar) :
    (p.Touched A g d T v u q).Finite ∧
      (p.Touched A g d T v u q).ncard + (us.filter (fun a => accInvariant a.mat d)).length * (u - 1) ≤ us.length * u := by
  classical
  have hs : p.Touched A g d T v u q ⊆ ↑(us.flatMap (elemsOf D d ((List.range p.hProps.length).map T) v u q)).toFinset := by
    intro e he
    rw [List.coe_toFinset]
    exact touched_subset hok hA h hD d T v u q hq e he
  have hfin := (Finset.finite_toSet _).subset hs
  refine ⟨hfin, ?_⟩
  rw [← elemsOf_length D d ((List.range p.hProps.length).map T) v u q hu us]
  have h1 := Set.ncard_le_ncard hs (Finset.finite_toSet _)
  rw [Set.ncard_coe_finset] at h1
  have h2 := List.toFinset_card_le (us.flatMap (elemsOf D d ((List.range p.hProps.length).map T) v u q))
  omega

end Pluto
