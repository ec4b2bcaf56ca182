import Verif.Spec.Reuse
import Verif.Props.Remap
import Verif.Lemmas.CstEdit
import Verif.Lemmas.SatFold
import Verif.Lemmas.Polyloop
import Mathlib.Data.List.GetD

namespace Pluto

/-- What a transformed access is. -/
theorem newAccess_spec {p : Prog} (hT : p.TransOK) {i : Nat} {a b : Access} (ha : a.mat.WF) (h : newAccess p i a = some b) :
    ∃ st divs, p.stmts[i]? = some st ∧ newAccessFunc st.dim p.npar st.trans a.mat = some (b.mat, divs) ∧ b.arr = a.arr ∧
      b.mat.rows.length = a.mat.rows.length ∧ b.mat.ncols = st.trans.length + p.npar + 1 ∧
      divs.length = a.mat.rows.length ∧ (∀ k ∈ divs, 0 < k) ∧
      ∀ x q : List Int, x.length = p.dim i → q.length = p.npar → ∀ k < a.mat.rows.length,
        dot (b.mat.rows.getD k []) (timesOf st.trans x q ++ q ++ [1]) = divs.getD k 0 * aff (a.mat.rows.getD k []) (x ++ q) := by
  unfold newAccess at h
  simp only [Option.bind_eq_bind, Option.bind_eq_some_iff, pure, Option.some.injEq, Prod.exists] at h
  obtain ⟨st, hst, m, divs, hn, rfl⟩ := h
  obtain ⟨_, h2, h3, h4, h5, h6⟩ := C23_same_element st.dim p.npar st.trans a.mat ha
    (hT st (List.mem_of_getElem? hst)) m divs hn
  refine ⟨st, divs, hst, hn, rfl, h3, h2, h4, h5, fun x q hx hq k hk => ?_⟩
  rw [h6 x q (by rw [hx]; simp [Prog.dim, hst]) hq k hk]
  rfl

theorem timesOf_getD {p : Prog} {i : Nat} {st : Stmt} (hst : p.stmts[i]? = some st) (l : Nat) (hl : l < st.trans.length)
    (x q : List Int) : (timesOf st.trans x q).getD l 0 = p.phi i l x q := by
  simp [timesOf, List.getD_eq_getElem?_getD, Prog.phi, Prog.row, hst, hl]

/-- Two timestamps that differ at level `d` only. -/
theorem timesOf_set {p : Prog} {i : Nat} {st : Stmt} (hst : p.stmts[i]? = some st) {d : Nat} {x x' q : List Int}
    (same : ∀ l, l ≠ d → p.phi i l x q = p.phi i l x' q) :
    timesOf st.trans x' q = (timesOf st.trans x q).set d (p.phi i d x' q) := by
  apply List.ext_getElem?
  intro l
  rw [List.getElem?_set]
  by_cases hl : l < st.trans.length
  · have h1 : (timesOf st.trans x' q)[l]? = some (p.phi i l x' q) := by
      simp [timesOf, Prog.phi, Prog.row, hst, hl]
    have h2 : (timesOf st.trans x q)[l]? = some (p.phi i l x q) := by
      simp [timesOf, Prog.phi, Prog.row, hst, hl]
    have h3 : (timesOf st.trans x q).length = st.trans.length := by simp [timesOf]
    by_cases hd : d = l
    · subst hd
      rw [if_pos rfl, h1, if_pos (by omega)]
    · rw [if_neg hd, h1, h2, same l (Ne.symm hd)]
  · have h1 : (timesOf st.trans x' q)[l]? = none := by simp [timesOf, not_lt.mp hl]
    have h2 : (timesOf st.trans x q)[l]? = none := by simp [timesOf, not_lt.mp hl]
    have h3 : (timesOf st.trans x q).length = st.trans.length := by simp [timesOf]
    rw [h1, h2]
    split_ifs <;> first | rfl | omega

theorem phi_out {p : Prog} {i d : Nat} {st : Stmt} (hst : p.stmts[i]? = some st) (hd : ¬ d < st.trans.length) (x q : List Int) :
    p.phi i d x q = 0 := by
  simp [Prog.phi, Prog.row, hst, not_lt.mp hd, aff]

/-- How the subscripts change along a level. -/
theorem newAccess_delta {p : Prog} (hT : p.TransOK) {i : Nat} {a b : Access} (ha : a.mat.WF) (h : newAccess p i a = some b) :
    b.mat.rows.length = a.mat.rows.length ∧ ∃ divs : List Int, divs.length = a.mat.rows.length ∧ (∀ k ∈ divs, 0 < k) ∧
      (∃ st, p.stmts[i]? = some st ∧ newAccessFunc st.dim p.npar st.trans a.mat = some (b.mat, divs)) ∧
      ∀ (d : Nat) (x x' q : List Int), x.length = p.dim i → x'.length = p.dim i → q.length = p.npar →
        (∀ l, l ≠ d → p.phi i l x q = p.phi i l x' q) → ∀ k < a.mat.rows.length,
        coef (b.mat.rows.getD k []) d * (p.phi i d x' q - p.phi i d x q) =
          divs.getD k 0 * (aff (a.mat.rows.getD k []) (x' ++ q) - aff (a.mat.rows.getD k []) (x ++ q)) := by
  obtain ⟨st, divs, hst, hn, _, h1, _, h3, h4, h5⟩ := newAccess_spec hT ha h
  refine ⟨h1, divs, h3, h4, ⟨st, hst, hn⟩, fun d x x' q hx hx' hq hs k hk => ?_⟩
  rw [mul_sub (divs.getD k 0), ← h5 x q hx hq k hk, ← h5 x' q hx' hq k hk, timesOf_set hst hs]
  by_cases hd : d < st.trans.length
  · have hlen : d < (timesOf st.trans x q).length := by simpa [timesOf] using hd
    have e : (timesOf st.trans x q).set d (p.phi i d x' q) ++ q ++ [1] =
        (timesOf st.trans x q ++ q ++ [1]).set d (p.phi i d x' q) := by
      rw [List.append_assoc, List.append_assoc, List.set_append_left _ _ hlen]
    rw [e, dot_point_set _ _ _ _ (by simp; omega)]
    have g : (timesOf st.trans x q ++ q ++ [1]).getD d 0 = p.phi i d x q := by
      rw [← timesOf_getD hst d hd, List.append_assoc, List.getD_eq_getElem?_getD, List.getElem?_append_left hlen,
        ← List.getD_eq_getElem?_getD]
    rw [g]
    simp
  · rw [phi_out hst hd, phi_out hst hd]
    rw [List.set_eq_of_length_le (by simp [timesOf]; omega)]
    ring

theorem getD_pos {l : List Int} (h : ∀ k ∈ l, 0 < k) {k : Nat} (hk : k < l.length) : 0 < l.getD k 0 := by
  rw [List.getD_eq_getElem _ _ hk]
  exact h _ (List.getElem_mem hk)

theorem isInvariant_some {p : Prog} {i : Nat} {a : Access} {d : Nat} {b : Bool} (h : isInvariant p i a d = some b) :
    ∃ m, newAccess p i a = some m ∧ b = accInvariant m.mat d := by
  unfold isInvariant at h
  simp only [Option.bind_eq_bind, Option.bind_eq_some_iff] at h
  obtain ⟨m, hm, h⟩ := h
  split_ifs at h with hc
  exact ⟨m, hm, (Option.some.inj h).symm⟩

theorem accInvariant_iff (m : Mat) (d : Nat) : accInvariant m d = true ↔ ∀ k < m.rows.length, coef (m.rows.getD k []) d = 0 := by
  unfold accInvariant
  rw [List.all_eq_true]
  constructor
  · intro h k hk
    rw [List.getD_eq_getElem _ _ hk]
    simpa using h _ (List.getElem_mem hk)
  · intro h r hr
    obtain ⟨k, hk, rfl⟩ := List.getElem_of_mem hr
    have := h k hk
    rw [List.getD_eq_getElem _ _ hk] at this
    simpa using this

theorem elem_eq_iff (a : Access) (x x' q : List Int) : a.elem x q = a.elem x' q ↔
    ∀ k < a.mat.rows.length, aff (a.mat.rows.getD k []) (x ++ q) = aff (a.mat.rows.getD k []) (x' ++ q) := by
  unfold Access.elem
  rw [Prod.mk.injEq]
  simp only [true_and]
  constructor
  · intro h k hk
    have := congrArg (fun l => l[k]?) h
    simpa [List.getElem?_map, hk] using this
  · intro h
    apply List.map_congr_left
    intro r hr
    obtain ⟨k, hk, rfl⟩ := List.getElem_of_mem hr
    simpa [hk] using h k hk

/-- Along a level, an access is invariant if and only if it stays at the same element. -/
theorem invariant_iff {p : Prog} (hT : p.TransOK) {i : Nat} {a m : Access} (ha : a.mat.WF) (h : newAccess p i a = some m)
    {d : Nat} {x x' q : List Int} (hx : x.length = p.dim i) (hx' : x'.length = p.dim i) (hq : q.length = p.npar)
    (hs : ∀ l, l ≠ d → p.phi i l x q = p.phi i l x' q) (hne : p.phi i d x q ≠ p.phi i d x' q) :
    accInvariant m.mat d = true ↔ a.elem x q = a.elem x' q := by
  obtain ⟨h1, divs, h2, h3, _, h4⟩ := newAccess_delta hT ha h
  rw [accInvariant_iff, elem_eq_iff, h1]
  refine forall₂_congr fun k hk => ?_
  have := h4 d x x' q hx hx' hq hs k hk
  have hp := getD_pos h3 (k := k) (by omega)
  constructor
  · intro hc
    rw [hc, zero_mul, eq_comm, mul_eq_zero] at this
    omega
  · intro he
    rw [he, sub_self, mul_zero, mul_eq_zero] at this
    omega

/-- An invariant access stays at the same element, whether or not the level changes. -/
theorem invariant_same {p : Prog} (hT : p.TransOK) {i : Nat} {a m : Access} (ha : a.mat.WF) (h : newAccess p i a = some m)
    {d : Nat} {x x' q : List Int} (hx : x.length = p.dim i) (hx' : x'.length = p.dim i) (hq : q.length = p.npar)
    (hs : ∀ l, l ≠ d → p.phi i l x q = p.phi i l x' q) (hm : accInvariant m.mat d = true) : a.elem x q = a.elem x' q := by
  obtain ⟨h1, divs, h2, h3, _, h4⟩ := newAccess_delta hT ha h
  rw [accInvariant_iff, h1] at hm
  rw [elem_eq_iff]
  intro k hk
  have := h4 d x x' q hx hx' hq hs k hk
  have hp := getD_pos h3 (k := k) (by omega)
  rw [hm k hk, zero_mul, eq_comm, mul_eq_zero] at this
  omega

theorem hasSpatial_some {p : Prog} {i : Nat} {a : Access} {d : Nat} {b : Bool} (h : hasSpatialReuse p i a d = some b) :
    ∃ m, newAccess p i a = some m ∧ (b = true ↔ 0 < m.mat.rows.length ∧
      (∀ k, k + 1 < m.mat.rows.length → coef (m.mat.rows.getD k []) d = 0) ∧
      1 ≤ coef (m.mat.rows.getD (m.mat.rows.length - 1) []) d ∧ coef (m.mat.rows.getD (m.mat.rows.length - 1) []) d ≤ 4) := by
  unfold hasSpatialReuse at h
  simp only [Option.bind_eq_bind, Option.bind_eq_some_iff] at h
  obtain ⟨m, hm, h⟩ := h
  refine ⟨m, hm, ?_⟩
  by_cases hc : d ≤ m.mat.ncols - 1
  swap
  · rw [if_neg hc] at h; cases h
  rw [if_pos hc] at h
  generalize m.mat.rows = rows at *
  rcases List.eq_nil_or_concat rows with rfl | ⟨front, r, rfl⟩
  · simp at h ⊢
    exact h
  · simp only [List.concat_eq_append] at *
    simp only [List.getLast?_append, List.getLast?_singleton, Option.some_or, List.dropLast_concat] at h
    have hl : (front ++ [r]).getD ((front ++ [r]).length - 1) [] = r := by simp [List.getD_eq_getElem?_getD]
    rw [hl]
    have hz : (∀ k, k + 1 < (front ++ [r]).length → coef ((front ++ [r]).getD k []) d = 0) ↔ ∀ s ∈ front, coef s d = 0 := by
      constructor
      · intro h s hs
        obtain ⟨k, hk, rfl⟩ := List.getElem_of_mem hs
        have := h k (by simp; omega)
        rwa [List.getD_eq_getElem?_getD, List.getElem?_append_left hk, ← List.getD_eq_getElem?_getD,
          List.getD_eq_getElem _ _ hk] at this
      · intro h k hk
        have hk' : k < front.length := by simpa using hk
        rw [List.getD_eq_getElem?_getD, List.getElem?_append_left hk', ← List.getD_eq_getElem?_getD,
          List.getD_eq_getElem _ _ hk']
        exact h _ (List.getElem_mem hk')
    rw [hz]
    split_ifs at h with ha
    · simp only [pure, Option.some.injEq] at h
      subst h
      simp only [Bool.false_eq_true, false_iff, not_and]
      intro _ hf
      simp only [List.any_eq_true, decide_eq_true_eq] at ha
      obtain ⟨s, hs, h0⟩ := ha
      exact absurd (hf s hs) h0
    · simp only [pure, Option.some.injEq] at h
      subst h
      simp only [List.any_eq_true, decide_eq_true_eq, not_exists, not_and, not_not] at ha
      simp only [shortStride]
      constructor
      · intro h; exact ⟨by simp, ha, of_decide_eq_true h⟩
      · intro h; exact decide_eq_true h.2.2

/-- Subscripts that agree except in the last one. -/
theorem elem_front {a : Access} {x x' q : List Int} (h0 : 0 < a.mat.rows.length)
    (h : ∀ k, k + 1 < a.mat.rows.length → aff (a.mat.rows.getD k []) (x ++ q) = aff (a.mat.rows.getD k []) (x' ++ q)) :
    ∃ front, (a.elem x q).2 = front ++ [aff (a.mat.rows.getD (a.mat.rows.length - 1) []) (x ++ q)] ∧
      (a.elem x' q).2 = front ++ [aff (a.mat.rows.getD (a.mat.rows.length - 1) []) (x' ++ q)] := by
  unfold Access.elem
  generalize a.mat.rows = rows at *
  rcases List.eq_nil_or_concat rows with rfl | ⟨front, r, rfl⟩
  · simp at h0
  · simp only [List.concat_eq_append] at *
    refine ⟨front.map (fun r => aff r (x ++ q)), ?_, ?_⟩
    · simp [List.getD_eq_getElem?_getD]
    · have e : front.map (fun r => aff r (x' ++ q)) = front.map (fun r => aff r (x ++ q)) := by
        apply List.map_congr_left
        intro s hs
        obtain ⟨k, hk, rfl⟩ := List.getElem_of_mem hs
        have := h k (by simp; omega)
        rw [List.getD_eq_getElem?_getD, List.getElem?_append_left hk, ← List.getD_eq_getElem?_getD,
          List.getD_eq_getElem _ _ hk] at this
        exact this.symm
      simp [List.getD_eq_getElem?_getD, e]

/-- The other direction. -/
theorem front_elem {a : Access} {x x' q : List Int} {front : List Int} {u u' : Int} (h1 : (a.elem x q).2 = front ++ [u])
    (h2 : (a.elem x' q).2 = front ++ [u']) : 0 < a.mat.rows.length ∧
      (∀ k, k + 1 < a.mat.rows.length → aff (a.mat.rows.getD k []) (x ++ q) = aff (a.mat.rows.getD k []) (x' ++ q)) ∧
      aff (a.mat.rows.getD (a.mat.rows.length - 1) []) (x ++ q) = u ∧
      aff (a.mat.rows.getD (a.mat.rows.length - 1) []) (x' ++ q) = u' := by
  unfold Access.elem at h1 h2
  simp only at h1 h2
  generalize a.mat.rows = rows at *
  have hl : rows.length = front.length + 1 := by simpa using congrArg List.length h1
  have g : ∀ (z : List Int) (w : Int), rows.map (fun r => aff r (z ++ q)) = front ++ [w] → ∀ k < rows.length,
      aff (rows.getD k []) (z ++ q) = (front ++ [w]).getD k 0 := by
    intro z w h k hk
    rw [← h, List.getD_eq_getElem _ _ hk, List.getD_eq_getElem _ _ (by simpa using hk)]
    simp
  refine ⟨by omega, fun k hk => ?_, ?_, ?_⟩
  · rw [g _ _ h1 k (by omega), g _ _ h2 k (by omega)]
    simp only [List.getD_eq_getElem?_getD]
    rw [List.getElem?_append_left (by omega), List.getElem?_append_left (by omega)]
  · rw [g _ _ h1 _ (by omega)]
    simp [hl, List.getD_eq_getElem?_getD]
  · rw [g _ _ h2 _ (by omega)]
    simp [hl, List.getD_eq_getElem?_getD]

theorem count_le {α : Type*} {f g : α → Option Bool} {l : List α} {bs cs : List Bool}
    (h1 : List.Forall₂ (fun a b => f a = some b) l bs) (h2 : List.Forall₂ (fun a b => g a = some b) l cs)
    (hn : ∀ x ∈ l, ¬ (f x = some true ∧ g x = some true)) : bs.count true + cs.count true ≤ l.length := by
  induction h1 generalizing cs with
  | nil => cases h2; simp
  | @cons a b l bs hb h1 ih =>
    cases h2 with
    | @cons _ c _ cs hc h2 =>
      have := ih h2 (fun x hx => hn x (List.mem_cons_of_mem _ hx))
      have hab := hn a (by simp)
      rw [hb, hc] at hab
      simp only [List.count_cons, List.length_cons]
      cases b <;> cases c <;> simp at hab ⊢ <;> omega

/-- If no element has both marks and there are as many marks as elements then every element has one. -/
theorem count_all {α : Type*} {f g : α → Option Bool} {l : List α} {bs cs : List Bool}
    (h1 : List.Forall₂ (fun a b => f a = some b) l bs) (h2 : List.Forall₂ (fun a b => g a = some b) l cs)
    (hn : ∀ x ∈ l, ¬ (f x = some true ∧ g x = some true)) (he : l.length = bs.count true + cs.count true) :
    ∀ x ∈ l, f x = some true ∨ g x = some true := by
  induction h1 generalizing cs with
  | nil => simp
  | @cons a b l bs hb h1 ih =>
    cases h2 with
    | @cons _ c _ cs hc h2 =>
      have hle := count_le h1 h2 (fun x hx => hn x (List.mem_cons_of_mem _ hx))
      have hab := hn a (by simp)
      rw [hb, hc] at hab
      simp only [List.count_cons, List.length_cons] at he
      have key : (b = true ∨ c = true) ∧ l.length = bs.count true + cs.count true := by
        cases b <;> cases c <;> simp at hab he ⊢ <;> omega
      intro x hx
      rcases List.mem_cons.mp hx with rfl | hx
      · rcases key.1 with h | h <;> simp [hb, hc, h]
      · exact ih h2 (fun x hx => hn x (List.mem_cons_of_mem _ hx)) key.2 x hx

theorem spatial_not_invariant {p : Prog} {i : Nat} {a : Access} {d : Nat} (h1 : hasSpatialReuse p i a d = some true)
    (h2 : isInvariant p i a d = some true) : False := by
  obtain ⟨m, hm, hb⟩ := hasSpatial_some h1
  obtain ⟨m', hm', hi⟩ := isInvariant_some h2
  rw [hm, Option.some.injEq] at hm'
  subst hm'
  obtain ⟨h0, _, h3, _⟩ := hb.mp rfl
  have := (accInvariant_iff _ _).mp hi.symm (m.mat.rows.length - 1) (by omega)
  omega

theorem numSpatial_some {p : Prog} {A : Accs} {l : Loop} {s : Nat} (h : numSpatial p A l = some s) :
    ∃ bs, List.Forall₂ (fun (x : Nat × Access) b => hasSpatialReuse p x.1 x.2 l.depth = some b) (accsOf A l.stmts) bs ∧
      s = bs.count true := by
  unfold numSpatial at h
  simp only [Option.bind_eq_bind, Option.bind_eq_some_iff, pure, Option.some.injEq] at h
  obtain ⟨bs, hb, rfl⟩ := h
  exact ⟨bs, mapM_forall₂ _ _ _ hb, rfl⟩

theorem numInvariant_some {p : Prog} {A : Accs} {l : Loop} {s : Nat} (h : numInvariant p A l = some s) :
    ∃ bs, List.Forall₂ (fun (x : Nat × Access) b => isInvariant p x.1 x.2 l.depth = some b) (accsOf A l.stmts) bs ∧
      s = bs.count true := by
  unfold numInvariant at h
  simp only [Option.bind_eq_bind, Option.bind_eq_some_iff, pure, Option.some.injEq] at h
  obtain ⟨bs, hb, rfl⟩ := h
  exact ⟨bs, mapM_forall₂ _ _ _ hb, rfl⟩

theorem mem_accsOf {A : Accs} {stmts : List Nat} {i : Nat} {a : Access} :
    (i, a) ∈ accsOf A stmts ↔ i ∈ stmts ∧ a ∈ A i := by
  simp [accsOf]

/-- The parts of a vectorizable loop. -/
theorem vectorizable_some {p : Prog} {A : Accs} {l : Loop} (h : loopIsVectorizable p A l = some true) :
    loopIsParallel p l = some true ∧ 1 ≤ numAccesses A l ∧ (∃ s t, numSpatial p A l = some s ∧ numInvariant p A l = some t ∧
      numAccesses A l = s + t) ∧ ∀ i ∈ l.stmts, ∀ a ∈ A i, hasSpatialReuse p i a l.depth = some true ∨ isInvariant p i a l.depth = some true := by
  unfold loopIsVectorizable at h
  simp only [Option.bind_eq_bind, Option.bind_eq_some_iff] at h
  obtain ⟨b, hb, h⟩ := h
  cases b
  · simp at h
  simp only [if_true, Option.bind_eq_some_iff, pure, Option.some.injEq, decide_eq_true_eq] at h
  obtain ⟨s, hs, t, ht, h1, h2⟩ := h
  refine ⟨hb, h1, ⟨s, t, hs, ht, h2⟩, fun i hi a ha => ?_⟩
  obtain ⟨bs, hbs, rfl⟩ := numSpatial_some hs
  obtain ⟨cs, hcs, rfl⟩ := numInvariant_some ht
  exact count_all hbs hcs (fun x _ hx => spatial_not_invariant hx.1 hx.2) h2 (i, a) (mem_accsOf.mpr ⟨hi, ha⟩)

/-- State of the search for the best loop. -/
theorem best_inv {p : Prog} {A : Accs} : ∀ (ls : List Loop) (s s' : Int × Option Loop), ls.foldlM (bestStep p A) s = some s' →
    (∀ L ∈ ls, ∃ sc, loopScore p A L = some sc ∧ sc ≤ s'.1) ∧ s.1 ≤ s'.1 ∧
    ((s' = s) ∨ ∃ pre L post, ls = pre ++ L :: post ∧ s'.2 = some L ∧ loopScore p A L = some s'.1 ∧ s.1 < s'.1 ∧
      ∀ M ∈ pre, ∃ sc, loopScore p A M = some sc ∧ sc < s'.1) := by
  intro ls
  induction ls with
  | nil =>
    intro s s' h
    simp only [List.foldlM_nil, pure, Option.some.injEq] at h
    subst h
    exact ⟨by simp, le_refl _, Or.inl rfl⟩
  | cons M ls ih =>
    intro s s' h
    simp only [List.foldlM_cons, Option.bind_eq_bind, Option.bind_eq_some_iff] at h
    obtain ⟨s1, h1, h⟩ := h
    unfold bestStep at h1
    simp only [Option.bind_eq_bind, Option.bind_eq_some_iff, pure, Option.some.injEq] at h1
    obtain ⟨sc, hsc, h1⟩ := h1
    obtain ⟨k1, k2, k3⟩ := ih s1 s' h
    by_cases hgt : sc > s.1
    · rw [if_pos hgt] at h1
      subst h1
      simp only at k2 k3
      refine ⟨?_, by omega, ?_⟩
      · intro L hL
        rcases List.mem_cons.mp hL with rfl | hL
        · exact ⟨sc, hsc, k2⟩
        · exact k1 L hL
      · right
        rcases k3 with rfl | ⟨pre, L, post, e, r1, r2, r3, r4⟩
        · exact ⟨[], M, ls, rfl, rfl, hsc, hgt, by simp⟩
        · refine ⟨M :: pre, L, post, by rw [e]; rfl, r1, r2, by omega, ?_⟩
          intro N hN
          rcases List.mem_cons.mp hN with rfl | hN
          · exact ⟨sc, hsc, r3⟩
          · exact r4 N hN
    · rw [if_neg hgt] at h1
      subst h1
      refine ⟨?_, k2, ?_⟩
      · intro L hL
        rcases List.mem_cons.mp hL with rfl | hL
        · exact ⟨sc, hsc, by omega⟩
        · exact k1 L hL
      · rcases k3 with rfl | ⟨pre, L, post, e, r1, r2, r3, r4⟩
        · exact Or.inl rfl
        · right
          refine ⟨M :: pre, L, post, by rw [e]; rfl, r1, r2, r3, ?_⟩
          intro N hN
          rcases List.mem_cons.mp hN with rfl | hN
          · exact ⟨sc, hsc, by omega⟩
          · exact r4 N hN

/-- The list of different accesses. -/
theorem insertUnique_spec : ∀ (ns acc : List Access), acc.Nodup →
    (ns.foldl insertUnique acc).Nodup ∧ ∀ a, a ∈ ns.foldl insertUnique acc ↔ a ∈ acc ∨ a ∈ ns := by
  intro ns
  induction ns with
  | nil => intro acc h; simp [h]
  | cons n ns ih =>
    intro acc h
    rw [List.foldl_cons]
    by_cases hc : acc.contains n = true
    · rw [show insertUnique acc n = acc from if_pos hc]
      obtain ⟨h1, h2⟩ := ih acc h
      refine ⟨h1, fun a => ?_⟩
      rw [h2]
      have : n ∈ acc := by simpa using hc
      constructor
      · rintro (h | h)
        · exact Or.inl h
        · exact Or.inr (List.mem_cons_of_mem _ h)
      · rintro (h | h)
        · exact Or.inl h
        · rcases List.mem_cons.mp h with rfl | h
          · exact Or.inl this
          · exact Or.inr h
    · rw [show insertUnique acc n = acc ++ [n] from if_neg hc]
      have hn : n ∉ acc := by simpa using hc
      obtain ⟨h1, h2⟩ := ih (acc ++ [n]) (List.nodup_append.mpr ⟨h, by simp, by
        intro a ha b hb
        rw [List.mem_singleton] at hb
        subst hb
        rintro rfl
        exact hn ha⟩)
      refine ⟨h1, fun a => ?_⟩
      rw [h2]
      simp [or_assoc]

theorem forall₂_mem_of_left {α β : Type*} {R : α → β → Prop} {l : List α} {l' : List β} (h : List.Forall₂ R l l') {a : α}
    (ha : a ∈ l) : ∃ b ∈ l', R a b := by
  induction h with
  | nil => simp at ha
  | @cons a' b l l' hab _ ih =>
    rcases List.mem_cons.mp ha with rfl | ha
    · exact ⟨b, by simp, hab⟩
    · obtain ⟨b', h1, h2⟩ := ih ha
      exact ⟨b', by simp [h1], h2⟩

theorem uniqueAccesses_spec {p : Prog} {A : Accs} {g : List Nat} {us : List Access} (h : uniqueAccesses p A g = some us) :
    us.Nodup ∧ (∀ i ∈ g, ∀ a ∈ A i, ∃ b ∈ us, newAccess p i a = some b) ∧
      ∀ b ∈ us, ∃ i ∈ g, ∃ a ∈ A i, newAccess p i a = some b := by
  unfold uniqueAccesses at h
  simp only [Option.bind_eq_bind, Option.bind_eq_some_iff, pure, Option.some.injEq] at h
  obtain ⟨ns, hn, rfl⟩ := h
  have hf := mapM_forall₂ _ _ _ hn
  obtain ⟨h1, h2⟩ := insertUnique_spec ns [] List.nodup_nil
  refine ⟨h1, fun i hi a ha => ?_, fun b hb => ?_⟩
  · obtain ⟨b, hb, he⟩ := forall₂_mem_of_left hf (mem_accsOf.mpr ⟨hi, ha⟩)
    exact ⟨b, (h2 b).mpr (Or.inr hb), he⟩
  · rcases (h2 b).mp hb with hb | hb
    · simp at hb
    · obtain ⟨⟨i, a⟩, hx, he⟩ := forall₂_mem_right hf hb
      obtain ⟨hi, ha⟩ := mem_accsOf.mp hx
      exact ⟨i, hi, a, ha, he⟩

theorem foldl_max_ge (ns : List Nat) : ∀ m, m ≤ ns.foldl max m ∧ ∀ n ∈ ns, n ≤ ns.foldl max m := by
  induction ns with
  | nil => simp
  | cons n ns ih =>
    intro m
    rw [List.foldl_cons]
    obtain ⟨h1, h2⟩ := ih (max m n)
    refine ⟨le_trans (le_max_left _ _) h1, fun k hk => ?_⟩
    rcases List.mem_cons.mp hk with rfl | hk
    · exact le_trans (le_max_right _ _) h1
    · exact h2 k hk

end Pluto
