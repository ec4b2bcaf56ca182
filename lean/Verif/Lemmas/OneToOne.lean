import Verif.Lemmas.Origs
import Verif.Lemmas.AutoUnpad
import Verif.Lemmas.LinInd
import Verif.Spec.Remap
import Verif.Spec.OneToOne
import Mathlib.Data.List.GetD

/-! Schedules with full column rank: the search ends with one, and the later transformations keep it. -/

namespace Pluto

/-- A statement with a schedule that fits and has full column rank. -/
def Sharp1 (npar : Nat) (st : Stmt) : Prop :=
  (∀ r ∈ st.trans, r.length = st.dim + npar + 1) ∧ FullColRank st.dim st.trans

/-- All statements have such a schedule. -/
def Sharp (npar : Nat) (p : Prog) : Prop := p.npar = npar ∧ ∀ st ∈ p.stmts, Sharp1 npar st

theorem dot_take_sub (r x y : List Int) (n : Nat) (hx : x.length = n) (hy : y.length = n) :
    dot r (List.zipWith (· - ·) x y) = dot r x - dot r y := by
  induction r generalizing x y n with
  | nil => simp
  | cons a r ih =>
    cases x with
    | nil =>
      cases y with
      | nil => simp
      | cons c y => simp only [List.length_nil, List.length_cons] at hx hy; omega
    | cons b x =>
      cases y with
      | nil => simp only [List.length_nil, List.length_cons] at hx hy; omega
      | cons c y =>
        simp only [List.length_cons] at hx hy
        simp only [List.zipWith_cons_cons, dot_cons, ih x y (n - 1) (by omega) (by omega)]
        push_cast
        ring

theorem zipWith_sub_zero (x y : List Int) (n : Nat) (hx : x.length = n) (hy : y.length = n)
    (h : ∀ a ∈ List.zipWith (· - ·) x y, a = 0) : x = y := by
  apply List.ext_getElem (by omega)
  intro j h1 h2
  have := h (x[j] - y[j]) (by
    rw [List.mem_iff_getElem]
    exact ⟨j, by simp; omega, by simp⟩)
  omega

theorem aff_iter {dim : Nat} {r x q : List Int} (hr : r.length = dim + q.length + 1) (hx : x.length = dim) :
    aff r (x ++ q) = dot (r.take dim) x + dot (r.drop dim) (q ++ [1]) := by
  unfold aff
  rw [List.append_assoc, ← dot_append _ _ _ _ (by simp [hr, hx]; omega), List.take_append_drop]

theorem Sharp.oneToOne {npar : Nat} {p : Prog} (h : Sharp npar p) : p.OneToOne := by
  intro i hi x y q hx hy hq ht
  have hg := List.getElem?_eq_getElem hi
  obtain ⟨s1, s2⟩ := h.2 _ (List.getElem_mem hi)
  have hd : p.dim i = p.stmts[i].dim := Prog.dim_of hg
  rw [hd] at hx hy
  refine zipWith_sub_zero x y _ hx hy (s2 _ (by simp [hx, hy]) fun r hr => ?_)
  unfold Prog.timestamp at ht
  rw [hg] at ht
  simp only [Option.map_some, Option.getD_some] at ht
  have e := List.map_inj_left.mp ht r hr
  have hl := s1 r hr
  rw [← h.1, ← hq] at hl
  rw [aff_iter hl hx, aff_iter hl hy] at e
  rw [dot_take_sub _ _ _ _ hx hy]
  omega

theorem Sharp.rowsFit {npar : Nat} {p : Prog} (h : Sharp npar p) : p.RowsFit := by
  intro st hst r hr
  rw [h.1]
  exact (h.2 st hst).1 r hr

/-- Conversely, a one-to-one schedule whose rows fit has full column rank. -/
theorem sharp_of_oneToOne {p : Prog} (h : p.OneToOne) (hr : p.RowsFit) : Sharp p.npar p := by
  refine ⟨rfl, fun st hst => ⟨hr st hst, fun v hv h0 => ?_⟩⟩
  obtain ⟨i, hi, rfl⟩ := List.getElem_of_mem hst
  have hg := List.getElem?_eq_getElem hi
  have hd : p.dim i = p.stmts[i].dim := Prog.dim_of hg
  have e := h i hi v (zrow p.stmts[i].dim) (zrow p.npar) (by rw [hd, hv]) (by simp [hd, zrow]) (by simp [zrow]) (by
    unfold Prog.timestamp
    rw [hg]
    simp only [Option.map_some, Option.getD_some]
    refine List.map_congr_left fun r hrm => ?_
    have hl := hr _ hst r hrm
    rw [aff_iter (by simpa [zrow] using hl) hv, aff_iter (by simpa [zrow] using hl) (by simp [zrow]), h0 r hrm, dot_comm_int, dot_comm_int (r.take _)]
    simp [dot_zrow])
  rw [e]
  intro a ha
  exact List.eq_of_mem_replicate ha

/-! ### Edits of one schedule -/

/-- More rows, of the right length. -/
theorem Sharp1.more {npar : Nat} {st st' : Stmt} (h : Sharp1 npar st) (hd : st'.dim = st.dim)
    (hl : ∀ r ∈ st'.trans, r.length = st.dim + npar + 1) (hm : ∀ r ∈ st.trans, r ∈ st'.trans) : Sharp1 npar st' := by
  refine ⟨by rw [hd]; exact hl, fun v hv h0 => ?_⟩
  rw [hd] at hv h0
  exact h.2 v hv (fun r hr => h0 r (hm r hr))

theorem Sharp1.interchange {npar : Nat} {st st' : Stmt} {l1 l2 : Nat} (h : Sharp1 npar st)
    (e : stmtInterchange st l1 l2 = some st') : Sharp1 npar st' := by
  unfold stmtInterchange at e
  obtain ⟨r1, h1, e⟩ := Option.bind_eq_some_iff.mp e
  obtain ⟨r2, h2, e⟩ := Option.bind_eq_some_iff.mp e
  cases e
  have m1 := List.mem_of_getElem? h1
  have m2 := List.mem_of_getElem? h2
  obtain ⟨b1, e1⟩ := List.getElem?_eq_some_iff.mp h1
  obtain ⟨b2, e2⟩ := List.getElem?_eq_some_iff.mp h2
  refine h.more rfl (fun r hr => ?_) (fun r hr => ?_)
  · rcases List.mem_or_eq_of_mem_set hr with hr | rfl
    · rcases List.mem_or_eq_of_mem_set hr with hr | rfl
      · exact h.1 r hr
      · exact h.1 _ m2
    · exact h.1 _ m1
  · obtain ⟨j, hj, rfl⟩ := List.getElem_of_mem hr
    simp only
    rw [List.mem_iff_getElem]
    by_cases c1 : j = l1
    · subst c1
      exact ⟨l2, by simpa using b2, by simp [e1]⟩
    · by_cases c2 : j = l2
      · subst c2
        exact ⟨l1, by simpa using b1, by rw [List.getElem_set_ne (by omega), List.getElem_set_self]; exact e2.symm⟩
      · exact ⟨j, by simpa using hj, by rw [List.getElem_set_ne (by omega), List.getElem_set_ne (by omega)]⟩

theorem Sharp1.rotate {npar : Nat} {st : Stmt} (h : Sharp1 npar st) {g : Nat} : ∀ {n : Nat} {st' : Stmt},
    rotate st g n = some st' → Sharp1 npar st' := by
  intro n
  induction n with
  | zero => intro st' e; cases e; exact h
  | succ n ih =>
    intro st' e
    unfold Pluto.rotate at e
    obtain ⟨s1, h1, e⟩ := Option.bind_eq_some_iff.mp e
    exact (ih h1).interchange e

theorem dot_addRows (r s v : List Int) (h : r.length = s.length) : dot (addRows r s) v = dot r v + dot s v := by
  unfold addRows
  induction r generalizing s v with
  | nil => cases s <;> simp_all
  | cons a r ih =>
    cases s with
    | nil => simp at h
    | cons b s =>
      cases v with
      | nil => simp
      | cons c v =>
        simp only [List.length_cons] at h
        simp only [List.zipWith_cons_cons, dot_cons, ih s v (by omega)]
        push_cast
        ring

theorem Sharp1.addRow {npar : Nat} {st st' : Stmt} {f k : Nat} (h : Sharp1 npar st) (hk : k ≠ f)
    (e : addRowAt f st k = some st') : Sharp1 npar st' := by
  unfold addRowAt at e
  obtain ⟨r, h1, e⟩ := Option.bind_eq_some_iff.mp e
  obtain ⟨s, h2, e⟩ := Option.bind_eq_some_iff.mp e
  cases e
  have m1 := h.1 _ (List.mem_of_getElem? h1)
  have m2 := h.1 _ (List.mem_of_getElem? h2)
  obtain ⟨b1, e1⟩ := List.getElem?_eq_some_iff.mp h1
  obtain ⟨b2, e2⟩ := List.getElem?_eq_some_iff.mp h2
  constructor
  · intro x hx
    rcases List.mem_or_eq_of_mem_set hx with hx | rfl
    · exact h.1 x hx
    · simp [addRows, m1, m2]
  · intro v hv h0
    simp only at hv h0
    have hs : dot (s.take st.dim) v = 0 := by
      refine h0 s ?_
      rw [List.mem_iff_getElem]
      exact ⟨k, by simpa using b2, by rw [List.getElem_set_ne (by omega)]; exact e2⟩
    have hrs : dot ((addRows r s).take st.dim) v = 0 := by
      refine h0 _ ?_
      rw [List.mem_iff_getElem]
      exact ⟨f, by simpa using b1, by simp⟩
    have ht : (addRows r s).take st.dim = addRows (r.take st.dim) (s.take st.dim) := by
      unfold addRows; rw [List.take_zipWith]
    rw [ht, dot_addRows _ _ _ (by simp [m1, m2]), hs, add_zero] at hrs
    refine h.2 v hv fun x hx => ?_
    obtain ⟨j, hj, rfl⟩ := List.getElem_of_mem hx
    by_cases c : j = f
    · subst c; rw [e1]; exact hrs
    · refine h0 _ ?_
      rw [List.mem_iff_getElem]
      exact ⟨j, by simpa using hj, by rw [List.getElem_set_ne (by omega)]⟩

theorem Sharp1.addRows {npar : Nat} {f : Nat} : ∀ {ks : List Nat} {st st' : Stmt}, Sharp1 npar st → (∀ k ∈ ks, k ≠ f) →
    wavefrontStmt f ks st = some st' → Sharp1 npar st' := by
  intro ks
  unfold wavefrontStmt
  induction ks with
  | nil => intro st st' h _ e; simp only [List.foldlM_nil] at e; cases e; exact h
  | cons k ks ih =>
    intro st st' h hk e
    rw [List.foldlM_cons] at e
    obtain ⟨s1, h1, e⟩ := Option.bind_eq_some_iff.mp e
    exact ih (h.addRow (hk k (by simp)) h1) (fun x hx => hk x (by simp [hx])) e

theorem dot_unit_row (n k : Nat) (v : List Int) (hk : k < n) : dot ((zrow n).set k 1) v = v.getD k 0 := by
  have := dot_set_zrow n k 1 v hk
  simpa using this

/-- A new iterator with a schedule row of its own. -/
theorem Sharp1.newDim {npar : Nat} {st st' : Stmt} {pos w : Nat} (h : Sharp1 npar st) (hp : pos ≤ st.dim) (hd : st'.dim = st.dim + 1)
    (hw : w = st.dim + 1 + npar + 1)
    (hm : ∀ r, r ∈ st'.trans ↔ r = (zrow w).set pos 1 ∨ ∃ s ∈ st.trans, r = s.insertIdx pos 0) : Sharp1 npar st' := by
  constructor
  · intro r hr
    rcases (hm r).mp hr with rfl | ⟨s, hs, rfl⟩
    · simp [zrow, hw, hd]
    · rw [List.length_insertIdx_of_le_length (by rw [h.1 s hs]; omega), h.1 s hs, hd]; omega
  · intro v hv h0
    rw [hd] at hv h0
    have hv0 : v.getD pos 0 = 0 := by
      have := h0 _ ((hm _).mpr (.inl rfl))
      rw [List.take_set, show (zrow w).take (st.dim + 1) = zrow (st.dim + 1) by simp [zrow, hw]; omega, dot_unit_row _ _ _ (by omega)] at this
      exact this
    have hvp : pos < v.length := by omega
    have hve : v = (v.eraseIdx pos).insertIdx pos 0 := by
      rw [List.getD_eq_getElem _ _ hvp] at hv0
      rw [← hv0, List.insertIdx_eraseIdx_getElem hvp]
    have hz : ∀ a ∈ v.eraseIdx pos, a = 0 := by
      refine h.2 _ (by rw [List.length_eraseIdx_of_lt hvp]; omega) fun s hs => ?_
      have := h0 _ ((hm _).mpr (.inr ⟨s, hs, rfl⟩))
      have hsl := h.1 s hs
      have ht : (s.insertIdx pos 0).take (st.dim + 1) = (s.take st.dim).insertIdx pos 0 := by
        conv_lhs => rw [← List.take_append_drop st.dim s]
        rw [← insertIdx_append_one _ _ _ _ (by simp; omega), List.take_append_of_le_length (by
          rw [List.length_insertIdx_of_le_length (by simp; omega)]; simp; omega), List.take_of_length_le (by
          rw [List.length_insertIdx_of_le_length (by simp; omega)]; simp)]
      rw [ht, hve, dot_insertIdx _ _ _ _ _ (by simp [List.length_eraseIdx_of_lt hvp]; omega) (by simp; omega)] at this
      simpa using this
    intro a ha
    rw [hve] at ha
    rcases List.eq_or_mem_of_mem_insertIdx ha with rfl | ha
    · rfl
    · exact hz a ha

end Pluto
