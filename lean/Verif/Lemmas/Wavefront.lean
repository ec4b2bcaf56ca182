import Verif.Lemmas.Innermost
import Verif.Lemmas.Band
import Verif.Lemmas.TileBands

/-! Lemmas about `createTileSchedule`. -/

namespace Pluto

theorem aff_addRows (r s v : List Int) (h : r.length = s.length) : aff (addRows r s) v = aff r v + aff s v := by
  unfold addRows aff
  exact dot_zipWith_add r s _ h

theorem wavefrontStmt_spec {f c : Nat} : ∀ {ks : List Nat} {st st' : Stmt}, wavefrontStmt f ks st = some st' → f ∉ ks →
    (∀ r ∈ st.trans, r.length = c) → f < st.trans.length →
    st' = { st with trans := st'.trans } ∧ st'.trans.length = st.trans.length ∧ (∀ r ∈ st'.trans, r.length = c) ∧
    (∀ l, l ≠ f → st'.trans[l]? = st.trans[l]?) ∧
    ∀ v : List Int, aff (st'.trans.getD f []) v = aff (st.trans.getD f []) v + (ks.map (fun k => aff (st.trans.getD k []) v)).sum := by
  intro ks
  induction ks with
  | nil =>
    intro st st' h _ hc _
    simp [wavefrontStmt] at h
    subst h
    exact ⟨rfl, rfl, hc, fun _ _ => rfl, by simp⟩
  | cons k ks ih =>
    intro st st' h hf hc hlt
    simp only [List.mem_cons, not_or] at hf
    unfold wavefrontStmt at h
    rw [List.foldlM_cons, Option.bind_eq_bind, Option.bind_eq_some_iff] at h
    obtain ⟨st1, h1, h2⟩ := h
    simp only [addRowAt, Option.bind_eq_bind, Option.bind_eq_some_iff, pure, Option.some.injEq] at h1
    obtain ⟨r, h3, s, h4, rfl⟩ := h1
    have hr := hc r (List.mem_of_getElem? h3)
    have hs := hc s (List.mem_of_getElem? h4)
    have hlen : (addRows r s).length = c := by simp [addRows, hr, hs]
    have hc1 : ∀ r' ∈ st.trans.set f (addRows r s), r'.length = c := by
      intro r' hr'
      rcases List.mem_or_eq_of_mem_set hr' with h | h
      · exact hc r' h
      · rw [h]; exact hlen
    obtain ⟨a1, a2, a3, a4, a5⟩ := ih (st := { st with trans := st.trans.set f (addRows r s) }) h2 hf.2 hc1 (by simpa using hlt)
    refine ⟨by rw [a1], by rw [a2]; simp, a3, fun l hl => ?_, fun v => ?_⟩
    · rw [a4 l hl]
      simp [List.getElem?_set_ne (Ne.symm hl)]
    · rw [a5 v]
      have e1 : (st.trans.set f (addRows r s)).getD f [] = addRows r s := by
        simp [List.getD_eq_getElem?_getD, hlt]
      have e2 : ∀ k' ∈ ks, (st.trans.set f (addRows r s)).getD k' [] = st.trans.getD k' [] := by
        intro k' hk'
        have : f ≠ k' := fun e => hf.2 (e ▸ hk')
        simp [List.getD_eq_getElem?_getD, List.getElem?_set_ne this]
      have e3 : ks.map (fun k => aff ((st.trans.set f (addRows r s)).getD k []) v) = ks.map (fun k => aff (st.trans.getD k []) v) :=
        List.map_congr_left (fun k' hk' => by rw [e2 k' hk'])
      simp only [e1, e3]
      rw [aff_addRows _ _ _ (by rw [hr, hs]), List.map_cons, List.sum_cons]
      simp only [List.getD_eq_getElem?_getD, h3, h4, Option.getD_some]
      ring

theorem wavefrontStmt_defined {f : Nat} : ∀ {ks : List Nat} {st : Stmt}, f < st.trans.length → (∀ k ∈ ks, k < st.trans.length) →
    (wavefrontStmt f ks st).isSome := by
  intro ks
  induction ks with
  | nil => intro st _ _; rfl
  | cons k ks ih =>
    intro st hf hk
    have hk0 := hk k (by simp)
    unfold wavefrontStmt
    rw [List.foldlM_cons]
    simp only [addRowAt, List.getElem?_eq_getElem hf, List.getElem?_eq_getElem hk0, Option.bind_eq_bind, Option.bind_some, pure]
    exact ih (st := { st with trans := _ }) (by simpa using hf) (fun k' hk' => by simpa using hk k' (by simp [hk']))

theorem mergeSatvec_spec {f : Nat} : ∀ {ks : List Nat} {v v' : List Bool}, mergeSatvec f ks v = some v' → f ∉ ks → ks.Nodup →
    v'.length = v.length ∧ (∀ k ∈ ks, v'[k]? = some false) ∧ (∀ l, l ≠ f → l ∉ ks → v'[l]? = v[l]?) ∧
    (v'[f]? = some false → f < v.length → v[f]? = some false ∧ ∀ k ∈ ks, v[k]? = some false) := by
  intro ks
  induction ks with
  | nil =>
    intro v v' h _ _
    simp [mergeSatvec] at h
    subst h
    exact ⟨rfl, by simp, fun _ _ _ => rfl, fun h _ => ⟨h, by simp⟩⟩
  | cons k ks ih =>
    intro v v' h hf hnd
    simp only [List.mem_cons, not_or] at hf
    obtain ⟨hk, hnd'⟩ := List.nodup_cons.mp hnd
    unfold mergeSatvec at h
    rw [List.foldlM_cons, Option.bind_eq_bind, Option.bind_eq_some_iff] at h
    obtain ⟨v1, h1, h2⟩ := h
    simp only [mergeBit, Option.bind_eq_bind, Option.bind_eq_some_iff, pure, Option.some.injEq] at h1
    obtain ⟨a, h3, b, h4, rfl⟩ := h1
    obtain ⟨a1, a2, a3, a4⟩ := ih h2 hf.2 hnd'
    have lf := (List.getElem?_eq_some_iff.mp h3).1
    have lk := (List.getElem?_eq_some_iff.mp h4).1
    have hne := hf.1
    refine ⟨by rw [a1]; simp, ?_, ?_, ?_⟩
    · intro k' hk'
      rcases List.mem_cons.mp hk' with rfl | hk'
      · rw [a3 k' (Ne.symm hne) hk]
        simp [lk]
      · exact a2 k' hk'
    · intro l hl hl'
      simp only [List.mem_cons, not_or] at hl'
      rw [a3 l hl hl'.2]
      simp [List.getElem?_set_ne (Ne.symm hl), List.getElem?_set_ne (Ne.symm hl'.1)]
    · intro h5 h6
      obtain ⟨b1, b2⟩ := a4 h5 (by simpa using h6)
      rw [List.getElem?_set_ne (Ne.symm hne), List.getElem?_set_self lf] at b1
      simp only [Option.some.injEq, Bool.or_eq_false_iff] at b1
      refine ⟨by rw [h3, b1.1], fun k' hk' => ?_⟩
      rcases List.mem_cons.mp hk' with rfl | hk'
      · rw [h4, b1.2]
      · have := b2 k' hk'
        have n1 : k ≠ k' := fun e => hk (e ▸ hk')
        have n2 : f ≠ k' := fun e => hf.2 (e ▸ hk')
        rwa [List.getElem?_set_ne n1, List.getElem?_set_ne n2] at this

theorem mergeSatvec_defined {f : Nat} : ∀ {ks : List Nat} {v : List Bool}, f < v.length → (∀ k ∈ ks, k < v.length) →
    (mergeSatvec f ks v).isSome := by
  intro ks
  induction ks with
  | nil => intro v _ _; rfl
  | cons k ks ih =>
    intro v hf hk
    have hk0 := hk k (by simp)
    unfold mergeSatvec
    rw [List.foldlM_cons]
    simp only [mergeBit, List.getElem?_eq_getElem hf, List.getElem?_eq_getElem hk0, Option.bind_eq_bind, Option.bind_some, pure]
    exact ih (by simpa using hf) (fun k' hk' => by simpa using hk k' (by simp [hk']))

/-! ### The levels of the wavefront -/

theorem mapM_all {α : Type*} {f : α → Option Bool} {P : α → Prop} (hP : ∀ a b, f a = some b → (b = true ↔ P a)) :
    ∀ {l : List α} {bs : List Bool}, l.mapM f = some bs → (bs.all (fun s => !s) = true ↔ ∀ a ∈ l, ¬ P a) := by
  intro l bs h
  have hf := mapM_forall₂ _ _ _ h
  clear h
  induction hf with
  | nil => simp
  | @cons a b l l' hab _ ih =>
    simp only [List.all_cons, Bool.and_eq_true, Bool.not_eq_true', ih, List.mem_cons, forall_eq_or_imp]
    refine and_congr_left (fun _ => ?_)
    rw [← hP a b hab]
    simp

theorem zip_filter_map {α β : Type*} {f : α → Option Bool} {P : α → Prop} (hP : ∀ a b, f a = some b → (b = true ↔ P a)) (g : α → β) :
    ∀ {l : List α} {bs : List Bool}, l.mapM f = some bs →
    ∃ l' : List α, l'.Sublist l ∧ ((l.zip bs).filter (·.2)).map (fun x => g x.1) = l'.map g ∧ ∀ a, a ∈ l' ↔ a ∈ l ∧ P a := by
  intro l bs h
  have hf := mapM_forall₂ _ _ _ h
  clear h
  induction hf with
  | nil => exact ⟨[], List.Sublist.refl _, rfl, by simp⟩
  | @cons a b l bs hab _ ih =>
    obtain ⟨l', h1, h2, h3⟩ := ih
    cases b with
    | true =>
      refine ⟨a :: l', h1.cons_cons _, by simp [h2], ?_⟩
      have := (hP a true hab).mp rfl
      intro x
      simp only [List.mem_cons, h3]
      constructor
      · rintro (rfl | ⟨h, h'⟩)
        · exact ⟨.inl rfl, this⟩
        · exact ⟨.inr h, h'⟩
      · rintro ⟨rfl | h, h'⟩
        · exact .inl rfl
        · exact .inr ⟨h, h'⟩
    | false =>
      have hn : ¬ P a := fun h => by have := (hP a false hab).mpr h; simp at this
      refine ⟨l', h1.trans (List.sublist_cons_self _ _), by simp [h2], ?_⟩
      intro x
      simp only [List.mem_cons, h3]
      constructor
      · rintro ⟨h, h'⟩; exact ⟨.inr h, h'⟩
      · rintro ⟨rfl | h, h'⟩
        · exact absurd h' hn
        · exact ⟨h, h'⟩

theorem innerDepths_spec {p : Prog} {b : Band} {ks : List Nat} (h : innerDepths p b = some ks) :
    ks.Pairwise (· < ·) ∧ ∀ k, k ∈ ks ↔ AllLoop p b k := by
  unfold innerDepths at h
  simp only [Option.bind_eq_bind, Option.bind_eq_some_iff, pure, Option.some.injEq] at h
  obtain ⟨bs, h1, rfl⟩ := h
  obtain ⟨l', k1, k2, k3⟩ := zip_filter_map (P := fun m => ∀ i ∈ b.loop.stmts, ¬ p.Scalar (b.loop.depth + 1 + m) i) (by
    intro m v hv
    rw [Option.bind_eq_some_iff] at hv
    obtain ⟨sc, e1, e2⟩ := hv
    simp only [Option.some.injEq] at e2
    rw [← e2]
    exact mapM_all (fun i v hv => scalarAt_iff hv) e1) (fun m => b.loop.depth + 1 + m) h1
  rw [k2]
  constructor
  · rw [List.pairwise_map]
    exact (List.pairwise_lt_range.sublist k1).imp (fun h => by omega)
  · intro k
    simp only [List.mem_map, k3, List.mem_range]
    constructor
    · rintro ⟨m, ⟨h1, h2⟩, rfl⟩
      exact ⟨by omega, by omega, h2⟩
    · rintro ⟨h1, h2, h3⟩
      refine ⟨k - (b.loop.depth + 1), ⟨by omega, ?_⟩, by omega⟩
      rw [show b.loop.depth + 1 + (k - (b.loop.depth + 1)) = k by omega]
      exact h3

theorem innerDepths_defined {p : Prog} (hok : p.OK) {b : Band} (hr : ∀ i ∈ b.loop.stmts, i < p.stmts.length)
    (hle : b.loop.depth + b.width ≤ p.hProps.length) : (innerDepths p b).isSome := by
  unfold innerDepths
  obtain ⟨bs, hbs⟩ := Option.isSome_iff_exists.mp (mapM_isSome' (l := List.range (b.width - 1)) (f := fun m => (do
    let sc ← b.loop.stmts.mapM (scalarAt p (b.loop.depth + 1 + m))
    return sc.all (fun s => !s) : Option Bool)) (fun m hm => by
      simp only [List.mem_range] at hm
      obtain ⟨sc, hsc⟩ := Option.isSome_iff_exists.mp (mapM_isSome' (l := b.loop.stmts) (f := scalarAt p (b.loop.depth + 1 + m))
        (fun i hi => (hasRows hok (hr i hi)).scalarAt (by omega)))
      simp [hsc]))
  simp only [Option.bind_eq_bind, pure] at hbs ⊢
  simp [hbs]

/-- What `createTileSchedule` does when it builds a wavefront. -/
structure Waved (p p' : Prog) (b : Band) (ks : List Nat) : Prop where
  npar : p'.npar = p.npar
  levels : p'.hProps = p.hProps
  len : p'.stmts.length = p.stmts.length
  inside : ∀ i ∈ b.loop.stmts, ∃ st st', p.stmts[i]? = some st ∧ wavefrontStmt b.loop.depth ks st = some st' ∧ p'.stmts[i]? = some st'
  outside : ∀ i, i ∉ b.loop.stmts → p'.stmts[i]? = p.stmts[i]?
  deps : List.Forall₂ (fun d d' => mergeDep b ks d = some d') p.deps p'.deps

theorem addedLevels {p : Prog} {b : Band} {multipar : Bool} {inner : List Nat} (h : innerDepths p b = some inner) :
    (if multipar then inner else inner.take 1).Pairwise (· < ·) ∧
    ∀ k, k ∈ (if multipar then inner else inner.take 1) ↔ Added p b multipar k := by
  obtain ⟨h1, h2⟩ := innerDepths_spec h
  cases multipar with
  | true => exact ⟨h1, fun k => by simp [Added, h2]⟩
  | false =>
    simp only [Bool.false_eq_true, if_false]
    refine ⟨h1.sublist (List.take_sublist _ _), fun k => ?_⟩
    cases inner with
    | nil =>
      simp only [List.take_nil, List.not_mem_nil, false_iff, Added, not_and]
      intro hk
      simpa using (h2 k).mpr hk
    | cons a l =>
      rw [List.pairwise_cons] at h1
      simp only [List.take_succ_cons, List.take_zero, List.mem_singleton, Added, Bool.false_eq_true, false_or]
      constructor
      · rintro rfl
        refine ⟨(h2 k).mp (by simp), fun k' hk' hc => ?_⟩
        rcases List.mem_cons.mp ((h2 k').mpr hc) with rfl | hm
        · omega
        · have := h1.1 k' hm; omega
      · rintro ⟨hk, hmin⟩
        rcases List.mem_cons.mp ((h2 k).mpr hk) with rfl | hm
        · rfl
        · exact absurd ((h2 a).mp (by simp)) (hmin a (h1.1 k hm))

theorem mergeDep_defined {p : Prog} (hi : SatLen p) {b : Band} {ks : List Nat} (hf : b.loop.depth < p.hProps.length)
    (hk : ∀ k ∈ ks, k < p.hProps.length) {d : Dep} (hd : d ∈ p.deps) : (mergeDep b ks d).isSome := by
  unfold mergeDep
  split_ifs with c
  · have hr : d.rar = false := by
      by_contra hc
      simp [Bool.not_eq_false] at hc
      simp [hc] at c
    have := hi d hd hr
    obtain ⟨v, hv⟩ := Option.isSome_iff_exists.mp (mergeSatvec_defined (f := b.loop.depth) (ks := ks) (v := d.satvec)
      (by omega) (fun k hk' => by have := hk k hk'; omega))
    simp [hv]
  · rfl

set_option linter.unusedSectionVars false

/-- `createTileSchedule` without `innerpar`. -/
theorem createTileSchedule_spec {p : Prog} (hok : p.OK) (hi : SatLen p) {b : Band} (hnd : b.loop.stmts.Nodup)
    (hr : ∀ i ∈ b.loop.stmts, i < p.stmts.length) (hf : b.loop.depth < p.hProps.length)
    (hle : b.loop.depth + b.width ≤ p.hProps.length) (multipar : Bool) :
    ∃ p' r, createTileSchedule p b multipar false = some (p', r) ∧
      ((r = false ∧ p' = p ∧ (loopIsParallel p b.loop = some true ∨ ∀ k, ¬ AllLoop p b k)) ∨
       (r = true ∧ loopIsParallel p b.loop = some false ∧
        ∃ ks, ks.Nodup ∧ ks ≠ [] ∧ (∀ k, k ∈ ks ↔ Added p b multipar k) ∧ Waved p p' b ks)) := by
  obtain ⟨v, hv⟩ := Option.isSome_iff_exists.mp (loopIsParallel_defined hi hf)
  unfold createTileSchedule
  simp only [hv, Option.bind_eq_bind, Option.bind_some]
  cases v with
  | true => exact ⟨p, false, rfl, .inl ⟨rfl, rfl, .inl rfl⟩⟩
  | false =>
    obtain ⟨inner, hin⟩ := Option.isSome_iff_exists.mp (innerDepths_defined hok hr hle)
    obtain ⟨s1, s2⟩ := innerDepths_spec hin
    simp only [hin, Option.bind_some, Bool.false_eq_true, if_false]
    by_cases c : inner.length = 0
    · rw [if_pos c]
      refine ⟨p, false, rfl, .inl ⟨rfl, rfl, .inr fun k hk => ?_⟩⟩
      have := (s2 k).mpr hk
      rw [List.length_eq_zero_iff.mp c] at this
      simp at this
    · rw [if_neg c]
      obtain ⟨t1, t2⟩ := addedLevels (multipar := multipar) hin
      have hne : (if multipar = true then inner else inner.take 1) ≠ [] := by
        cases inner with
        | nil => simp at c
        | cons a l => cases multipar <;> simp
      generalize (if multipar = true then inner else inner.take 1) = ks at *
      have hks : ∀ k ∈ ks, k < p.hProps.length := by
        intro k hk
        have := ((t2 k).mp hk).1.2.1
        omega
      obtain ⟨p1, hp1⟩ := Option.isSome_iff_exists.mp (updStmts_defined (p := p) (f := wavefrontStmt b.loop.depth ks) hnd (by
        intro i hi
        have gi := List.getElem?_eq_getElem (hr i hi)
        have := hok.levels _ (List.mem_of_getElem? gi)
        exact ⟨_, gi, wavefrontStmt_defined (by omega) (fun k hk => by have := hks k hk; omega)⟩))
      obtain ⟨u1, u2, u3⟩ := updStmts_spec hnd hp1
      have hdeps : p1.deps = p.deps := by rw [u1]
      obtain ⟨ds, hds⟩ := Option.isSome_iff_exists.mp (mapM_isSome' (l := p1.deps) (f := mergeDep b ks)
        (fun d hd => mergeDep_defined hi hf hks (by rwa [hdeps] at hd)))
      simp only [hp1, hds, Option.bind_some, pure]
      refine ⟨{ p1 with deps := ds }, true, rfl, .inr ⟨rfl, trivial, ks, t1.imp (fun h => by omega), hne, t2, ?_⟩⟩
      have hf2 := mapM_forall₂ _ _ _ hds
      rw [hdeps] at hf2
      exact ⟨by show p1.npar = _; rw [u1], by show p1.hProps = _; rw [u1], u2, fun i => (u3 i).1, fun i => (u3 i).2, hf2⟩

section
variable {p p' : Prog} {b : Band} {ks : List Nat} (h : Waved p p' b ks) (hok : p.OK) (hf : b.loop.depth < p.hProps.length)
  (hks : b.loop.depth ∉ ks)
include h hok hf hks

theorem Waved.stmt {i : Nat} {st' : Stmt} (hi : p'.stmts[i]? = some st') :
    ∃ st : Stmt, p.stmts[i]? = some st ∧ st' = { st with trans := st'.trans } ∧ st'.trans.length = st.trans.length ∧
      ∀ r ∈ st'.trans, r.length = st.dim + p.npar + 1 := by
  by_cases c : i ∈ b.loop.stmts
  · obtain ⟨st, st1, h1, h2, h3⟩ := h.inside i c
    rw [hi] at h3; cases h3
    have hm := List.mem_of_getElem? h1
    obtain ⟨a1, a2, a3, _, _⟩ := wavefrontStmt_spec h2 hks (hok.stmts st hm).trans (by rw [hok.levels st hm]; exact hf)
    exact ⟨st, h1, a1, a2, a3⟩
  · rw [h.outside i c] at hi
    exact ⟨st', hi, rfl, rfl, (hok.stmts st' (List.mem_of_getElem? hi)).trans⟩

theorem Waved.dim (i : Nat) : p'.dim i = p.dim i := by
  by_cases c : i < p'.stmts.length
  · have gi := List.getElem?_eq_getElem c
    obtain ⟨st, h1, h2, _⟩ := h.stmt hok hf hks gi
    simp only [Prog.dim, gi, h1, Option.map_some, Option.getD_some]
    rw [h2]
  · have c' : ¬ i < p.stmts.length := by rw [← h.len]; exact c
    simp only [Prog.dim, List.getElem?_eq_none (by omega : p'.stmts.length ≤ i), List.getElem?_eq_none (by omega : p.stmts.length ≤ i)]

theorem Waved.sumAt : SumAt p p' b.loop.stmts b.loop.depth ks := by
  intro i hi x q
  obtain ⟨st, st', h1, h2, h3⟩ := h.inside i hi
  have hm := List.mem_of_getElem? h1
  obtain ⟨a1, a2, a3, a4, a5⟩ := wavefrontStmt_spec h2 hks (hok.stmts st hm).trans (by rw [hok.levels st hm]; exact hf)
  refine ⟨?_, fun l hl => ?_⟩
  · have := a5 (x ++ q)
    simpa only [Prog.phi, Prog.row, h1, h3, Option.bind_some, List.getD_eq_getElem?_getD] using this
  · simp only [Prog.phi, Prog.row, h1, h3, Option.bind_some, a4 l hl]

theorem Waved.phi_out {i : Nat} (hi : i ∉ b.loop.stmts) (l : Nat) (x q : List Int) : p'.phi i l x q = p.phi i l x q := by
  simp only [Prog.phi, Prog.row, h.outside i hi]

theorem Waved.phi_ne {i l : Nat} (hl : l ≠ b.loop.depth) (x q : List Int) : p'.phi i l x q = p.phi i l x q := by
  by_cases c : i ∈ b.loop.stmts
  · exact (h.sumAt hok hf hks i c x q).2 l hl
  · exact h.phi_out hok hf hks c l x q

theorem Waved.comp_ne {d : Dep} {l : Nat} (hl : l ≠ b.loop.depth) (s t q : List Int) : p'.comp d l s t q = p.comp d l s t q := by
  simp only [Prog.comp, h.phi_ne hok hf hks hl]

theorem Waved.comp_first {d : Dep} (h1 : d.src ∈ b.loop.stmts) (h2 : d.dest ∈ b.loop.stmts) (s t q : List Int) :
    p'.comp d b.loop.depth s t q = p.comp d b.loop.depth s t q + (ks.map (fun k => p.comp d k s t q)).sum := by
  simp only [Prog.comp, (h.sumAt hok hf hks _ h1 s q).1, (h.sumAt hok hf hks _ h2 t q).1]
  have : ∀ ks : List Nat, (ks.map (fun k => p.phi d.dest k t q - p.phi d.src k s q)).sum =
      (ks.map (fun k => p.phi d.dest k t q)).sum - (ks.map (fun k => p.phi d.src k s q)).sum := by
    intro ks
    induction ks with
    | nil => simp
    | cons k ks ih => simp only [List.map_cons, List.sum_cons, ih]; ring
  rw [this]; ring

theorem Waved.tied {d : Dep} {n : Nat} (hn : n ≤ b.loop.depth) (s t q : List Int) :
    p'.TiedBelow d n s t q ↔ p.TiedBelow d n s t q := by
  constructor <;> intro hh l hl
  · rw [← h.comp_ne hok hf hks (by omega)]; exact hh l hl
  · rw [h.comp_ne hok hf hks (by omega)]; exact hh l hl

/-- The same dependences, up to the satisfaction vector. -/
theorem Waved.dep {d' : Dep} (hd : d' ∈ p'.deps) : ∃ d ∈ p.deps, mergeDep b ks d = some d' ∧ d' = { d with satvec := d'.satvec } := by
  obtain ⟨n, hn, rfl⟩ := List.getElem_of_mem hd
  have hl := h.deps.length_eq
  have hD := (List.forall₂_iff_get.mp h.deps).2 n (by omega) hn
  simp only [List.get_eq_getElem] at hD
  refine ⟨_, List.getElem_mem (by omega), hD, ?_⟩
  unfold mergeDep at hD
  split_ifs at hD
  · simp only [Option.bind_eq_bind, Option.bind_eq_some_iff, pure, Option.some.injEq] at hD
    obtain ⟨v, _, e⟩ := hD
    rw [← e]
  · simp only [Option.some.injEq] at hD
    rw [← hD]

theorem Waved.ok : p'.OK := by
  refine ⟨fun st' hm => ?_, fun st' hm => ?_, fun d' hd => ?_⟩
  · obtain ⟨i, hi⟩ := List.getElem?_of_mem hm
    obtain ⟨st, h1, h2, h3, h4⟩ := h.stmt hok hf hks hi
    have o := hok.stmts st (List.mem_of_getElem? h1)
    rw [h.npar]
    have e1 : st'.domain = st.domain := by rw [h2]
    have e2 : st'.dim = st.dim := by rw [h2]
    have e3 : st'.hypTypes = st.hypTypes := by rw [h2]
    exact ⟨by rw [e1]; exact o.wf, by rw [e1, e2]; exact o.cols, by rw [e2]; exact h4, by rw [e3, h3]; exact o.types⟩
  · obtain ⟨i, hi⟩ := List.getElem?_of_mem hm
    obtain ⟨st, h1, h2, h3, h4⟩ := h.stmt hok hf hks hi
    rw [h3, h.levels]
    exact hok.levels st (List.mem_of_getElem? h1)
  · obtain ⟨d, hd0, _, e⟩ := h.dep hok hf hks hd
    obtain ⟨a1, a2, a3⟩ := hok.deps d hd0
    rw [e]
    refine ⟨by rw [h.len]; exact a1, by rw [h.len]; exact a2, ?_⟩
    refine ⟨a3.wf, ?_⟩
    show d.dpoly.ncols = p'.dim d.src + p'.dim d.dest + p'.npar + 1
    rw [h.dim hok hf hks, h.dim hok hf hks, h.npar]
    exact a3.cols

theorem Waved.inst {d' d : Dep} (e : d' = { d with satvec := d'.satvec }) {s t q : List Int} (hin : p'.Inst d' s t q) : p.Inst d s t q := by
  obtain ⟨a1, a2, a3, a4⟩ := hin
  rw [h.dim hok hf hks] at a1 a2
  rw [h.npar] at a3
  rw [e] at a1 a2 a4
  exact ⟨a1, a2, a3, a4⟩

omit h hok hf hks in
theorem comp_dep {d' d : Dep} (e : d' = { d with satvec := d'.satvec }) (l : Nat) (s t q : List Int) : p'.comp d' l s t q = p'.comp d l s t q := by
  rw [e]; rfl

end

theorem sum_zero {ks : List Nat} {g : Nat → Int} (hnn : ∀ k ∈ ks, 0 ≤ g k) {a : Int} (ha : 0 ≤ a) (h : a + (ks.map g).sum = 0) :
    a = 0 ∧ ∀ k ∈ ks, g k = 0 := by
  induction ks generalizing a with
  | nil => simp at h; exact ⟨h, by simp⟩
  | cons k ks ih =>
    simp only [List.map_cons, List.sum_cons] at h
    have hk := hnn k (by simp)
    obtain ⟨h1, h2⟩ := ih (fun k hk => hnn k (by simp [hk])) (a := a + g k) (by omega) (by omega)
    refine ⟨by omega, fun k' hk' => ?_⟩
    rcases List.mem_cons.mp hk' with rfl | hk'
    · omega
    · exact h2 k' hk'

theorem sum_nonneg' {ks : List Nat} {g : Nat → Int} (hnn : ∀ k ∈ ks, 0 ≤ g k) : 0 ≤ (ks.map g).sum := by
  induction ks with
  | nil => simp
  | cons k ks ih =>
    simp only [List.map_cons, List.sum_cons]
    have := hnn k (by simp)
    have := ih (fun k hk => hnn k (by simp [hk]))
    omega

/-- Pairs of the same wavefront are not separated by the loops that were added in. -/
theorem Waved.same {p p' : Prog} {b : Band} {ks : List Nat} (h : Waved p p' b ks) (hok : p.OK) (hleg : p.Legal)
    (hf : b.loop.depth < p.hProps.length) (hks : b.loop.depth ∉ ks)
    (hnn : ∀ d ∈ p.deps, d.rar = false → d.src ∈ b.loop.stmts → d.dest ∈ b.loop.stmts → ∀ s t q, p.Inst d s t q →
      p.TiedBelow d b.loop.depth s t q → ∀ k ∈ ks, 0 ≤ p.comp d k s t q)
    {d : Dep} (hd : d ∈ p.deps) (hr : d.rar = false) (h1 : d.src ∈ b.loop.stmts) (h2 : d.dest ∈ b.loop.stmts)
    {s t q : List Int} (hin : p.Inst d s t q) (htied : p.TiedBelow d b.loop.depth s t q)
    (h0 : p'.comp d b.loop.depth s t q = 0) : p.comp d b.loop.depth s t q = 0 ∧ ∀ k ∈ ks, p.comp d k s t q = 0 := by
  rw [h.comp_first hok hf hks h1 h2] at h0
  exact sum_zero (g := fun k => p.comp d k s t q) (hnn d hd hr h1 h2 s t q hin htied) (legal_first hok hleg hd hr hin hf htied) h0

theorem Waved.legal {p p' : Prog} {b : Band} {ks : List Nat} (h : Waved p p' b ks) (hok : p.OK) (hleg : p.Legal)
    (hf : b.loop.depth < p.hProps.length) (hks : b.loop.depth ∉ ks) (hsep : Separated p b)
    (hnn : ∀ d ∈ p.deps, d.rar = false → d.src ∈ b.loop.stmts → d.dest ∈ b.loop.stmts → ∀ s t q, p.Inst d s t q →
      p.TiedBelow d b.loop.depth s t q → ∀ k ∈ ks, 0 ≤ p.comp d k s t q) : p'.Legal := by
  have hok' := h.ok hok hf hks
  intro d' hd' hr' s t q e1 e2 e3 e4
  obtain ⟨d, hd, hm, e⟩ := h.dep hok hf hks hd'
  have hin : p.Inst d s t q := h.inst hok hf hks e ⟨e1, e2, e3, e4⟩
  have hr : d.rar = false := by rw [e] at hr'; exact hr'
  have es : d'.src = d.src := by rw [e]
  have et : d'.dest = d.dest := by rw [e]
  rw [es, et]
  obtain ⟨d1, d2, _⟩ := hok.deps d hd
  have gs := List.getElem?_eq_getElem d1
  have gt := List.getElem?_eq_getElem d2
  have ls := hok.levels _ (List.mem_of_getElem? gs)
  have lt := hok.levels _ (List.mem_of_getElem? gt)
  have gs' := List.getElem?_eq_getElem (show d.src < p'.stmts.length by rw [h.len]; exact d1)
  have gt' := List.getElem?_eq_getElem (show d.dest < p'.stmts.length by rw [h.len]; exact d2)
  have ls' := hok'.levels _ (List.mem_of_getElem? gs')
  have lt' := hok'.levels _ (List.mem_of_getElem? gt')
  rw [h.levels] at ls' lt'
  obtain ⟨k, x, y, k1, k2, k3, k4⟩ := hleg d hd hr s t q hin.hs hin.ht hin.hp hin.sat
  have hk : k < p.hProps.length := by
    have := (List.getElem?_eq_some_iff.mp k1).1
    rw [timestamp_eq gs] at this
    simpa [Stmt.time, ls] using this
  rw [timestamp_get gs (by omega)] at k1
  rw [timestamp_get gt (by omega)] at k2
  simp only [Option.some.injEq] at k1 k2
  have k5 : ∀ l < k, p.comp d l s t q = 0 := by
    intro l hl
    have := k4 l hl
    rw [timestamp_get gs (by omega), timestamp_get gt (by omega)] at this
    simp only [Option.some.injEq] at this
    unfold Prog.comp; omega
  -- a level where the new schedule separates the pair
  have key : ∀ k < p.hProps.length, 0 < p'.comp d k s t q → (∀ l < k, p'.comp d l s t q = 0) →
      LexBefore (p'.timestamp d.src s q) (p'.timestamp d.dest t q) := by
    intro k hk h1 h2
    refine ⟨k, p'.phi d.src k s q, p'.phi d.dest k t q, timestamp_get gs' (by omega) _ _, timestamp_get gt' (by omega) _ _, ?_, ?_⟩
    · unfold Prog.comp at h1; omega
    · intro l hl
      rw [timestamp_get gs' (by omega), timestamp_get gt' (by omega)]
      have := h2 l hl
      unfold Prog.comp at this
      congr 1; omega
  have hpos : 0 < p.comp d k s t q := by unfold Prog.comp; omega
  by_cases hkf : k < b.loop.depth
  · refine key k hk (by rw [h.comp_ne hok hf hks (by omega)]; exact hpos) (fun l hl => ?_)
    rw [h.comp_ne hok hf hks (by omega)]; exact k5 l hl
  have htied : p.TiedBelow d b.loop.depth s t q := fun l hl => k5 l (by omega)
  by_cases hin2 : d.src ∈ b.loop.stmts ↔ d.dest ∈ b.loop.stmts
  swap
  · exfalso
    obtain ⟨m, x, y, m1, m2, m3, m4⟩ := hsep d hd hr hin2 s t q hin.hs hin.ht hin.hp hin.sat
    have hml : m < b.loop.depth := by
      have := (List.getElem?_eq_some_iff.mp m1).1
      simp at this; omega
    rw [List.getElem?_take_of_lt hml, timestamp_get gs (by omega)] at m1
    rw [List.getElem?_take_of_lt hml, timestamp_get gt (by omega)] at m2
    simp only [Option.some.injEq] at m1 m2
    have := htied m hml
    unfold Prog.comp at this
    omega
  by_cases c1 : d.src ∈ b.loop.stmts
  · have c2 := hin2.mp c1
    have hc := hnn d hd hr c1 c2 s t q hin htied
    have hfirst := legal_first hok hleg hd hr hin hf htied
    have hsum := sum_nonneg' hc
    by_cases h0 : p'.comp d b.loop.depth s t q = 0
    · obtain ⟨z1, z2⟩ := h.same hok hleg hf hks hnn hd hr c1 c2 hin htied h0
      have hkne : k ≠ b.loop.depth := by rintro rfl; omega
      refine key k hk (by rw [h.comp_ne hok hf hks hkne]; exact hpos) (fun l hl => ?_)
      by_cases e : l = b.loop.depth
      · rw [e]; exact h0
      · rw [h.comp_ne hok hf hks e]; exact k5 l hl
    · refine key _ hf ?_ (fun l hl => ?_)
      · rw [h.comp_first hok hf hks c1 c2] at h0 ⊢
        omega
      · rw [h.comp_ne hok hf hks (by omega)]; exact htied l hl
  · have c2 : d.dest ∉ b.loop.stmts := fun c => c1 (hin2.mpr c)
    have hsame : ∀ l, p'.comp d l s t q = p.comp d l s t q := by
      intro l
      simp only [Prog.comp, h.phi_out hok hf hks c1, h.phi_out hok hf hks c2]
    exact key k hk (by rw [hsame]; exact hpos) (fun l hl => by rw [hsame]; exact k5 l hl)

/-! ### Parallel loops after the wavefront -/

theorem parallel_bit {p : Prog} {L : Loop} (h : loopIsParallel p L = some true) {d : Dep} (hd : d ∈ p.deps) (hr : d.rar = false)
    (hs : d.src ∈ L.stmts) (ht : d.dest ∈ L.stmts) : d.satvec[L.depth]? = some false := by
  unfold loopIsParallel at h
  simp only [Option.bind_eq_bind, Option.bind_eq_some_iff, pure, Option.some.injEq] at h
  obtain ⟨bs, hbs, hall⟩ := h
  have hf := mapM_forall₂ _ _ _ hbs
  have hm : d ∈ p.deps.filter (fun d => !d.rar && L.stmts.contains d.src && L.stmts.contains d.dest) := by
    simp [hd, hr, hs, ht]
  obtain ⟨k, hk⟩ := List.getElem?_of_mem hm
  obtain ⟨k1, k2⟩ := List.getElem?_eq_some_iff.mp hk
  have k3 : k < bs.length := by rw [← hf.length_eq]; exact k1
  have hg := hf.get k1 k3
  simp only [List.get_eq_getElem, k2] at hg
  have hb : bs[k] = false := by
    have := List.all_eq_true.mp hall bs[k] (List.getElem_mem _)
    simpa using this
  rw [hb] at hg
  exact hg

theorem parallel_of_bits {p : Prog} {L : Loop} {v : Bool} (h : loopIsParallel p L = some v)
    (hb : ∀ d ∈ p.deps, d.rar = false → d.src ∈ L.stmts → d.dest ∈ L.stmts → d.satvec[L.depth]? = some false) : v = true := by
  unfold loopIsParallel at h
  simp only [Option.bind_eq_bind, Option.bind_eq_some_iff, pure, Option.some.injEq] at h
  obtain ⟨bs, hbs, rfl⟩ := h
  have hf := mapM_forall₂ _ _ _ hbs
  rw [List.all_eq_true]
  intro x hx
  obtain ⟨k, hk, rfl⟩ := List.getElem_of_mem hx
  have k1 : k < (p.deps.filter (fun d => !d.rar && L.stmts.contains d.src && L.stmts.contains d.dest)).length := by
    rw [hf.length_eq]; exact hk
  have hg := hf.get k1 hk
  simp only [List.get_eq_getElem] at hg
  have hm := List.getElem_mem k1
  simp only [List.mem_filter, Bool.and_eq_true, Bool.not_eq_true', List.contains_iff_mem] at hm
  rw [hb _ hm.1 hm.2.1.1 hm.2.1.2 hm.2.2] at hg
  simp only [Option.some.injEq] at hg
  rw [← hg]; rfl

theorem bit_false {p : Prog} (hi : p.Info) {d : Dep} (hd : d ∈ p.deps) (hr : d.rar = false) {l : Nat}
    (hb : d.satvec[l]? = some false) {s t q : List Int} (hin : p.Inst d s t q) (htied : p.TiedBelow d l s t q) :
    p.comp d l s t q = 0 := by
  obtain ⟨v1, v2⟩ := hi.vec d hd hr
  have hl : l < p.hProps.length := by rw [← v1]; exact (List.getElem?_eq_some_iff.mp hb).1
  by_contra hne
  have hvt := (not_congr (v2 l hl)).mp (by rw [hb]; simp)
  refine hvt ⟨⟨s, t, q, hin, hne⟩, ?_⟩
  intro l' hl' hfull
  have := hfull s t q hin
  rw [htied l' hl'] at this
  omega

theorem Waved.parallel {p p' : Prog} {b : Band} {ks : List Nat} (h : Waved p p' b ks) (hok : p.OK) (hleg : p.Legal) (hi : p.Info)
    (hf : b.loop.depth < p.hProps.length) (hnd : ks.Nodup) (hgt : ∀ k ∈ ks, b.loop.depth < k) (hsep : Separated p b)
    (hnn : ∀ d ∈ p.deps, d.rar = false → d.src ∈ b.loop.stmts → d.dest ∈ b.loop.stmts → ∀ s t q, p.Inst d s t q →
      p.TiedBelow d b.loop.depth s t q → ∀ k ∈ ks, 0 ≤ p.comp d k s t q)
    (hseq : loopIsParallel p b.loop = some false)
    {L : Loop} (hL : L.depth = b.loop.depth → L = b.loop ∨ ∀ i ∈ L.stmts, i ∉ b.loop.stmts)
    (hpar : loopIsParallel p' L = some true) {d' : Dep} (hd' : d' ∈ p'.deps) (hr' : d'.rar = false)
    (hs' : d'.src ∈ L.stmts) (ht' : d'.dest ∈ L.stmts) {s t q : List Int} (hin' : p'.Inst d' s t q)
    (htied' : p'.TiedBelow d' L.depth s t q) : p'.comp d' L.depth s t q = 0 := by
  have hks : b.loop.depth ∉ ks := fun hc => by have := hgt _ hc; omega
  have hbit := parallel_bit hpar hd' hr' hs' ht'
  obtain ⟨d, hd, hm, e⟩ := h.dep hok hf hks hd'
  have hin : p.Inst d s t q := h.inst hok hf hks e hin'
  have hr : d.rar = false := by rw [e] at hr'; exact hr'
  have es : d'.src = d.src := by rw [e]
  have et : d'.dest = d.dest := by rw [e]
  rw [es] at hs'
  rw [et] at ht'
  rw [comp_dep e]
  have htied : ∀ l < L.depth, p'.comp d l s t q = 0 := fun l hl => by rw [← comp_dep e]; exact htied' l hl
  obtain ⟨d1, d2, _⟩ := hok.deps d hd
  have gs := List.getElem?_eq_getElem d1
  have gt := List.getElem?_eq_getElem d2
  have ls := hok.levels _ (List.mem_of_getElem? gs)
  have lt := hok.levels _ (List.mem_of_getElem? gt)
  by_cases c : d.src ∈ b.loop.stmts ∧ d.dest ∈ b.loop.stmts
  · obtain ⟨c1, c2⟩ := c
    have hv : mergeSatvec b.loop.depth ks d.satvec = some d'.satvec := by
      unfold mergeDep at hm
      rw [if_pos (by simp [hr, c1, c2])] at hm
      simp only [Option.bind_eq_bind, Option.bind_eq_some_iff, pure, Option.some.injEq] at hm
      obtain ⟨v, h1, h2⟩ := hm
      rw [h1, ← h2]
    obtain ⟨v1, v2, v3, v4⟩ := mergeSatvec_spec hv hks hnd
    rcases Nat.lt_trichotomy L.depth b.loop.depth with hlt | heq | hgt'
    · rw [h.comp_ne hok hf hks (by omega)]
      rw [v3 L.depth (by omega) (fun hc => by have := hgt _ hc; omega)] at hbit
      refine bit_false hi hd hr hbit hin (fun l hl => ?_)
      rw [← h.comp_ne hok hf hks (by omega)]
      exact htied l hl
    · exfalso
      rcases hL heq with rfl | hdis
      · have := parallel_of_bits hseq (fun e1 he1 r1 s1 t1 => by
          obtain ⟨n, hn, rfl⟩ := List.getElem_of_mem he1
          have hl := h.deps.length_eq
          have hD := (List.forall₂_iff_get.mp h.deps).2 n hn (by omega)
          simp only [List.get_eq_getElem] at hD
          unfold mergeDep at hD
          rw [if_pos (by simp [r1, s1, t1])] at hD
          simp only [Option.bind_eq_bind, Option.bind_eq_some_iff, pure, Option.some.injEq] at hD
          obtain ⟨v, k1, k2⟩ := hD
          have hlen : n < p'.deps.length := by omega
          have hb' := parallel_bit hpar (List.getElem_mem hlen) (by rw [← k2]; exact r1) (by rw [← k2]; exact s1) (by rw [← k2]; exact t1)
          rw [← k2] at hb'
          exact ((mergeSatvec_spec k1 hks hnd).2.2.2 hb' (by rw [(hi.vec _ he1 r1).1]; exact hf)).1)
        simp at this
      · exact hdis _ hs' c1
    · have hold : p.TiedBelow d b.loop.depth s t q := fun l hl => by
        rw [← h.comp_ne hok hf hks (by omega)]; exact htied l (by omega)
      obtain ⟨z1, z2⟩ := h.same hok hleg hf hks hnn hd hr c1 c2 hin hold (htied _ hgt')
      rw [h.comp_ne hok hf hks (by omega)]
      by_cases hk : L.depth ∈ ks
      · exact z2 _ hk
      · rw [v3 L.depth (by omega) hk] at hbit
        refine bit_false hi hd hr hbit hin (fun l hl => ?_)
        by_cases hl' : l = b.loop.depth
        · rw [hl']; exact z1
        · rw [← h.comp_ne hok hf hks hl']; exact htied l hl
  · have hdd : d' = d := by
      unfold mergeDep at hm
      rw [if_neg (by simp only [hr, Bool.not_false, Bool.true_and, Bool.and_eq_true, List.contains_iff_mem]; exact c)] at hm
      simpa using hm.symm
    rw [hdd] at hbit
    by_cases c2 : d.src ∈ b.loop.stmts ↔ d.dest ∈ b.loop.stmts
    · have o1 : d.src ∉ b.loop.stmts := fun x => c ⟨x, c2.mp x⟩
      have o2 : d.dest ∉ b.loop.stmts := fun x => c ⟨c2.mpr x, x⟩
      have hsame : ∀ l, p'.comp d l s t q = p.comp d l s t q := by
        intro l
        simp only [Prog.comp, h.phi_out hok hf hks o1, h.phi_out hok hf hks o2]
      rw [hsame]
      exact bit_false hi hd hr hbit hin (fun l hl => by rw [← hsame]; exact htied l hl)
    · have hle : L.depth < b.loop.depth ∨ b.loop.depth ≤ L.depth := by omega
      rcases hle with hlt | hge
      · rw [h.comp_ne hok hf hks (by omega)]
        refine bit_false hi hd hr hbit hin (fun l hl => ?_)
        rw [← h.comp_ne hok hf hks (by omega)]
        exact htied l hl
      · exfalso
        obtain ⟨m, x, y, m1, m2, m3, m4⟩ := hsep d hd hr c2 s t q hin.hs hin.ht hin.hp hin.sat
        have hml : m < b.loop.depth := by
          have := (List.getElem?_eq_some_iff.mp m1).1
          simp at this; omega
        rw [List.getElem?_take_of_lt hml, timestamp_get gs (by omega)] at m1
        rw [List.getElem?_take_of_lt hml, timestamp_get gt (by omega)] at m2
        simp only [Option.some.injEq] at m1 m2
        have := htied m (by omega)
        rw [h.comp_ne hok hf hks (by omega)] at this
        unfold Prog.comp at this
        omega

end Pluto
