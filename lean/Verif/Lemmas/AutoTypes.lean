import Verif.Lemmas.AutoMoves
import Verif.Lemmas.Edit

/-! Types of rows and levels that satisfy dependences in the result of the automatic transformation. -/

namespace Pluto

theorem take_zero_iff (r : List Int) (n : Nat) : (∀ v ∈ r.take n, v = 0) ↔ ∀ j < n, coef r j = 0 := by
  unfold coef
  constructor
  · intro h j hj
    rw [List.getD_eq_getElem?_getD]
    cases hc : r[j]? with
    | none => rfl
    | some v =>
      refine h v ?_
      have : (r.take n)[j]? = some v := by rw [List.getElem?_take_of_lt hj, hc]
      exact List.mem_of_getElem? this
  · intro h v hv
    obtain ⟨j, hj, rfl⟩ := List.getElem_of_mem hv
    have hj' : j < n := by rw [List.length_take] at hj; omega
    have hjr : j < r.length := by rw [List.length_take] at hj; omega
    have := h j hj'
    rw [List.getD_eq_getElem?_getD, List.getElem?_eq_getElem hjr] at this
    simpa using this

/-- The type of the row says whether it involves iterators, and it involves no parameters. -/
def RowTyped (nvar npar : Nat) (r : List Int) (ty : HypType) : Prop :=
  (ty = .scalar ↔ ∀ j < nvar, coef r j = 0) ∧ ∀ j, nvar ≤ j → j < nvar + npar → coef r j = 0

def Typed (p : Prog) : Prop := ∀ st ∈ p.stmts, List.Forall₂ (RowTyped p.nvar p.npar) st.trans st.hypTypes

theorem typed_moves {isEmpty : Cst → Bool} (hE : EmptyOracle isEmpty) {k : Prog} (hk : SkelOK k) : Moves isEmpty k True False Typed where
  hyper := by
    intro p sol hi hT hs _ st' hst'
    unfold addHyperplane at hst' ⊢
    obtain ⟨j, hj, rfl⟩ := List.mem_mapIdx.mp hst'
    have hm := List.getElem_mem hj
    refine List.rel_append (hT _ hm) (.cons ⟨?_, ?_⟩ .nil)
    · rw [(hk.stmt hi.sk hm).1]
      rw [← take_zero_iff]
      split_ifs with hc
      · simp only [List.all_eq_true, decide_eq_true_eq] at hc
        exact ⟨fun _ => hc, fun _ => rfl⟩
      · simp only [List.all_eq_true, decide_eq_true_eq] at hc
        exact ⟨fun h => (by cases h), fun h => absurd h hc⟩
    · intro i h1 h2
      exact (C39_row_zero p sol hs.len hs.pad j _ (List.getElem?_eq_getElem hj) i).2 h1 h2
  scalar := by
    intro p f c _ hT _ _ st' hst'
    unfold addScalarRows at hst' ⊢
    obtain ⟨j, hj, rfl⟩ := List.mem_mapIdx.mp hst'
    refine List.rel_append (hT _ (List.getElem_mem hj)) ?_
    rw [List.forall₂_map_right_iff, List.forall₂_map_left_iff, List.forall₂_same]
    intro v _
    have hz : ∀ i < p.nvar + p.npar, coef (zrow (p.nvar + p.npar) ++ [v]) i = 0 :=
      fun i hi => coef_append_zrow _ _ _ hi
    exact ⟨⟨fun _ i hi => hz i (by omega), fun _ => rfl⟩, fun i _ h2 => hz i h2⟩
  update := by
    intro p p' l n hi hT hl h
    obtain ⟨_, e, _⟩ := hi.update hE hk hl h
    rw [e]; exact hT
  drop := by
    intro p ds _ hT _
    exact hT
  precise := by
    intro _ p p' n hi hT h
    obtain ⟨_, e, _⟩ := hi.precise hE hk h
    rw [e]; exact hT

theorem typed_fresh (m : Nat → Nat) (p : Prog) (h : Fresh m p) : Typed p := by
  intro st hst
  rw [(h.trans st hst).1, (h.trans st hst).2]
  exact .nil

/-- Every dependence is separated by one level and has no negative component outside it, or is unsatisfied
and has no negative component. -/
def Steps (p : Prog) : Prop :=
  ∀ d ∈ p.deps, d.rar = false →
    (∃ l0 < p.hProps.length, (∀ s t q, p.Inst d s t q → 1 ≤ p.comp d l0 s t q) ∧
      ∀ l < l0, ∀ s t q, p.Inst d s t q → 0 ≤ p.comp d l s t q) ∨
    (d.satisfied = false ∧ ∀ l < p.hProps.length, ∀ s t q, p.Inst d s t q → 0 ≤ p.comp d l s t q)

theorem Steps.append {k p p' : Prog} {f : Nat → List Int} (hk : SkelOK k) (hi : Inv True k p) (h : Appended p p' f) (hS : Steps p)
    (hleg : ∀ d ∈ p.deps, d.rar = false → d.satisfied = false → ∀ s t q, p.Inst d s t q →
      aff (f d.src) (s ++ q) ≤ aff (f d.dest) (t ++ q)) : Steps p' := by
  have hl : ∀ st ∈ p.stmts, st.trans.length = p.hProps.length := fun st hs => (hi.rows st hs).1
  intro d hd hrar
  rw [h.deps] at hd
  simp only [h.inst]
  rw [h.hlen]
  rcases hS d hd hrar with ⟨l0, h0, h1, h2⟩ | ⟨h1, h2⟩
  · refine .inl ⟨l0, by omega, fun s t q hin => ?_, fun l hlt s t q hin => ?_⟩
    · rw [h.comp_lt hl h0]; exact h1 s t q hin
    · rw [h.comp_lt hl (by omega)]; exact h2 l hlt s t q hin
  · refine .inr ⟨h1, fun l hlt s t q hin => ?_⟩
    by_cases hc : l < p.hProps.length
    · rw [h.comp_lt hl hc]; exact h2 l hc s t q hin
    · have : l = p.hProps.length := by omega
      subst this
      have hok := hk.dep hi.sk hd
      unfold Prog.comp Prog.phi
      rw [h.row_last hl hok.src, h.row_last hl hok.dest]
      have := hleg d hd hrar h1 s t q hin
      omega

theorem comp_skel {p : Prog} {d d' : Dep} (h : skelDep d' = skelDep d) (l : Nat) (s t q : List Int) :
    p.comp d' l s t q = p.comp d l s t q := by
  unfold Prog.comp
  rw [skel_src h, skel_dest h]

theorem Steps.flags {p : Prog} (hS : Steps p) {ds : List Dep}
    (h : List.Forall₂ (fun d d' : Dep => skelDep d' = skelDep d ∧
      (d.rar = false → d.satisfied = false → d'.satisfied = true →
        ∃ l0 < p.hProps.length, ∀ s t q, p.Inst d s t q → 1 ≤ p.comp d l0 s t q)) p.deps ds) :
    Steps { p with deps := ds } := by
  intro d' hd' hrar
  obtain ⟨j, hj, rfl⟩ := List.getElem_of_mem hd'
  have hf := List.forall₂_iff_get.mp h
  have hj' : j < p.deps.length := by rw [hf.1]; exact hj
  obtain ⟨h1, h2⟩ := hf.2 j hj' hj
  simp only [List.get_eq_getElem] at h1 h2
  have e := congrArg Dep.rar h1
  have hr : p.deps[j].rar = false := e.symm.trans hrar
  have e1 : ∀ s t q, ({ p with deps := ds } : Prog).Inst ds[j] s t q ↔ p.Inst p.deps[j] s t q :=
    fun s t q => inst_skel (p := p) h1 s t q
  have e2 : ∀ l s t q, ({ p with deps := ds } : Prog).comp ds[j] l s t q = p.comp p.deps[j] l s t q :=
    fun l s t q => comp_skel (p := p) h1 l s t q
  simp only [e1, e2]
  rcases hS _ (List.getElem_mem hj') hr with hx | ⟨hx1, hx2⟩
  · exact .inl hx
  · by_cases hs : ds[j].satisfied = true
    · obtain ⟨l0, g1, g2⟩ := h2 hr hx1 hs
      exact .inl ⟨l0, g1, g2, fun l hl => hx2 l (by omega)⟩
    · exact .inr ⟨by simpa using hs, hx2⟩

theorem steps_moves {isEmpty : Cst → Bool} (hE : EmptyOracle isEmpty) {k : Prog} (hk : SkelOK k) : Moves isEmpty k False False Steps where
  hyper := by
    intro p sol hi hS hs _
    exact hS.append hk hi (addHyperplane_appended p sol) hs.legal
  scalar := by
    intro p f c hi hS hf hm
    refine hS.append hk hi (scalar_appended f c hf) ?_
    intro d hd hr hs s t q hinst
    have hn := hk.dep hi.sk hd
    have h1 := hinst.hs
    have h2 := hinst.ht
    rw [hk.dim hi.sk hn.src] at h1
    rw [hk.dim hi.sk hn.dest] at h2
    rw [aff_scalar _ _ (by rw [List.length_append, h1, hinst.hp]),
      aff_scalar _ _ (by rw [List.length_append, h2, hinst.hp])]
    exact hm d ⟨hd, hr, hs, s, t, q, hinst⟩
  update := by
    intro p p' l n hi hS hl h
    obtain ⟨e, hf, _⟩ := C12_update hE p p' n (hi.transOK hk) (fun d hd => hk.fits hi.sk hd) l h
    rw [e]
    refine hS.flags (hf.imp ?_)
    rintro d d' ⟨a1, a2, _⟩
    refine ⟨by rw [a1]; rfl, fun _ h0 h1 => ⟨l, hl, ?_⟩⟩
    rcases a2.mp h1 with h2 | h2
    · rw [h0] at h2; cases h2
    · exact h2
  drop := by
    intro p ds _ hS hf
    refine hS.flags (hf.imp ?_)
    rintro d d' ⟨a1, a2⟩
    refine ⟨a1, fun hr h0 h1 => ?_⟩
    rw [a2 hr, h0] at h1; cases h1
  precise := by
    intro h; exact h.elim

theorem steps_fresh (m : Nat → Nat) (p : Prog) (h : Fresh m p) (h0 : p.hProps = []) : Steps p := by
  intro d hd _
  refine .inr ⟨(h.deps d hd).1, ?_⟩
  rw [h0]
  intro l hl
  simp at hl

end Pluto
