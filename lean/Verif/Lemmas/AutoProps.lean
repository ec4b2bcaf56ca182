import Verif.Lemmas.AutoEnd

/-! Lemmas for the theorems about cuts. -/

namespace Pluto

section
variable {p : Prog}

theorem comp_scalar {p' : Prog} {c : Nat → Int}
    (h : Appended p p' (fun i => zrow (p.nvar + p.npar) ++ [c i]))
    (hl : ∀ st ∈ p.stmts, st.trans.length = p.hProps.length ∧ st.dim = p.nvar) {d : Dep}
    (h1 : d.src < p.stmts.length) (h2 : d.dest < p.stmts.length) {s t q : List Int} (hi : p.Inst d s t q) :
    p'.comp d p.hProps.length s t q = c d.dest - c d.src := by
  have hd : ∀ i < p.stmts.length, p.dim i = p.nvar := by
    intro i hi
    rw [Prog.dim_of (List.getElem?_eq_getElem hi)]
    exact (hl _ (List.getElem_mem hi)).2
  have hs := hi.hs
  have ht := hi.ht
  rw [hd _ h1] at hs
  rw [hd _ h2] at ht
  unfold Prog.comp Prog.phi
  rw [h.row_last (fun st hst => (hl st hst).1) h1, h.row_last (fun st hst => (hl st hst).1) h2,
    aff_scalar _ _ (by rw [List.length_append, ht, hi.hp]), aff_scalar _ _ (by rw [List.length_append, hs, hi.hp])]

theorem comp_deps {ds : List Dep} (d : Dep) (l : Nat) (s t q : List Int) :
    ({ p with deps := ds } : Prog).comp d l s t q = p.comp d l s t q := rfl

end

/-- Satisfaction update at a fresh scalar row. -/
theorem scalar_cut {isEmpty : Cst → Bool} (hE : EmptyOracle isEmpty) {p p2 : Prog} {n : Nat} (hp : p.Padded)
    (hd : ∀ d ∈ p.deps, d.src < p.stmts.length ∧ d.dest < p.stmts.length ∧ p.DepFits d)
    (f : Nat → List Int) (c : Nat → Int) (hf : ∀ i < p.stmts.length, f i = [c i])
    (h : satUpdateLast isEmpty (addScalarRows p f) = some (p2, n)) :
    p2 = { addScalarRows p f with deps := p2.deps } ∧
    (∀ d ∈ p.deps, ∀ s t q, p.Inst d s t q → p2.comp d p.hProps.length s t q = c d.dest - c d.src) ∧
    (∀ d : Dep, ∀ l < p.hProps.length, ∀ s t q, p2.comp d l s t q = p.comp d l s t q) ∧
    List.Forall₂ (fun d d' : Dep => d' = { d with satisfied := d'.satisfied, satLevel := d'.satLevel } ∧
      (d'.satisfied = true ↔ d.satisfied = true ∨ ∀ s t q, p.Inst d s t q → 1 ≤ c d.dest - c d.src))
      p.deps p2.deps ∧
    n = ((p.deps.zip p2.deps).filter (fun x => !x.1.satisfied && x.2.satisfied && !x.1.rar)).length := by
  have hap := scalar_appended (p := p) f c hf
  have hl : ∀ st ∈ p.stmts, st.trans.length = p.hProps.length ∧ st.dim = p.nvar := fun st hs =>
    ⟨(hp st hs).2.2.2.2, (hp st hs).2.1⟩
  have hT : (addScalarRows p f).TransOK := by
    intro st hst r hr
    obtain ⟨i, hi, rfl⟩ := List.getElem_of_mem hst
    have hi' : i < p.stmts.length := by rw [← hap.len]; exact hi
    have e : (addScalarRows p f).stmts[i] = { p.stmts[i] with
        trans := p.stmts[i].trans ++ [zrow (p.nvar + p.npar) ++ [c i]],
        hypTypes := p.stmts[i].hypTypes ++ [HypType.scalar] } := by
      simp [addScalarRows, hf i hi']
    rw [e] at hr ⊢
    obtain ⟨_, b2, _, b4, _⟩ := hp _ (List.getElem_mem hi')
    show r.length = p.stmts[i].dim + p.npar + 1
    rw [b2]
    rcases List.mem_append.mp hr with h' | h'
    · exact b4 r h'
    · rw [List.mem_singleton] at h'
      rw [h']; simp [zrow]
  have hF : ∀ d ∈ (addScalarRows p f).deps, (addScalarRows p f).DepFits d := by
    intro d hd'
    obtain ⟨_, _, h3⟩ := hd d hd'
    refine ⟨h3.1, ?_⟩
    rw [hap.dim, hap.dim, hap.npar]
    exact h3.2
  unfold satUpdateLast at h
  rw [Option.bind_eq_bind, Option.bind_eq_some_iff] at h
  obtain ⟨st, hs, h⟩ := h
  have hlen : st.trans.length = p.hProps.length + 1 := by
    have ht := hap.trans 0
    rw [hs, Option.map_some] at ht
    obtain ⟨st0, g1, g2⟩ := Option.map_eq_some_iff.mp ht.symm
    rw [← g2]
    simp [(hl st0 (List.mem_of_getElem? g1)).1]
  rw [if_neg (by omega), hlen, Nat.add_sub_cancel] at h
  obtain ⟨e, hfa, hn⟩ := C12_update hE _ p2 n hT hF _ h
  have hcomp : ∀ d ∈ p.deps, ∀ s t q, p.Inst d s t q →
      (addScalarRows p f).comp d p.hProps.length s t q = c d.dest - c d.src := by
    intro d hd' s t q hi
    exact comp_scalar hap hl (hd d hd').1 (hd d hd').2.1 hi
  refine ⟨e, ?_, ?_, ?_, hn⟩
  · intro d hd' s t q hi
    rw [e]
    exact hcomp d hd' s t q hi
  · intro d l hl' s t q
    rw [e]
    exact hap.comp_lt (fun st hst => (hl st hst).1) hl'
  · rw [List.forall₂_iff_get] at hfa ⊢
    refine ⟨hfa.1, fun j h1 h2 => ?_⟩
    obtain ⟨a1, a2, _⟩ := hfa.2 j h1 h2
    refine ⟨a1, a2.trans ?_⟩
    have hm : (p.deps.get ⟨j, h1⟩) ∈ p.deps := List.get_mem _ _
    constructor
    · rintro (h | h)
      · exact .inl h
      · refine .inr (fun s t q hi => ?_)
        have := h s t q ((hap.inst _ s t q).mpr hi)
        rw [← hcomp _ hm s t q hi]; exact this
    · rintro (h | h)
      · exact .inl h
      · refine .inr (fun s t q hi => ?_)
        have hi' := (hap.inst _ s t q).mp hi
        have := hcomp _ hm s t q hi'
        have h' := h s t q hi'
        exact this ▸ h'

/-- After `keepIfUseful`: the row is kept iff it satisfies a dependence; otherwise schedules and
hyperplane types are as before. -/
theorem keep_cut {isEmpty : Cst → Bool} (hE : EmptyOracle isEmpty) {a a' : Auto} {n : Nat} (hp : a.p.Padded)
    (hd : ∀ d ∈ a.p.deps, d.src < a.p.stmts.length ∧ d.dest < a.p.stmts.length ∧ a.p.DepFits d)
    (f : Nat → List Int) (c : Nat → Int) (hf : ∀ i < a.p.stmts.length, f i = [c i])
    (h : a.keepIfUseful isEmpty (addScalarRows a.p f) = some (a', n)) :
    (n = 0 → a'.p = { a.p with deps := a'.p.deps }) ∧
    (1 ≤ n → a'.p = { addScalarRows a.p f with deps := a'.p.deps } ∧
      ∀ d ∈ a.p.deps, ∀ s t q, a.p.Inst d s t q → a'.p.comp d a.p.hProps.length s t q = c d.dest - c d.src) ∧
    (∀ d : Dep, ∀ l < a.p.hProps.length, ∀ s t q, a'.p.comp d l s t q = a.p.comp d l s t q) ∧
    List.Forall₂ (fun d d' : Dep => d' = { d with satisfied := d'.satisfied, satLevel := d'.satLevel } ∧
      (d'.satisfied = true ↔ d.satisfied = true ∨ ∀ s t q, a.p.Inst d s t q → 1 ≤ c d.dest - c d.src))
      a.p.deps a'.p.deps ∧
    n = ((a.p.deps.zip a'.p.deps).filter (fun x => !x.1.satisfied && x.2.satisfied && !x.1.rar)).length := by
  unfold Auto.keepIfUseful at h
  rw [Option.bind_eq_bind, Option.bind_eq_some_iff] at h
  obtain ⟨⟨p2, m⟩, h1, h⟩ := h
  obtain ⟨b1, b2, b3, b4, b5⟩ := scalar_cut hE hp hd f c hf h1
  simp only at h
  split_ifs at h with hm
  · simp only [Option.pure_def, Option.some.injEq, Prod.mk.injEq] at h
    obtain ⟨h2, h3⟩ := h
    subst h3
    rw [← h2]
    exact ⟨by omega, fun _ => ⟨b1, b2⟩, b3, b4, b5⟩
  · simp only [Option.pure_def, Option.some.injEq, Prod.mk.injEq] at h
    obtain ⟨h2, h3⟩ := h
    subst h3
    have e : dropLastRow p2 = { a.p with deps := p2.deps } := by
      conv_lhs => rw [b1]
      exact drop_scalar f c hf p2.deps
    rw [e] at h2
    rw [← h2]
    exact ⟨fun _ => rfl, by omega, fun _ _ _ _ _ _ => rfl, b4, b5⟩

end Pluto
