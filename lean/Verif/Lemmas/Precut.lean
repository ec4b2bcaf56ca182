import Verif.Model.Precut
import Verif.Spec.Precut
import Verif.Lemmas.AutoMoves

/-! Custom fusion structure files: the invariant of the main loop holds after the rows of the file. -/

namespace Pluto

/-! ### Dependent pairs of the padded program -/

theorem aff_padRow' {ds dd a b : Nat} {r s z t y q : List Int} (hs : s.length = ds) (ht : t.length = dd)
    (hz : z.length = a - ds) (hy : y.length = b - dd) (hr : ds + dd ≤ r.length) :
    aff (padRow ds dd a b r) ((s ++ z) ++ (t ++ y) ++ q) = aff r (s ++ t ++ q) := by
  have e : r = r.take ds ++ (r.drop ds).take dd ++ r.drop (ds + dd) := by
    rw [List.append_assoc, ← List.drop_drop, List.take_append_drop, List.take_append_drop]
  unfold aff
  conv_rhs => rw [e]
  unfold padRow
  simp only [List.append_assoc]
  rw [dot_append _ _ _ _ (by simp [hs]; omega), dot_append _ _ _ _ (by simp [zrow, hz]),
    dot_append _ _ _ _ (by simp [ht]; omega), dot_append _ _ _ _ (by simp [zrow, hy]),
    dot_append _ _ _ _ (by simp [hs]; omega), dot_append _ _ _ _ (by simp [ht]; omega), dot_zrow, dot_zrow]
  simp

/-- A dependent pair of the padded program, cut to the loops of the input, is a dependent pair of the input. -/
theorem inst_unpad {p0 p : Prog} {m : Nat → Nat} (hp : p0.InputOK) (h : PadRel p0 m p) {d0 d : Dep} (h0 : d0 ∈ p0.deps)
    (hd : PadDep p0 m d0 d) {s t q : List Int} (hi : p.Inst d s t q) :
    p0.Inst d0 (s.take (p0.dim d.src)) (t.take (p0.dim d.dest)) q := by
  obtain ⟨a1, a2, a3, _⟩ := hp.deps d0 h0
  have g1 := h.ge a1
  have g2 := h.ge a2
  have hs := hi.hs
  have ht := hi.ht
  rw [hd.src, h.dim a1] at hs
  rw [hd.dest, h.dim a2] at ht
  unfold Prog.Inst
  rw [hd.src, hd.dest]
  refine ⟨by rw [List.length_take]; omega, by rw [List.length_take]; omega, by rw [hi.hp, h.npar], ?_⟩
  have hsat := hi.sat
  rw [hd.poly] at hsat
  intro r hr
  have hl := a3.1.2 r hr
  have hc := a3.2
  have := hsat _ (List.mem_map_of_mem hr)
  unfold Row.Sat at this ⊢
  have e := aff_padRow' (ds := p0.dim d0.src) (dd := p0.dim d0.dest) (a := m d0.src) (b := m d0.dest) (r := r.val)
    (s := s.take (p0.dim d0.src)) (z := s.drop (p0.dim d0.src)) (t := t.take (p0.dim d0.dest)) (y := t.drop (p0.dim d0.dest))
    (q := q) (by rw [List.length_take]; omega) (by rw [List.length_take]; omega) (by rw [List.length_drop]; omega)
    (by rw [List.length_drop]; omega) (by omega)
  rw [List.take_append_drop, List.take_append_drop] at e
  simp only at this
  rw [e] at this
  exact this

/-! ### The rows of a file -/

/-- `p4` is `p3` with the schedule rows `R i` for statement `i`, `m` of them. -/
structure Given (p3 p4 : Prog) (m : Nat) (R : Nat → List (List Int)) : Prop where
  sk : skel p4 = skel p3
  deps : p4.deps = p3.deps
  hlen : p4.hProps.length = m
  trans : ∀ (i : Nat) st, p4.stmts[i]? = some st → st.trans = R i
  len : ∀ i < p3.stmts.length, (R i).length = m

/-- Rows that are not wrong: right length, zero for padding loops. -/
def RowsFit (p0 : Prog) (R : Nat → List (List Int)) : Prop :=
  ∀ i < p0.stmts.length, ∀ r ∈ R i, r.length = p0.nvar + p0.npar + 1 ∧ ∀ j, p0.dim i ≤ j → j < p0.nvar → coef r j = 0

/-- Rows of the file before padding. -/
def rowTime (p0 : Prog) (R : Nat → List (List Int)) (i : Nat) (x q : List Int) : List Int :=
  (R i).map (fun r => aff (cutRow (p0.dim i) p0.nvar r) (x ++ q))

theorem not_lexBefore_cases {m : Nat} (a b : List Int) (ha : a.length = m) (hb : b.length = m) (h : ¬ LexBefore b a) :
    (∃ l < m, a.getD l 0 < b.getD l 0 ∧ ∀ l' < l, a.getD l' 0 = b.getD l' 0) ∨ ∀ l < m, a.getD l 0 = b.getD l 0 := by
  by_cases hall : ∀ l < m, a.getD l 0 = b.getD l 0
  · exact .inr hall
  · left
    push Not at hall
    classical
    have hex : ∃ l, l < m ∧ a.getD l 0 ≠ b.getD l 0 := by
      obtain ⟨l, h1, h2⟩ := hall
      exact ⟨l, h1, h2⟩
    obtain ⟨hl, hne⟩ := Nat.find_spec hex
    have hmin : ∀ l' < Nat.find hex, a.getD l' 0 = b.getD l' 0 := by
      intro l' hl'
      have := Nat.find_min hex hl'
      by_contra hc
      exact this ⟨by omega, hc⟩
    refine ⟨Nat.find hex, hl, ?_, hmin⟩
    by_contra hc
    apply h
    refine ⟨Nat.find hex, b.getD (Nat.find hex) 0, a.getD (Nat.find hex) 0, ?_, ?_, by omega, ?_⟩
    · rw [List.getD_eq_getElem?_getD, List.getElem?_eq_getElem (by omega), Option.getD_some]
    · rw [List.getD_eq_getElem?_getD, List.getElem?_eq_getElem (by omega), Option.getD_some]
    · intro l' hl'
      have := hmin l' hl'
      rw [List.getD_eq_getElem?_getD, List.getD_eq_getElem?_getD, List.getElem?_eq_getElem (by omega),
        List.getElem?_eq_getElem (by omega)] at this
      rw [List.getElem?_eq_getElem (by omega), List.getElem?_eq_getElem (by omega)]
      simpa using this.symm

section
variable {X : Prop} {p0 p3 p4 : Prog} {m : Nat} {R : Nat → List (List Int)}

theorem Given.stmts_len (h : Given p3 p4 m R) : p4.stmts.length = p3.stmts.length := by
  have := congrArg (fun p : Prog => p.stmts.length) h.sk
  simpa [skel] using this

/-- A row of the file at an instance of the padded program. -/
theorem Given.phi (h : Given p3 p4 m R) (hpad : PadRel p0 (fun _ => p0.nvar) p3) (hR : RowsFit p0 R) {i : Nat}
    (hi : i < p0.stmts.length) {x q : List Int} (hx : x.length = p0.nvar) (hq : q.length = p0.npar) {l : Nat} (hl : l < m) :
    p4.phi i l x q = (rowTime p0 R i (x.take (p0.dim i)) q).getD l 0 := by
  have hi4 : i < p4.stmts.length := by rw [h.stmts_len, hpad.len]; exact hi
  have ht := h.trans i _ (List.getElem?_eq_getElem hi4)
  have hn := h.len i (by rw [hpad.len]; exact hi)
  have hl' : l < (R i).length := by omega
  unfold Prog.phi Prog.row rowTime
  rw [List.getElem?_eq_getElem hi4]
  simp only [Option.bind_some]
  rw [ht, List.getElem?_eq_getElem hl', Option.getD_some, List.getD_eq_getElem?_getD, List.getElem?_map,
    List.getElem?_eq_getElem hl', Option.map_some, Option.getD_some]
  have hge := hpad.ge hi
  obtain ⟨r1, r2⟩ := hR i hi _ (List.getElem_mem hl')
  have e := aff_cutRow (d := p0.dim i) (e := p0.nvar) (r := (R i)[l]) (x := x.take (p0.dim i)) (z := x.drop (p0.dim i)) (q := q)
    (by rw [List.length_take]; omega) (by rw [List.length_drop]; omega) (by omega) r2
  rw [List.take_append_drop] at e
  exact e.symm

theorem Given.inv (h : Given p3 p4 m R) (hp : p0.InputOK) (hpad : PadRel p0 (fun _ => p0.nvar) p3)
    (hf : Fresh (fun _ => p0.nvar) p3) (hR : RowsFit p0 R)
    (hleg : X → ∀ d ∈ p0.deps, d.rar = false → ∀ s t q, p0.Inst d s t q →
      ¬ LexBefore (rowTime p0 R d.dest t q) (rowTime p0 R d.src s q)) : Inv X (skel p3) p4 := by
  have hpad4 : PadRel p0 (fun _ => p0.nvar) p4 := hpad.skel h.sk
  refine ⟨h.sk, ?_, ?_⟩
  · intro st hst
    obtain ⟨i, hi, rfl⟩ := List.getElem_of_mem hst
    have hi0 : i < p0.stmts.length := by rw [← hpad4.len]; exact hi
    have ht := h.trans i _ (List.getElem?_eq_getElem hi)
    obtain ⟨st', g1, g2⟩ := hpad4.get (List.getElem?_eq_getElem hi0)
    rw [List.getElem?_eq_getElem hi, Option.some.injEq] at g1
    subst g1
    rw [ht, h.hlen, hpad4.nvar, hpad4.npar]
    refine ⟨h.len i (by rw [hpad.len]; exact hi0), ?_⟩
    intro r hr
    obtain ⟨r1, r2⟩ := hR i hi0 r hr
    refine ⟨r1, fun j hj1 hj2 => r2 j ?_ hj2⟩
    have := (hp.stmts _ (List.getElem_mem hi0)).1
    rw [g2.orig, ← this, ← Prog.dim_of (List.getElem?_eq_getElem hi0)] at hj1
    exact hj1
  · intro hX d hd hr s t q hinst
    obtain ⟨d0, h0, hpd⟩ := hpad4.dep_mem hd
    obtain ⟨a1, a2, _⟩ := hp.deps d0 h0
    have hsatf : d.satisfied = false := (hf.deps d (by rw [← h.deps]; exact hd)).1
    have hi0 := inst_unpad hp hpad4 h0 hpd hinst
    have hl := hleg hX d0 h0 (by rw [← hpd.rar]; exact hr) _ _ _ hi0
    rw [← hpd.src, ← hpd.dest] at hl
    have b1 : d.src < p0.stmts.length := by rw [hpd.src]; exact a1
    have b2 : d.dest < p0.stmts.length := by rw [hpd.dest]; exact a2
    have hs := hinst.hs
    have ht := hinst.ht
    have hq := hinst.hp
    rw [hpad4.dim b1] at hs
    rw [hpad4.dim b2] at ht
    rw [hpad4.npar] at hq
    have hc := not_lexBefore_cases (m := m) _ _
      (by simp only [rowTime, List.length_map]; exact h.len _ (by rw [hpad.len]; exact b1))
      (by simp only [rowTime, List.length_map]; exact h.len _ (by rw [hpad.len]; exact b2)) hl
    have e1 : ∀ l < m, p4.comp d l s t q = (rowTime p0 R d.dest (t.take (p0.dim d.dest)) q).getD l 0 -
        (rowTime p0 R d.src (s.take (p0.dim d.src)) q).getD l 0 := by
      intro l hl
      unfold Prog.comp
      rw [h.phi hpad hR b1 hs hq hl, h.phi hpad hR b2 ht hq hl]
    rcases hc with ⟨l, hlm, c1, c2⟩ | hc
    · left
      refine ⟨l, by rw [h.hlen]; exact hlm, ?_, ?_⟩
      · rw [e1 l hlm]; omega
      · intro l' hl'
        rw [e1 l' (by omega)]
        have := c2 l' hl'
        omega
    · right
      refine ⟨hsatf, ?_⟩
      intro l hl'
      rw [h.hlen] at hl'
      rw [e1 l hl']
      have := hc l hl'
      omega

/-! ### The rows of the file stay -/

/-- Every schedule starts with the rows `R`. -/
def KeepsRows (R : Nat → List (List Int)) (p : Prog) : Prop :=
  ∀ (i : Nat) st, p.stmts[i]? = some st → R i <+: st.trans

theorem keepsRows_moves (isEmpty : Cst → Bool) (k : Prog) (R : Nat → List (List Int)) :
    Moves isEmpty k True False (KeepsRows R) := by
  have hstm : ∀ {p p' : Prog}, (∀ i : Nat, p'.stmts[i]? = p.stmts[i]?) → KeepsRows R p → KeepsRows R p' := by
    intro p p' h hI i st hs
    rw [h] at hs
    exact hI i st hs
  refine ⟨?_, ?_, ?_, ?_, ?_⟩
  · intro p sol _ hI _ _ i st hs
    unfold addHyperplane at hs
    simp only [List.getElem?_mapIdx] at hs
    obtain ⟨st0, h0, rfl⟩ := Option.map_eq_some_iff.mp hs
    exact (hI i st0 h0).trans (List.prefix_append _ _)
  · intro p f c _ hI _ _ i st hs
    unfold addScalarRows at hs
    simp only [List.getElem?_mapIdx] at hs
    obtain ⟨st0, h0, rfl⟩ := Option.map_eq_some_iff.mp hs
    exact (hI i st0 h0).trans (List.prefix_append _ _)
  · intro p p' l n _ hI _ h
    refine hstm (fun i => ?_) hI
    unfold depSatUpdate at h
    simp only [Option.bind_eq_bind, Option.bind_eq_some_iff, Option.pure_def, Option.some.injEq, Prod.mk.injEq] at h
    obtain ⟨ds, _, rfl, _⟩ := h
    rfl
  · intro p ds _ hI _
    exact hI
  · intro _ p p' n _ hI h
    refine hstm (fun i => ?_) hI
    unfold computeDepSatisfactionPrecise at h
    simp only [Option.bind_eq_bind, Option.bind_eq_some_iff, Option.pure_def, Option.some.injEq, Prod.mk.injEq] at h
    obtain ⟨_, _, rfl, _⟩ := h
    rfl

end

end Pluto
