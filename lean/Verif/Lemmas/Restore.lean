import Verif.Lemmas.AutoProps

/-! Padding and unpadding in terms of points. -/

namespace Pluto

theorem sameShape_skel {p p' : Prog} (h : SameShape p p') : skel p' = skel p := by
  have h1 : p'.stmts.map skelStmt = p.stmts.map skelStmt := by
    have := h.stmts
    generalize p.stmts = l at this
    generalize p'.stmts = l' at this
    induction this with
    | nil => rfl
    | cons hx _ ih =>
      rw [List.map_cons, List.map_cons, ih, hx]
      rfl
  have h2 : p'.deps.map skelDep = p.deps.map skelDep := by
    have := h.deps
    generalize p.deps = l at this
    generalize p'.deps = l' at this
    induction this with
    | nil => rfl
    | cons hx _ ih =>
      rw [List.map_cons, List.map_cons, ih, hx]
      rfl
  unfold skel
  rw [h1, h2, h.nvar, h.npar]

theorem aff_ext_zero {r x : List Int} (h : ∀ j, coef r j = 0) : aff r x = 0 := by
  unfold aff
  apply dot_all_zero
  intro v hv
  obtain ⟨j, hj, rfl⟩ := List.getElem_of_mem hv
  have := h j
  unfold coef at this
  rw [List.getD_eq_getElem?_getD, List.getElem?_eq_getElem hj] at this
  exact this

theorem aff_zero_outside {r x z q : List Int} {d m : Nat} (hx : x.length = d) (hz : d + z.length = m)
    (hz0 : ∀ v ∈ z, v = 0) (h : ∀ j, (j < d ∨ m ≤ j) → coef r j = 0) : aff r (x ++ z ++ q) = 0 := by
  unfold aff
  have key : ∀ (r y : List Int), (∀ j, coef r j = 0 ∨ y.getD j 0 = 0) → dot r y = 0 := by
    intro r
    induction r with
    | nil => intro y _; simp [dot]
    | cons a r ih =>
      intro y hy
      cases y with
      | nil => simp [dot]
      | cons b y =>
        have h0 := hy 0
        have ht := ih y (fun j => by simpa [coef] using hy (j + 1))
        simp only [coef, List.getD_cons_zero] at h0
        simp only [dot, ht]
        rcases h0 with h0 | h0 <;> simp [h0]
  apply key
  intro j
  by_cases hj : j < d ∨ m ≤ j
  · exact .inl (h j hj)
  · right
    push Not at hj
    have hj' : j - x.length < z.length := by omega
    rw [List.append_assoc, List.append_assoc, List.getD_eq_getElem?_getD,
      List.getElem?_append_right (by omega), List.getElem?_append_left hj', List.getElem?_eq_getElem hj']
    exact hz0 _ (List.getElem_mem hj')

theorem padDom_sat {npar d m : Nat} {dom0 dom : Cst} (h : PadDom npar d m dom0 dom) (hm : d ≤ m)
    (hw : ∀ r ∈ dom0.rows, d ≤ r.val.length) {x q : List Int} (hx : x.length = d) :
    dom.Sat (x ++ zrow (m - d) ++ q) ↔ dom0.Sat (x ++ q) := by
  obtain ⟨ext, h1, h2⟩ := h.rows
  have e : ∀ r ∈ dom0.rows, aff (padRow d 0 m 0 r.val) (x ++ zrow (m - d) ++ q) = aff r.val (x ++ q) := by
    intro r hr
    have := aff_padRow (ds := d) (dd := 0) (a := m) (b := 0) (r := r.val) (s := x) (t := []) (q := q) hx rfl
      (by have := hw r hr; omega)
    simpa [zrow] using this
  unfold Cst.Sat
  rw [h1]
  constructor
  · intro hs r hr
    have := hs { r with val := padRow d 0 m 0 r.val } (List.mem_append_left _ (List.mem_map.mpr ⟨r, hr, rfl⟩))
    unfold Row.Sat at this ⊢
    simp only [e r hr] at this
    exact this
  · intro hs r hr
    rcases List.mem_append.mp hr with h' | h'
    · obtain ⟨r0, h0, rfl⟩ := List.mem_map.mp h'
      have := hs r0 h0
      unfold Row.Sat at this ⊢
      simp only [e r0 h0]
      exact this
    · obtain ⟨g1, g2, g3⟩ := h2 r h'
      unfold Row.Sat
      rw [if_pos g1]
      exact aff_zero_outside hx (by simp [zrow]; omega) (fun v hv => List.eq_of_mem_replicate hv) g3

theorem restored_stmt {npar : Nat} {st st' : Stmt} (h : PadStmt npar st.dim st st') (ho : st.isOrig = List.replicate st.dim true)
    (hw : ∀ r ∈ st.domain.rows, st.dim ≤ r.val.length) : StmtRestored npar st st' := by
  refine ⟨h.dim, h.orig, ?_, ?_⟩
  · rw [h.isOrig, ho]; simp
  · intro x q hx _
    have := padDom_sat h.dom (le_refl _) hw (q := q) hx
    simpa [zrow] using this

theorem restored_dep {p0 : Prog} {d d' : Dep} (h : PadDep p0 p0.dim d d') : DepRestored d d' :=
  ⟨h.src, h.dest, h.rar, by rw [h.poly, padCst_same]⟩

theorem restored_all {p0 p : Prog} (hp : p0.InputOK) (h : PadRel p0 p0.dim p) :
    List.Forall₂ (StmtRestored p0.npar) p0.stmts p.stmts ∧ List.Forall₂ DepRestored p0.deps p.deps := by
  constructor
  · rw [List.forall₂_iff_get]
    refine ⟨h.len.symm, fun i h1 h2 => ?_⟩
    simp only [List.get_eq_getElem]
    obtain ⟨st, g1, g2⟩ := h.get (List.getElem?_eq_getElem h1)
    rw [List.getElem?_eq_getElem h2, Option.some.injEq] at g1
    rw [Prog.dim_of (List.getElem?_eq_getElem h1)] at g2
    obtain ⟨_, _, i3, i4, i5⟩ := hp.stmts _ (List.getElem_mem h1)
    rw [g1]
    refine restored_stmt g2 i3 ?_
    intro r hr
    rw [i4.2 r hr, i5]
    omega
  · exact h.deps.imp (fun d d' hd => restored_dep hd)

end Pluto
