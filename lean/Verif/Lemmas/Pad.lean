import Verif.Model.Auto
import Verif.Spec.Auto
import Verif.Lemmas.Elim
import Verif.Lemmas.Matrix

/-! Padding of statements and dependences, and its inverse. -/

namespace Pluto

/-- The row with `a - ds` zero columns after the first `ds` and `b - dd` after the next `dd`. -/
def padRow (ds dd a b : Nat) (r : List Int) : List Int :=
  r.take ds ++ zrow (a - ds) ++ ((r.drop ds).take dd ++ zrow (b - dd)) ++ r.drop (ds + dd)

def padCst (ds dd a b : Nat) (c : Cst) : Cst :=
  ⟨c.ncols + (a - ds) + (b - dd), c.rows.map (fun r => { r with val := padRow ds dd a b r.val })⟩

theorem insertIdx_mid {α : Type*} (l1 l2 : List α) (n : Nat) (v : α) (h : l1.length = n) :
    (l1 ++ l2).insertIdx n v = l1 ++ v :: l2 := by
  subst h
  induction l1 with
  | nil => simp
  | cons a l ih => simp [ih]

theorem eraseIdx_mid {α : Type*} (l1 l2 : List α) (n : Nat) (v : α) (h : l1.length = n) :
    (l1 ++ v :: l2).eraseIdx n = l1 ++ l2 := by
  subst h
  rw [List.eraseIdx_append_of_length_le (by simp)]
  simp

theorem zrow_succ (n : Nat) : zrow (n + 1) = zrow n ++ [0] := by
  unfold zrow; exact List.replicate_succ'

theorem zrow_cons (n : Nat) : zrow (n + 1) = 0 :: zrow n := rfl

theorem zrow_length (n : Nat) : (zrow n).length = n := by simp [zrow]

section
variable {ds dd a b : Nat} {r : List Int}

theorem padRow_insert_src (ha : ds ≤ a) (hr : ds + dd ≤ r.length) :
    (padRow ds dd a b r).insertIdx a 0 = padRow ds dd (a + 1) b r := by
  unfold padRow
  rw [List.append_assoc, insertIdx_mid _ _ _ _ (by simp [zrow_length]; omega),
    show a + 1 - ds = a - ds + 1 by omega, zrow_succ]
  simp [List.append_assoc]

theorem padRow_insert_dest (ha : ds ≤ a) (hb : dd ≤ b) (hr : ds + dd ≤ r.length) :
    (padRow ds dd a b r).insertIdx (a + b) 0 = padRow ds dd a (b + 1) r := by
  unfold padRow
  rw [insertIdx_mid _ _ _ _ (by simp [zrow_length]; omega),
    show b + 1 - dd = b - dd + 1 by omega, zrow_succ]
  simp [List.append_assoc]

theorem padRow_erase_src (ha : ds ≤ a) (hr : ds + dd ≤ r.length) :
    (padRow ds dd (a + 1) b r).eraseIdx ds = padRow ds dd a b r := by
  unfold padRow
  rw [show a + 1 - ds = a - ds + 1 by omega, zrow_cons]
  simp only [List.append_assoc, List.cons_append]
  rw [eraseIdx_mid _ _ _ _ (by simp; omega)]

theorem padRow_erase_dest (ha : ds ≤ a) (hb : dd ≤ b) (hr : ds + dd ≤ r.length) :
    (padRow ds dd a (b + 1) r).eraseIdx (a + dd) = padRow ds dd a b r := by
  unfold padRow
  rw [show b + 1 - dd = b - dd + 1 by omega, zrow_cons]
  have e : ∀ z : List Int, r.take ds ++ zrow (a - ds) ++ ((r.drop ds).take dd ++ z) ++ r.drop (ds + dd) =
      (r.take ds ++ zrow (a - ds) ++ (r.drop ds).take dd) ++ (z ++ r.drop (ds + dd)) := by
    intro z; simp [List.append_assoc]
  rw [e, e, List.cons_append, eraseIdx_mid _ _ _ _ (by simp [zrow_length]; omega)]

theorem padRow_same : padRow ds dd ds dd r = r := by
  unfold padRow
  simp only [Nat.sub_self, zrow, List.replicate_zero, List.append_nil]
  rw [List.append_assoc, ← List.drop_drop, List.take_append_drop, List.take_append_drop]

theorem padRow_length (hr : ds + dd ≤ r.length) :
    (padRow ds dd a b r).length = r.length + (a - ds) + (b - dd) := by
  unfold padRow
  simp [zrow_length]; omega

end

section
variable {ds dd a b : Nat} {c : Cst}

theorem padCst_insert_src (ha : ds ≤ a) (hr : ∀ r ∈ c.rows, ds + dd ≤ r.val.length) :
    addDim (padCst ds dd a b c) a = padCst ds dd (a + 1) b c := by
  unfold addDim padCst
  rw [Cst.mk.injEq]
  refine ⟨by dsimp only; omega, ?_⟩
  simp only [List.map_map]
  apply List.map_congr_left
  intro r h
  simp only [Function.comp, padRow_insert_src ha (hr r h)]

theorem padCst_insert_dest (ha : ds ≤ a) (hb : dd ≤ b) (hr : ∀ r ∈ c.rows, ds + dd ≤ r.val.length) :
    addDim (padCst ds dd a b c) (a + b) = padCst ds dd a (b + 1) c := by
  unfold addDim padCst
  rw [Cst.mk.injEq]
  refine ⟨by dsimp only; omega, ?_⟩
  simp only [List.map_map]
  apply List.map_congr_left
  intro r h
  simp only [Function.comp, padRow_insert_dest ha hb (hr r h)]

theorem padCst_erase_src (ha : ds ≤ a) (hr : ∀ r ∈ c.rows, ds + dd ≤ r.val.length) :
    removeDim (padCst ds dd (a + 1) b c) ds = padCst ds dd a b c := by
  unfold removeDim padCst
  rw [Cst.mk.injEq]
  refine ⟨by dsimp only; omega, ?_⟩
  simp only [List.map_map]
  apply List.map_congr_left
  intro r h
  simp only [Function.comp, padRow_erase_src ha (hr r h)]

theorem padCst_erase_dest (ha : ds ≤ a) (hb : dd ≤ b) (hr : ∀ r ∈ c.rows, ds + dd ≤ r.val.length) :
    removeDim (padCst ds dd a (b + 1) c) (a + dd) = padCst ds dd a b c := by
  unfold removeDim padCst
  rw [Cst.mk.injEq]
  refine ⟨by dsimp only; omega, ?_⟩
  simp only [List.map_map]
  apply List.map_congr_left
  intro r h
  simp only [Function.comp, padRow_erase_dest ha hb (hr r h)]

theorem padCst_same : padCst ds dd ds dd c = c := by
  unfold padCst
  simp [padRow_same]

theorem padCst_wf (hc : c.WF) (hn : ds + dd ≤ c.ncols) : (padCst ds dd a b c).WF := by
  refine ⟨by unfold padCst; have := hc.1; dsimp only; omega, ?_⟩
  intro r hr
  unfold padCst at hr ⊢
  obtain ⟨r0, h0, rfl⟩ := List.mem_map.mp hr
  have := hc.2 r0 h0
  simp only
  rw [padRow_length (by omega)]
  omega

end

/-- The domain of a statement with `m - d` padding dimensions after the first `d`: the original rows
with zero columns, followed by equalities on padding dimensions only. -/
structure PadDom (npar d m : Nat) (dom0 dom : Cst) : Prop where
  cols : dom.ncols = m + npar + 1
  rows : ∃ ext : List Row,
    dom.rows = dom0.rows.map (fun r => { r with val := padRow d 0 m 0 r.val }) ++ ext ∧
    ∀ e ∈ ext, e.eq = true ∧ e.val.length = m + npar + 1 ∧ ∀ j, (j < d ∨ m ≤ j) → coef e.val j = 0

/-- Statement `st` is `st0` padded to `m` dimensions (schedules apart). -/
structure PadStmt (npar m : Nat) (st0 st : Stmt) : Prop where
  dim : st.dim = m
  ge : st0.dim ≤ m
  orig : st.dimOrig = st0.dimOrig
  isOrig : st.isOrig = List.replicate st0.dim true ++ List.replicate (m - st0.dim) false
  dom : PadDom npar st0.dim m st0.domain st.domain

/-- Dependence `d` is `d0` padded for statements of `m` dimensions. -/
structure PadDep (p0 : Prog) (m : Nat → Nat) (d0 d : Dep) : Prop where
  src : d.src = d0.src
  dest : d.dest = d0.dest
  rar : d.rar = d0.rar
  poly : d.dpoly = padCst (p0.dim d0.src) (p0.dim d0.dest) (m d0.src) (m d0.dest) d0.dpoly

/-- Program `p` is `p0` with statement `i` padded to `m i` dimensions (schedules, flags and bounding
polyhedra apart). -/
structure PadRel (p0 : Prog) (m : Nat → Nat) (p : Prog) : Prop where
  nvar : p.nvar = p0.nvar
  npar : p.npar = p0.npar
  stmts : ∀ i, Option.Rel (PadStmt p0.npar (m i)) p0.stmts[i]? p.stmts[i]?
  deps : List.Forall₂ (PadDep p0 m) p0.deps p.deps

section
variable {npar m : Nat}

theorem isOrig_sink (d m : Nat) (h : d ≤ m) :
    ((List.replicate d true ++ List.replicate (m - d) false).insertIdx m true).set m false =
      List.replicate d true ++ List.replicate (m + 1 - d) false := by
  have e := insertIdx_mid (List.replicate d true ++ List.replicate (m - d) false) [] m true
    (by simp; omega)
  rw [List.append_nil] at e
  rw [e, List.set_append_right _ _ (by simp; omega),
    show m - (List.replicate d true ++ List.replicate (m - d) false).length = 0 by simp; omega,
    List.append_assoc, show m + 1 - d = m - d + 1 by omega, List.replicate_succ']
  rfl

theorem unitRow_length (n v : Nat) (k c : Int) : (unitRow n v k c).length = n := by simp [unitRow]

theorem coef_insertIdx_zero (r : List Int) (pos j : Nat) :
    coef (r.insertIdx pos 0) j = if j < pos then coef r j else if j = pos then 0 else coef r (j - 1) := by
  unfold coef
  rw [List.getD_eq_getElem?_getD, List.getElem?_insertIdx]
  split_ifs with h1 h2 h3 <;> simp_all [List.getD_eq_getElem?_getD]

theorem coef_eraseIdx (r : List Int) (pos j : Nat) :
    coef (r.eraseIdx pos) j = if j < pos then coef r j else coef r (j + 1) := by
  unfold coef
  rw [List.getD_eq_getElem?_getD, List.getElem?_eraseIdx]
  split_ifs <;> simp [List.getD_eq_getElem?_getD]

theorem coef_unitRow (n v j : Nat) (k : Int) : coef (unitRow n v k 0) j = 0 ∨ j = v := by
  unfold coef unitRow
  rw [List.getD_eq_getElem?_getD, List.getElem?_set, List.getElem?_set]
  split_ifs <;> simp_all [List.getElem?_replicate]
  split_ifs <;> simp

theorem padDom_sink {d : Nat} {dom0 dom : Cst} (h : PadDom npar d m dom0 dom) (hd : d ≤ m)
    (hr : ∀ r ∈ dom0.rows, d ≤ r.val.length) :
    PadDom npar d (m + 1) dom0 (setVar (addDim dom m) m 0) := by
  obtain ⟨hc, ext, he, hz⟩ := h
  refine ⟨by simp only [setVar, addDim]; omega,
    ext.map (fun r => { r with val := r.val.insertIdx m 0 }) ++ [⟨true, unitRow (dom.ncols + 1) m 1 0⟩], ?_, ?_⟩
  · simp only [setVar, addDim, he, List.map_append, List.map_map, List.append_assoc, neg_zero]
    congr 1
    apply List.map_congr_left
    intro r h'
    simp only [Function.comp]
    rw [padRow_insert_src hd (by have := hr r h'; omega)]
  · intro e h'
    rcases List.mem_append.mp h' with h' | h'
    · obtain ⟨e0, h0, rfl⟩ := List.mem_map.mp h'
      obtain ⟨h1, h2, h3⟩ := hz e0 h0
      refine ⟨h1, ?_, ?_⟩
      · simp only
        rw [List.length_insertIdx_of_le_length (by omega)]; omega
      · intro j hj
        simp only
        rw [coef_insertIdx_zero]
        split_ifs with c1 c2
        · exact h3 j (by omega)
        · rfl
        · exact h3 _ (by omega)
    · simp only [List.mem_singleton] at h'
      subst h'
      refine ⟨rfl, by simp only [unitRow_length]; omega, ?_⟩
      intro j hj
      rcases coef_unitRow (dom.ncols + 1) m j 1 with h | h
      · exact h
      · omega

theorem padDom_erase {d : Nat} {dom0 dom : Cst} (h : PadDom npar d (m + 1) dom0 dom) (hd : d ≤ m)
    (hr : ∀ r ∈ dom0.rows, d ≤ r.val.length) :
    PadDom npar d m dom0 (removeDim dom d) := by
  obtain ⟨hc, ext, he, hz⟩ := h
  refine ⟨by simp only [removeDim]; omega,
    ext.map (fun r => { r with val := r.val.eraseIdx d }), ?_, ?_⟩
  · simp only [removeDim, he, List.map_append, List.map_map]
    congr 1
    apply List.map_congr_left
    intro r h'
    simp only [Function.comp]
    rw [padRow_erase_src hd (by have := hr r h'; omega)]
  · intro e h'
    obtain ⟨e0, h0, rfl⟩ := List.mem_map.mp h'
    obtain ⟨h1, h2, h3⟩ := hz e0 h0
    refine ⟨h1, ?_, ?_⟩
    · simp only
      rw [List.length_eraseIdx_of_lt (by omega)]; omega
    · intro j hj
      simp only
      rw [coef_eraseIdx]
      split_ifs with c1
      · exact h3 j (by omega)
      · exact h3 _ (by omega)

end

section
variable {p0 p : Prog} {m : Nat → Nat}

theorem PadRel.len (h : PadRel p0 m p) : p.stmts.length = p0.stmts.length := by
  apply le_antisymm
  · by_contra hc
    have := h.stmts p0.stmts.length
    rw [List.getElem?_eq_none le_rfl, List.getElem?_eq_getElem (by omega)] at this
    cases this
  · by_contra hc
    have := h.stmts p.stmts.length
    rw [List.getElem?_eq_none (l := p.stmts) le_rfl, List.getElem?_eq_getElem (by omega)] at this
    cases this

theorem PadRel.get (h : PadRel p0 m p) {i : Nat} {st0 : Stmt} (h0 : p0.stmts[i]? = some st0) :
    ∃ st, p.stmts[i]? = some st ∧ PadStmt p0.npar (m i) st0 st := by
  have := h.stmts i
  rw [h0] at this
  generalize hq : p.stmts[i]? = q at this
  cases this with
  | some hs => exact ⟨_, rfl, hs⟩

theorem PadRel.dimOf (h : PadRel p0 m p) {i : Nat} (hi : i < p0.stmts.length) : dimOf p i = m i := by
  obtain ⟨st, h1, h2⟩ := h.get (List.getElem?_eq_getElem hi)
  simp [Pluto.dimOf, h1, h2.dim]

theorem PadRel.ge (h : PadRel p0 m p) {i : Nat} (hi : i < p0.stmts.length) : p0.dim i ≤ m i := by
  obtain ⟨st, h1, h2⟩ := h.get (List.getElem?_eq_getElem hi)
  simpa [Prog.dim, List.getElem?_eq_getElem hi] using h2.ge

end

end Pluto
