import Verif.Model.StmtEdit
import Verif.Lemmas.DepDims
import Verif.Lemmas.Unpad
import Verif.Props.CstEdit
import Verif.Props.Matrix

/-! C32 (dimension edits of statements), C40 (adding and removing statements), C42 (rescheduling of
diamond tiles), C44 (strip-mining). -/

namespace Pluto

/-! ### C32 -/

theorem removeDim_addDim_lt (c : Cst) (a b : Nat) (hc : c.WF) (hab : a ≤ b) (hb : b ≤ c.ncols) :
    removeDim (addDim (addDim c a) (b + 1)) a = addDim c b := by
  simp only [removeDim, addDim, List.map_map, Nat.add_sub_cancel]
  congr 1
  apply List.map_congr_left
  intro r hr
  have hl := hc.2 r hr
  simp only [Function.comp_apply]
  rw [List.insertIdx_comm _ _ hab (by omega), List.eraseIdx_insertIdx_self]

theorem stmtAddDim_eq {p p1 : Prog} {i pos : Nat} {time : Option (Nat × HypType)}
    (h : stmtAddDim p i pos time = some p1) :
    ∃ st, p.stmts[i]? = some st ∧ pos ≤ st.dim ∧ st.dim + 1 ≤ st.domain.ncols ∧
      (∀ t ty, time = some (t, ty) → t ≤ st.trans.length) ∧
      p1 = { p with
        stmts := p.stmts.set i (stmtAddDimAt st pos time)
        deps := p.deps.map (depAddDim { p with stmts := p.stmts.set i (stmtAddDimAt st pos time) } i pos) } := by
  unfold stmtAddDim at h
  simp only [Option.bind_eq_bind, Option.bind_eq_some_iff] at h
  obtain ⟨st, hst, h⟩ := h
  by_cases c1 : pos > st.dim ∨ st.domain.ncols < st.dim + 1
  · rw [if_pos c1] at h; cases h
  rw [if_neg c1] at h
  refine ⟨st, hst, by omega, by omega, ?_, ?_⟩
  · rintro t ty rfl
    by_contra hc
    simp only [gt_iff_lt] at h
    rw [if_pos (by simpa using hc)] at h
    cases h
  · rcases time with _ | ⟨t, ty⟩
    · exact (Option.some.inj h).symm
    · by_cases c2 : t > st.trans.length
      · simp only [c2, decide_true, if_true] at h; cases h
      · simp only [c2, decide_false, Bool.false_eq_true, if_false] at h
        exact (Option.some.inj h).symm

theorem insertIdx_append_le {α : Type*} (x q : List α) (pos : Nat) (v : α) (h : pos ≤ x.length) :
    x.insertIdx pos v ++ q = (x ++ q).insertIdx pos v := by
  induction x generalizing pos with
  | nil => obtain rfl : pos = 0 := Nat.le_zero.mp h; simp
  | cons a x ih =>
    rcases pos with _ | n
    · simp
    · simp only [List.insertIdx_succ_cons, List.cons_append, ih n (by simpa using h)]

theorem stmtAddDimAt_remove (st : Stmt) (pos : Nat) : stmtRemoveDimAt (stmtAddDimAt st pos none) pos = st := by
  unfold stmtRemoveDimAt stmtAddDimAt
  simp only [C27_remove_add_dim, Nat.add_sub_cancel, List.eraseIdx_insertIdx_self, List.map_map]
  have : (fun r : List Int => r.eraseIdx pos) ∘ (fun r => r.insertIdx pos 0) = id := by funext r; simp
  rw [this, List.map_id]

theorem dimOf_set_at {p : Prog} {i : Nat} {st st' : Stmt} (hi : p.stmts[i]? = some st) (j : Nat) :
    dimOf { p with stmts := p.stmts.set i st' } j = if j = i then st'.dim else dimOf p j := by
  unfold dimOf
  have hl := (List.getElem?_eq_some_iff.mp hi).1
  by_cases h : j = i
  · subst h; simp [hl]
  · simp [h, Ne.symm h]

theorem depRemove_add (q1 q2 : Prog) (i pos n : Nat) (d : Dep) (hw : d.dpoly.WF)
    (h1 : d.dest = i → dimOf q1 d.src = if d.src = i then dimOf q2 d.src + 1 else dimOf q2 d.src)
    (hn : n = dimOf q2 d.src) (hc : d.dest = i → n + pos ≤ d.dpoly.ncols) :
    depRemoveDim q2 i pos (depAddDim q1 i pos d) = { d with bpoly := (depAddDim q1 i pos d).bpoly } := by
  obtain ⟨src, dest, rar, dpoly, bpoly, sat, lev, sv, dv⟩ := d
  simp only at *
  unfold depRemoveDim depAddDim
  by_cases c1 : src = i
  · subst c1
    by_cases c2 : dest = src
    · subst c2
      simp only [if_true, forall_const] at *
      rw [h1, show dimOf q2 dest + 1 + pos = (dimOf q2 dest + pos) + 1 by omega,
        removeDim_addDim_lt _ _ _ hw (by omega) (by omega), C27_remove_add_dim]
    · simp only [if_true, c2, if_false, C27_remove_add_dim]
  · by_cases c2 : dest = i
    · subst c2
      simp only [if_true, c1, if_false, forall_const] at *
      rw [h1, C27_remove_add_dim]
    · simp only [c1, c2, if_false]

/-- C32. Adding a dimension and removing it again gives back the program: domain, schedule, and the
polyhedron of every dependence. The one exception is `bounding_poly` (see `C32_violated`), for which some
system `f d` is left. -/
theorem C32_add_remove_partial (p p1 : Prog) (i pos : Nat) (hf : ∀ d ∈ p.deps, p.DepFits d)
    (h : stmtAddDim p i pos none = some p1) :
    ∃ (p2 : Prog) (f : Dep → Cst), stmtRemoveDim p1 i pos = some p2 ∧
      p2 = { p with deps := p.deps.map (fun d => { d with bpoly := f d }) } := by
  obtain ⟨st, hst, h1, h2, -, rfl⟩ := stmtAddDim_eq h
  have hl := (List.getElem?_eq_some_iff.mp hst).1
  have hst1 : (p.stmts.set i (stmtAddDimAt st pos none))[i]? = some (stmtAddDimAt st pos none) := by simp [hl]
  rw [remove_eq hst1 (by simp [stmtAddDimAt]; omega) (by simp [stmtAddDimAt, addDim]; omega)]
  refine ⟨_, fun d => (depAddDim { p with stmts := p.stmts.set i (stmtAddDimAt st pos none) } i pos d).bpoly,
    rfl, ?_⟩
  simp only [stmtAddDimAt_remove, List.set_set, List.map_map]
  have hs : p.stmts.set i st = p.stmts := by
    obtain ⟨h', rfl⟩ := List.getElem?_eq_some_iff.mp hst
    exact List.set_getElem_self _
  rw [hs]
  congr 1
  apply List.map_congr_left
  intro d hd
  obtain ⟨hw, hc⟩ := hf d hd
  simp only [Function.comp_apply]
  have e1 := dimOf_set_at (p := p) (st' := stmtAddDimAt st pos none) hst
  have hd : p.dim i = st.dim := by simp [Prog.dim, hst]
  refine depRemove_add _ _ i pos (p.dim d.src) d hw (fun _ => ?_) rfl (fun c => ?_)
  · rw [e1]
    split
    · rename_i c; rw [c]; show st.dim + 1 = p.dim i + 1; rw [hd]
    · rfl
  · rw [c] at hc; omega

/-- C32, adding a dimension: on the old coordinates (`x` is the old point, `v` the new coordinate) the
domain and the value of every schedule row stay as they were; a new schedule row has the value of the new
coordinate; other statements are not changed. -/
theorem C32_add_dim (p p1 : Prog) (i pos : Nat) (time : Option (Nat × HypType)) (hT : p.TransOK)
    (hD : ∀ st ∈ p.stmts, st.domain.WF ∧ st.domain.ncols = st.dim + p.npar + 1)
    (h : stmtAddDim p i pos time = some p1) :
    p1.dim i = p.dim i + 1 ∧ (∀ j, j ≠ i → p1.stmts[j]? = p.stmts[j]?) ∧
    ∃ st st1, p.stmts[i]? = some st ∧ p1.stmts[i]? = some st1 ∧
      ∀ (x q : List Int) (v : Int), x.length = p.dim i → q.length = p.npar →
        (st1.domain.Sat (x.insertIdx pos v ++ q) ↔ st.domain.Sat (x ++ q)) ∧
        match time with
        | none => ∀ l, p1.phi i l (x.insertIdx pos v) q = p.phi i l x q
        | some (t, _) => (∀ l < t, p1.phi i l (x.insertIdx pos v) q = p.phi i l x q) ∧
            p1.phi i t (x.insertIdx pos v) q = v ∧
            ∀ l ≥ t, p1.phi i (l + 1) (x.insertIdx pos v) q = p.phi i l x q := by
  obtain ⟨st, hst, h1, h2, ht, rfl⟩ := stmtAddDim_eq h
  have hl := (List.getElem?_eq_some_iff.mp hst).1
  have hst1 : (p.stmts.set i (stmtAddDimAt st pos time))[i]? = some (stmtAddDimAt st pos time) := by simp [hl]
  have hm : st ∈ p.stmts := List.mem_of_getElem? hst
  obtain ⟨hw, hn⟩ := hD st hm
  have hd : p.dim i = st.dim := by simp [Prog.dim, hst]
  refine ⟨?_, fun j hj => by simp [Ne.symm hj], st, _, hst, hst1, ?_⟩
  · rw [hd]; simp [Prog.dim, hl, stmtAddDimAt]
  intro x q v hx hq
  rw [hd] at hx
  have e : x.insertIdx pos v ++ q = (x ++ q).insertIdx pos v := insertIdx_append_le _ _ _ _ (by omega)
  rw [e]
  have hp : pos ≤ (x ++ q).length := by simp; omega
  refine ⟨C27_add_dim st.domain pos (x ++ q) v hw (by simp; omega) hp, ?_⟩
  have key : ∀ r ∈ st.trans, aff (r.insertIdx pos 0) ((x ++ q).insertIdx pos v) = aff r (x ++ q) := by
    intro r hr
    have hrl := hT st hm r hr
    rw [aff_insertIdx _ _ _ _ (by rw [List.length_insertIdx_of_le_length (by omega)]; simp; omega) hp]
    simp [List.getD_eq_getElem?_getD, List.getElem?_insertIdx_self, show pos ≤ r.length by omega]
  have old : ∀ l : Nat, aff ((((st.trans.map (fun r => r.insertIdx pos 0))[l]?).getD [])) ((x ++ q).insertIdx pos v) =
      aff ((st.trans[l]?).getD []) (x ++ q) := by
    intro l
    rcases hg : st.trans[l]? with _ | r
    · simp [hg, aff, dot]
    · simp [hg, key r (List.mem_of_getElem? hg)]
  have phi1 : ∀ l : Nat, Prog.phi { p with
        stmts := p.stmts.set i (stmtAddDimAt st pos time)
        deps := p.deps.map (depAddDim { p with stmts := p.stmts.set i (stmtAddDimAt st pos time) } i pos) }
      i l (x.insertIdx pos v) q =
      aff (((stmtAddDimAt st pos time).trans[l]?).getD []) ((x ++ q).insertIdx pos v) := by
    intro l
    simp only [Prog.phi, Prog.row, hst1, e, Option.bind_some]
  have phi0 : ∀ l : Nat, p.phi i l x q = aff ((st.trans[l]?).getD []) (x ++ q) := by
    intro l
    simp only [Prog.phi, Prog.row, hst, Option.bind_some]
  rcases time with _ | ⟨t, ty⟩
  · intro l
    rw [phi1, phi0]
    exact old l
  · have htl := ht t ty rfl
    have htr : (stmtAddDimAt st pos (some (t, ty))).trans =
        (st.trans.map (fun r => r.insertIdx pos 0)).insertIdx t ((zrow (st.domain.ncols + 1)).set pos 1) := rfl
    refine ⟨fun l hl' => ?_, ?_, fun l hl' => ?_⟩
    · rw [phi1, phi0, htr, List.getElem?_insertIdx_of_lt hl']
      exact old l
    · rw [phi1, htr, List.getElem?_insertIdx_self, if_pos (by simpa using htl)]
      simp only [Option.getD_some]
      rw [hn]
      have hlen : ((x ++ q).insertIdx pos v).length = st.dim + p.npar + 1 := by
        rw [List.length_insertIdx_of_le_length hp]; simp; omega
      rw [aff_set _ _ _ _ (by rw [hlen]; simp [zrow]) (by omega)]
      have z : aff (zrow (st.dim + p.npar + 1 + 1)) ((x ++ q).insertIdx pos v) = (0 : Int) := by
        unfold aff zrow; exact dot_zero _ _
      rw [z, List.getD_eq_getElem?_getD, List.getElem?_insertIdx_self, if_pos hp]
      have c0 : coef (zrow (st.dim + p.npar + 1 + 1)) pos = 0 := by
        simp [coef, zrow, List.getD_eq_getElem?_getD, List.getElem?_replicate, show pos < st.dim + p.npar + 1 + 1 by omega]
      rw [c0]; simp
    · rw [phi1, phi0, htr, List.getElem?_insertIdx_of_gt (by omega), Nat.add_sub_cancel]
      exact old l

/-- The same dependence with the bounding polyhedron in place of the dependence polyhedron. -/
def Dep.bounding (d : Dep) : Dep := { d with dpoly := d.bpoly }

theorem depAddDim_bpoly (p : Prog) (i pos : Nat) (d : Dep) :
    (depAddDim p i pos d).bpoly = (depAddDim p i pos d.bounding).dpoly := by
  unfold depAddDim Dep.bounding
  by_cases c1 : d.src = i <;> by_cases c2 : d.dest = i <;> simp [c1, c2]

/-- C32, adding a dimension to statement `i`: every dependence keeps its end points and holds for the
same pairs, whatever the new coordinate is (`dropAt j i pos` removes the new coordinate from an end point
`j` that is statement `i`). The bounding polyhedron is treated alike. -/
theorem C32_add_dim_deps (p p1 : Prog) (i pos : Nat) (time : Option (Nat × HypType))
    (hf : ∀ d ∈ p.deps, p.DepFits d ∧ p.DepFits d.bounding) (h : stmtAddDim p i pos time = some p1) :
    p1.deps.length = p.deps.length ∧ ∀ (k : Nat) (d d1 : Dep), p.deps[k]? = some d → p1.deps[k]? = some d1 →
      d1.src = d.src ∧ d1.dest = d.dest ∧ d1.rar = d.rar ∧ p1.DepFits d1 ∧ p1.DepFits d1.bounding ∧
      ∀ s t q : List Int, s.length = p1.dim d.src → t.length = p1.dim d.dest → q.length = p.npar →
        (d1.dpoly.Sat (s ++ t ++ q) ↔ d.dpoly.Sat (dropAt d.src i pos s ++ dropAt d.dest i pos t ++ q)) ∧
        (d1.bpoly.Sat (s ++ t ++ q) ↔ d.bpoly.Sat (dropAt d.src i pos s ++ dropAt d.dest i pos t ++ q)) := by
  obtain ⟨st, hst, h1, h2, ht, rfl⟩ := stmtAddDim_eq h
  refine ⟨by simp, fun k d d1 hk hk1 => ?_⟩
  simp only [List.getElem?_map, hk, Option.map_some, Option.some.injEq] at hk1
  subst hk1
  have e1 : ∀ j, Prog.dim { p with
        stmts := p.stmts.set i (stmtAddDimAt st pos time)
        deps := p.deps.map (depAddDim { p with stmts := p.stmts.set i (stmtAddDimAt st pos time) } i pos) } j =
      if j = i then p.dim j + 1 else p.dim j := by
    intro j
    have := dimOf_set_at (p := p) (st' := stmtAddDimAt st pos time) hst j
    change Prog.dim _ j = _ at this
    by_cases c : j = i
    · rw [if_pos c] at this ⊢
      refine Eq.trans this ?_
      subst c
      simp [Prog.dim, hst, stmtAddDimAt]
    · rw [if_neg c] at this ⊢
      exact this
  have hd : p.dim i = st.dim := by simp [Prog.dim, hst]
  obtain ⟨a, b, c⟩ := depAddDim_ends { p with stmts := p.stmts.set i (stmtAddDimAt st pos time) } i pos d
  have main : ∀ dd : Dep, dd.src = d.src → dd.dest = d.dest → p.DepFits dd → ∀ s t q : List Int,
      s.length = (if d.src = i then p.dim d.src + 1 else p.dim d.src) →
      t.length = (if d.dest = i then p.dim d.dest + 1 else p.dim d.dest) → q.length = p.npar → _ :=
    fun dd es et hdd s t q hs ht' hq =>
      depAddDim_sat (p := { p with stmts := p.stmts.set i (stmtAddDimAt st pos time) }) (i := i) (pos := pos)
        (ns := p.dim d.src) (nt := p.dim d.dest) (d := dd) (s := s) (t := t) (q := q) hdd.wf
        (by rw [hdd.cols, es, et, hq]) (by rw [es]; intro c; rw [c, hd]; exact h1)
        (by rw [et]; intro c; rw [c, hd]; exact h1)
        (by rw [es, hs, ← e1]; rfl) (by rw [es]; exact hs) (by rw [et]; exact ht')
  obtain ⟨f1, f2⟩ := hf d (List.mem_of_getElem? hk)
  have fit : ∀ dd : Dep, dd.src = d.src → dd.dest = d.dest → p.DepFits dd →
      (depAddDim { p with stmts := p.stmts.set i (stmtAddDimAt st pos time) } i pos dd).dpoly.WF ∧
      (depAddDim { p with stmts := p.stmts.set i (stmtAddDimAt st pos time) } i pos dd).dpoly.ncols =
        (if d.src = i then p.dim d.src + 1 else p.dim d.src) +
        (if d.dest = i then p.dim d.dest + 1 else p.dim d.dest) + p.npar + 1 := by
    intro dd es et hdd
    have := main dd es et hdd (List.replicate _ 0) (List.replicate _ 0) (List.replicate _ 0)
      (List.length_replicate ..) (List.length_replicate ..) (List.length_replicate ..)
    refine ⟨this.1, ?_⟩
    rw [this.2.1]
    simp only [List.length_replicate]
  refine ⟨a, b, c, ⟨(fit d rfl rfl f1).1, ?_⟩, ⟨?_, ?_⟩, fun s t q hs ht' hq => ⟨?_, ?_⟩⟩
  · rw [(fit d rfl rfl f1).2, e1, e1, a, b]
  · show (depAddDim _ i pos d).bpoly.WF
    rw [depAddDim_bpoly]
    exact (fit d.bounding rfl rfl f2).1
  · show (depAddDim _ i pos d).bpoly.ncols = _
    rw [depAddDim_bpoly, (fit d.bounding rfl rfl f2).2, e1, e1]
    have a' : (depAddDim { p with stmts := p.stmts.set i (stmtAddDimAt st pos time) } i pos d).bounding.src = d.src := a
    have b' : (depAddDim { p with stmts := p.stmts.set i (stmtAddDimAt st pos time) } i pos d).bounding.dest = d.dest := b
    rw [a', b']
  · exact (main d rfl rfl f1 s t q (by rw [hs, e1]) (by rw [ht', e1]) hq).2.2
  · rw [depAddDim_bpoly]
    exact (main d.bounding rfl rfl f2 s t q (by rw [hs, e1]) (by rw [ht', e1]) hq).2.2

/-- C32, access matrices: a new dimension changes no subscript (`x` old iterators, parameters and 1), and
removing it restores the matrices. -/
theorem C32_accesses (junk : Int) (accs : List Mat) (pos : Nat) (hm : ∀ m ∈ accs, m.WF ∧ pos ≤ m.ncols) :
    ∃ accs', accsAddDim junk accs pos = some accs' ∧ accsRemoveDim accs' pos = some accs ∧
      accs'.length = accs.length ∧
      ∀ (k : Nat) (m m' : Mat), accs[k]? = some m → accs'[k]? = some m' → ∀ (x : List Int) (v : Int),
        x.length = m.ncols → m'.apply (x.insertIdx pos v) = m.apply x := by
  induction accs with
  | nil => exact ⟨[], rfl, rfl, rfl, fun k m m' h => by simp at h⟩
  | cons m accs ih =>
    obtain ⟨accs', h1, h2, h3, h4⟩ := ih (fun m hm' => hm m (List.mem_cons_of_mem _ hm'))
    obtain ⟨hw, hp⟩ := hm m (List.mem_cons_self ..)
    have ha := C45_add_col junk m pos hw
    rw [if_pos hp] at ha
    have hr := C45_add_remove_col junk m pos hw hp
    rw [ha, Option.bind_some] at hr
    refine ⟨⟨m.ncols + 1, m.rows.map (fun r => r.insertIdx pos 0)⟩ :: accs', ?_, ?_, by simp [h3], ?_⟩
    · unfold accsAddDim at h1 ⊢
      rw [List.mapM_cons, ha, h1]
      rfl
    · unfold accsRemoveDim at h2 ⊢
      rw [List.mapM_cons, hr, h2]
      rfl
    · intro k m1 m2 hk1 hk2 x v hx
      rcases k with _ | k
      · simp only [List.getElem?_cons_zero, Option.some.injEq] at hk1 hk2
        subst hk1 hk2
        simp only [Mat.apply, List.map_map]
        apply List.map_congr_left
        intro r hr
        have hl := hw r hr
        simp only [Function.comp_apply]
        rw [dot_insertIdx _ _ _ _ _ (by omega) (by omega)]
        simp
      · simp only [List.getElem?_cons_succ] at hk1 hk2
        exact h4 k m1 m2 hk1 hk2 x v hx

/-- A program for examples: two statements of one dimension over `0 <= x < 10` (one parameter), with a
dependence from the first to the second and one of the first to itself. -/
def exTwo : Prog :=
  let dom : Cst := ⟨3, [⟨false, [1, 0, 0]⟩, ⟨false, [-1, 0, 9]⟩]⟩
  let st : Stmt := ⟨1, 1, dom, [true], [[1, 0, 3]], [.loop]⟩
  let dp : Cst := ⟨4, [⟨true, [1, -1, 0, 0]⟩, ⟨false, [1, 0, 0, 0]⟩]⟩
  { nvar := 1, npar := 1, stmts := [st, { st with trans := [[2, 0, 1]] }], hProps := [.loop]
    deps := [⟨0, 1, false, dp, dp, false, -1, [], []⟩, ⟨0, 0, false, dp, dp, false, -1, [], []⟩] }

example : exTwo.TransOK ∧ (∀ st ∈ exTwo.stmts, st.domain.WF ∧ st.domain.ncols = st.dim + exTwo.npar + 1) := by
  unfold Prog.TransOK; decide

example : ∀ d ∈ exTwo.deps, exTwo.DepFits d ∧ exTwo.DepFits d.bounding := by
  intro d hd
  simp only [exTwo, List.mem_cons, List.not_mem_nil, or_false] at hd
  rcases hd with rfl | rfl <;> exact ⟨⟨by decide, by decide⟩, ⟨by decide, by decide⟩⟩

example : (stmtAddDim exTwo 0 1 none).isSome = true ∧ (stmtAddDim exTwo 0 0 (some (1, .loop))).isSome = true := by
  decide

/-- C32 fails for `bounding_poly`: after adding a dimension and removing it, the bounding polyhedron still
has the extra columns (5 and 6 instead of 4). -/
theorem C32_violated :
    ((stmtAddDim exTwo 0 1 none).bind (fun p1 => stmtRemoveDim p1 0 1)).map
      (fun p2 => (p2.deps.map (·.dpoly.ncols), p2.deps.map (·.bpoly.ncols))) =
    some ([4, 4], [5, 6]) := by decide

end Pluto
