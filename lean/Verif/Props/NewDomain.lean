import Verif.Props.Remap
import Verif.Props.Bounds
import Verif.Props.CstEdit

/-! Properties C33 (transformed domains) and C48 (tile constraints moved into the schedule relation). -/

namespace Pluto

section
variable {R : Type*} [CommRing R] [LinearOrder R] [IsStrictOrderedRing R]

theorem timesOf_length (trans : List (List Int)) (x q : List R) : (timesOf trans x q).length = trans.length := by
  simp [timesOf]

/-- C33. The schedule relation of a statement holds between a point and exactly its timestamp. -/
theorem C33_schedule (trans : List (List Int)) (nc : Nat) (htr : ∀ r ∈ trans, r.length = nc) (t y : List R)
    (ht : t.length = trans.length) (hy : y.length + 1 = nc) :
    (stmtGetSchedule nc trans).Sat (t ++ y) ↔ t = trans.map (fun r => aff r y) := by
  unfold stmtGetSchedule
  rw [schedMatrix_eq htr]
  have key : ∀ k (hk : k < trans.length),
      aff ((zrow trans.length).set k 1 ++ trans[k].map (fun a => -a)) (t ++ y) = t[k]'(by omega) - aff trans[k] y := by
    intro k hk
    unfold aff
    rw [List.append_assoc, dot_append _ _ _ _ (by simp [zrow, ht]), dot_map_neg, dot_set_zrow _ _ _ _ hk]
    simp [List.getD_eq_getElem?_getD, show k < t.length by omega]
    ring
  unfold Cst.Sat fromEqualities
  constructor
  · intro h
    apply List.ext_getElem
    · simp [ht]
    · intro k h1 h2
      have hk : k < trans.length := by omega
      have := h ⟨true, (zrow trans.length).set k 1 ++ trans[k].map (fun a => -a)⟩ (by
        simp only [List.mem_map]
        exact ⟨_, List.mem_mapIdx.mpr ⟨k, hk, rfl⟩, rfl⟩)
      unfold Row.Sat at this
      simp only [if_true] at this
      rw [key k hk] at this
      simp only [List.getElem_map]
      linarith
  · intro h r hr
    simp only [List.mem_map] at hr
    obtain ⟨v, hv, rfl⟩ := hr
    obtain ⟨k, hk, rfl⟩ := List.mem_mapIdx.mp hv
    unfold Row.Sat
    simp only [if_true]
    rw [key k hk]
    subst h
    simp

end

theorem stmtGetSchedule_wf (trans : List (List Int)) (nc : Nat) (hnc : 1 ≤ nc) (htr : ∀ r ∈ trans, r.length = nc) :
    (stmtGetSchedule nc trans).WF ∧ (stmtGetSchedule nc trans).ncols = trans.length + nc := by
  unfold stmtGetSchedule fromEqualities
  rw [schedMatrix_eq htr]
  refine ⟨⟨by simp only; omega, ?_⟩, rfl⟩
  intro r hr
  simp only [List.mem_map] at hr
  obtain ⟨v, hv, rfl⟩ := hr
  obtain ⟨k, hk, rfl⟩ := List.mem_mapIdx.mp hv
  simp [zrow, htr _ (List.getElem_mem hk)]

theorem addLeadingDims_wf (c : Cst) (n : Nat) (hc : c.WF) :
    (addLeadingDims c n).WF ∧ (addLeadingDims c n).ncols = c.ncols + n := by
  induction n generalizing c with
  | zero => exact ⟨hc, rfl⟩
  | succ n ih =>
    have hs := C27_add_dim_shape c 0 hc (by have := hc.1; omega)
    have := ih (addDim c 0) hs.1
    exact ⟨this.1, by rw [show addLeadingDims c (n + 1) = addLeadingDims (addDim c 0) n from rfl, this.2, hs.2.1]; omega⟩

/-- C33. The transformed domain: a rational point (timestamp, parameters) satisfies it exactly when it is
the timestamp of a rational point of the domain. Intersection and projection are PolyLib's, assumed
exact over the rationals. -/
theorem C33_new_domain {meet : Cst → Cst → Cst} {proj : Cst → Nat → Nat → Cst} (hM : MeetOracle meet)
    (hP : RatProjOracle proj) (st : Stmt) (npar : Nat) (hd : st.domain.WF) (hn : st.domain.ncols = st.dim + npar + 1)
    (htr : ∀ r ∈ st.trans, r.length = st.dim + npar + 1) :
    (newDomain meet proj st).WF ∧ (newDomain meet proj st).ncols = st.trans.length + npar + 1 ∧
    ∀ t q : List ℚ, t.length = st.trans.length → q.length = npar →
      ((newDomain meet proj st).Sat (t ++ q) ↔
        ∃ x : List ℚ, x.length = st.dim ∧ st.domain.Sat (x ++ q) ∧ t = timesOf st.trans x q) := by
  obtain ⟨w1, n1⟩ := addLeadingDims_wf st.domain st.trans.length hd
  obtain ⟨w2, n2⟩ := stmtGetSchedule_wf st.trans st.domain.ncols hd.1 (by rw [hn]; exact htr)
  obtain ⟨w3, n3, hsat⟩ := hM _ _ w1 w2 (by omega)
  set m := meet (addLeadingDims st.domain st.trans.length) (stmtGetSchedule st.domain.ncols st.trans) with hm
  have hp : (newDomain meet proj st).WF ∧ (newDomain meet proj st).ncols = st.trans.length + npar + 1 ∧
    ∀ t q : List ℚ, t.length = st.trans.length → q.length = npar →
      ((newDomain meet proj st).Sat (t ++ q) ↔ ∃ x : List ℚ, x.length = st.dim ∧ m.Sat (t ++ x ++ q)) := by
    unfold newDomain projectOutSingle
    simp only [← hm]
    by_cases h0 : st.dim = 0
    · rw [if_pos h0]
      refine ⟨w3, by omega, fun t q ht hq => ?_⟩
      constructor
      · intro h; exact ⟨[], h0.symm ▸ rfl, by simpa using h⟩
      · rintro ⟨x, hx, h⟩
        rw [h0, List.length_eq_zero_iff] at hx
        subst hx; simpa using h
    · rw [if_neg h0]
      obtain ⟨w4, n4, h4⟩ := hP m st.trans.length st.dim w3 (by omega)
      exact ⟨w4, by omega, fun t q ht hq => h4 t q ht (by omega)⟩
  refine ⟨hp.1, hp.2.1, fun t q ht hq => ?_⟩
  rw [hp.2.2 t q ht hq]
  apply exists_congr
  intro x
  apply and_congr_right
  intro hx
  rw [hsat _ (by simp [ht, hx, hq]; omega), List.append_assoc]
  have e1 := C27_add_leading_dims st.domain t (x ++ q) hd (by simp [hx, hq]; omega)
  rw [ht] at e1
  rw [e1, C33_schedule st.trans st.domain.ncols (by rw [hn]; exact htr) t (x ++ q) ht (by simp [hx, hq]; omega)]
  rfl

/-- C33. Every iteration's timestamp is in the transformed domain. -/
theorem C33_iterations {meet : Cst → Cst → Cst} {proj : Cst → Nat → Nat → Cst} (hM : MeetOracle meet)
    (hP : RatProjOracle proj) (st : Stmt) (npar : Nat) (hd : st.domain.WF) (hn : st.domain.ncols = st.dim + npar + 1)
    (htr : ∀ r ∈ st.trans, r.length = st.dim + npar + 1) (x q : List Int) (hx : x.length = st.dim)
    (hq : q.length = npar) (hs : st.domain.Sat (x ++ q)) :
    (newDomain meet proj st).Sat (timesOf st.trans x q ++ q) := by
  obtain ⟨-, -, h⟩ := C33_new_domain hM hP st npar hd hn htr
  have cast : ∀ (c : Cst) (y : List Int), c.Sat (y.map (Int.cast : Int → ℚ)) ↔ c.Sat y := by
    intro c y
    unfold Cst.Sat
    apply forall_congr'
    intro r
    apply imp_congr_right
    intro _
    unfold Row.Sat
    rw [aff_castInt]
    split
    · exact_mod_cast Iff.rfl
    · exact_mod_cast Iff.rfl
  have e : (timesOf st.trans x q).map (Int.cast : Int → ℚ) =
      timesOf st.trans (x.map (Int.cast : Int → ℚ)) (q.map (Int.cast : Int → ℚ)) := by
    unfold timesOf
    rw [List.map_map]
    apply List.map_congr_left
    intro r _
    simp only [Function.comp_apply, ← List.map_append]
    exact (aff_castInt r (x ++ q)).symm
  rw [← cast, List.map_append, e]
  refine (h _ _ (by simp [timesOf]) (by simp [hq])).mpr ⟨_, by simp [hx], ?_, rfl⟩
  rw [← List.map_append, cast]; exact hs

/-! Operations as assumed exist. -/

theorem fmProj_rat : RatProjOracle fmProj := by
  intro c a b hc hn
  induction b generalizing c with
  | zero =>
    refine ⟨hc, rfl, fun A C hA hC => ⟨fun h => ⟨[], rfl, by simpa [fmProj] using h⟩, ?_⟩⟩
    rintro ⟨B, hB, h⟩
    rw [List.length_eq_zero_iff] at hB
    subst hB; simpa [fmProj] using h
  | succ b ih =>
    have hs := C03_fm_shape c a hc (by omega)
    obtain ⟨h1, h2, h3⟩ := ih (fmEliminate c a) hs.1 (by rw [hs.2]; omega)
    refine ⟨h1, by rw [show fmProj c a (b + 1) = fmProj (fmEliminate c a) a b from rfl, h2, hs.2]; omega, ?_⟩
    intro A C hA hC
    rw [show fmProj c a (b + 1) = fmProj (fmEliminate c a) a b from rfl, h3 A C hA (by rw [hs.2]; omega)]
    have e : ∀ B : List ℚ, B.length = b → ((fmEliminate c a).Sat (A ++ B ++ C) ↔ ∃ v : ℚ, c.Sat (A ++ (v :: B) ++ C)) := by
      intro B hB
      rw [C03_fm_exact c a _ hc (by simp [hA, hB]; omega) (by simp [hA])]
      apply exists_congr
      intro v
      have : (A ++ B ++ C).insertIdx a v = A ++ (v :: B) ++ C := by
        rw [List.append_assoc, insertIdx_mid _ _ _ _ hA]; simp
      rw [this]
    constructor
    · rintro ⟨B, hB, h⟩
      obtain ⟨v, hv⟩ := (e B hB).mp h
      exact ⟨v :: B, by simp [hB], hv⟩
    · rintro ⟨B, hB, h⟩
      cases B with
      | nil => simp at hB
      | cons v B =>
        have hB' : B.length = b := by simpa using hB
        exact ⟨B, hB', (e B hB').mpr ⟨v, h⟩⟩

theorem append_meet : MeetOracle (fun c1 c2 => ⟨c1.ncols, c1.rows ++ c2.rows⟩) := by
  intro c1 c2 h1 h2 hn
  refine ⟨⟨h1.1, ?_⟩, rfl, fun x hx => ?_⟩
  · intro r hr
    simp only [List.mem_append] at hr
    rcases hr with hr | hr
    · exact h1.2 r hr
    · rw [hn]; exact h2.2 r hr
  · unfold Cst.Sat
    simp only [List.mem_append]
    exact ⟨fun h => ⟨fun r hr => h r (.inl hr), fun r hr => h r (.inr hr)⟩, fun ⟨h, h'⟩ r hr => hr.elim (h r) (h' r)⟩

/-- A triangular domain with a skewed schedule. -/
def exTriStmt : Stmt :=
  { dim := 2
    dimOrig := 2
    domain := ⟨4, [⟨false, [1, 0, 0, 0]⟩, ⟨false, [-1, 1, 0, 0]⟩, ⟨false, [0, -1, 1, -1]⟩]⟩
    isOrig := [true, true]
    trans := exRemap
    hypTypes := [.loop, .scalar, .loop] }

/-- It meets the hypotheses. -/
example : ∃ (meet : Cst → Cst → Cst) (proj : Cst → Nat → Nat → Cst) (st : Stmt), MeetOracle meet ∧ RatProjOracle proj ∧
    st.domain.WF ∧ st.domain.ncols = st.dim + 1 + 1 ∧ (∀ r ∈ st.trans, r.length = st.dim + 1 + 1) ∧ st.trans.length = 3 :=
  ⟨_, _, exTriStmt, append_meet, fmProj_rat,
    by decide, by decide, by decide, by decide⟩

/-! ### Moving tile constraints into the schedule relation -/

/-- The row with `n` zero coefficients in front. -/
def liftRow (n : Nat) (r : Row) : Row := { r with val := zrow n ++ r.val }

theorem addLeadingDims_eq (c : Cst) (n : Nat) : addLeadingDims c n = ⟨c.ncols + n, c.rows.map (liftRow n)⟩ := by
  induction n generalizing c with
  | zero =>
    simp only [addLeadingDims, List.range_zero, List.foldl_nil]
    cases c with
    | mk nc rows =>
      simp only [Nat.add_zero]
      congr 1
      exact (List.map_id' rows).symm
  | succ n ih =>
    rw [show addLeadingDims c (n + 1) = addLeadingDims (addDim c 0) n from rfl, ih]
    simp only [addDim, List.map_map]
    congr 1
    · omega
    · apply List.map_congr_left
      intro r _
      simp only [Function.comp_apply, liftRow, zrow, List.insertIdx_zero]
      congr 1
      rw [List.replicate_succ']
      simp

theorem normRow_fold (snodes n : Nat) (dom sched : Cst) (k : Nat) (hk : k ≤ dom.rows.length) :
    (List.range k).foldl (normRow snodes n) (dom, sched, 0) =
      (⟨dom.ncols, (dom.rows.take k).filter (fun r => !isTileRow snodes r) ++ dom.rows.drop k⟩,
        ⟨sched.ncols, sched.rows ++ ((dom.rows.take k).filter (isTileRow snodes)).map (liftRow n)⟩,
        ((dom.rows.take k).filter (isTileRow snodes)).length) := by
  induction k with
  | zero => simp
  | succ k ih =>
    have hk' : k < dom.rows.length := by omega
    rw [List.range_succ, List.foldl_append, ih (by omega)]
    simp only [List.foldl_cons, List.foldl_nil]
    have ht : dom.rows.take (k + 1) = dom.rows.take k ++ [dom.rows[k]] := (List.take_append_getElem hk').symm
    have hd : dom.rows.drop k = dom.rows[k] :: dom.rows.drop (k + 1) := List.drop_eq_getElem_cons hk'
    set A := (dom.rows.take k).filter (fun r => !isTileRow snodes r) with hA
    set B := (dom.rows.take k).filter (isTileRow snodes) with hB
    have hlen : A.length + B.length = k := by
      have h1 := List.length_eq_length_filter_add (l := dom.rows.take k) (isTileRow snodes)
      rw [List.length_take] at h1
      simp only [hA, hB]
      omega
    have e : k - B.length = A.length := by omega
    unfold normRow
    simp only [e]
    have hg : (A ++ dom.rows.drop k)[A.length]? = some dom.rows[k] := by
      rw [List.getElem?_append_right (le_refl _), Nat.sub_self, hd]; rfl
    unfold selectRow
    simp only [hg, Option.map_some]
    by_cases c : isTileRow snodes dom.rows[k] = true
    · rw [if_pos c, ht, List.filter_append, List.filter_append]
      simp only [removeRow, addCst, addLeadingDims_eq, List.map_cons, List.map_nil]
      have h1 : List.filter (fun r => !isTileRow snodes r) [dom.rows[k]] = [] := by simp [c]
      have h2 : List.filter (isTileRow snodes) [dom.rows[k]] = [dom.rows[k]] := by simp [c]
      rw [h1, h2, List.append_nil, List.map_append, List.length_append, List.map_cons, List.map_nil, ← List.append_assoc]
      congr 2
      rw [List.eraseIdx_append_of_length_le (le_refl _), hd]
      simp
      rfl
    · rw [if_neg c, ht, List.filter_append, List.filter_append]
      have h1 : List.filter (fun r => !isTileRow snodes r) [dom.rows[k]] = [dom.rows[k]] := by simp [c]
      have h2 : List.filter (isTileRow snodes) [dom.rows[k]] = [] := by simp [c]
      rw [h1, h2, hd]
      simp
      exact ⟨rfl, rfl, rfl⟩

theorem normPiece_eq (snodes n : Nat) (dom sched : Cst) :
    normPiece snodes n dom sched =
      (⟨dom.ncols, dom.rows.filter (fun r => !isTileRow snodes r)⟩,
        ⟨sched.ncols, sched.rows ++ (dom.rows.filter (isTileRow snodes)).map (liftRow n)⟩) := by
  unfold normPiece
  rw [normRow_fold _ _ _ _ _ (le_refl _)]
  simp

/-- The first `k` columns dropped. -/
def dropCols (k : Nat) (c : Cst) : Cst := ⟨c.ncols - k, c.rows.map (fun r => { r with val := r.val.drop k })⟩

theorem removeDim_dropCols (k : Nat) (c : Cst) : removeDim (dropCols k c) 0 = dropCols (k + 1) c := by
  unfold removeDim dropCols
  simp only [List.map_map]
  congr 1
  apply List.map_congr_left
  intro r _
  simp only [Function.comp_apply]
  congr 1
  rw [List.eraseIdx_zero, List.tail_drop]

theorem removeDims_eq (p : Prog) (i : Nat) (st : Stmt) (hst : p.stmts[i]? = some st) (k : Nat) (hk : k ≤ st.dim)
    (hn : st.dim + 1 ≤ st.domain.ncols) :
    ∃ p', (List.range k).foldlM (fun p _ => stmtRemoveDim p i 0) p = some p' ∧
      p'.npar = p.npar ∧ p'.stmts.length = p.stmts.length ∧ (∀ j, j ≠ i → p'.stmts[j]? = p.stmts[j]?) ∧
      p'.stmts[i]? = some { st with
        domain := dropCols k st.domain
        dim := st.dim - k
        trans := st.trans.map (fun r => r.drop k)
        isOrig := st.isOrig.drop k } := by
  induction k with
  | zero =>
    refine ⟨p, rfl, rfl, rfl, fun _ _ => rfl, ?_⟩
    rw [hst]
    simp [dropCols]
  | succ k ih =>
    obtain ⟨p1, h1, h2, h3, h4, h5⟩ := ih (by omega)
    have hi : i < p1.stmts.length := by
      by_contra hc
      rw [List.getElem?_eq_none (by omega)] at h5; cases h5
    rw [List.range_succ, List.foldlM_append, h1]
    simp only [Option.bind_eq_bind, Option.bind_some, List.foldlM_cons, List.foldlM_nil, bind_pure]
    unfold stmtRemoveDim
    rw [h5]
    simp only [Option.bind_eq_bind, Option.bind_some]
    rw [if_neg (by simp only [dropCols]; omega)]
    refine ⟨_, rfl, h2, by simp [h3], fun j hj => ?_, ?_⟩
    · simp only
      rw [List.getElem?_set_ne (by omega)]; exact h4 j hj
    · simp only
      rw [List.getElem?_set_self hi]
      congr 1
      simp only [stmtRemoveDimAt, removeDim_dropCols, List.map_map]
      have e1 : (st.isOrig.drop k).eraseIdx 0 = st.isOrig.drop (k + 1) := by
        rw [List.eraseIdx_zero, List.tail_drop]
      have e2 : List.map ((fun r => r.eraseIdx 0) ∘ fun r : List Int => r.drop k) st.trans =
          st.trans.map (fun r => r.drop (k + 1)) := by
        apply List.map_congr_left
        intro r _
        simp only [Function.comp_apply]
        rw [List.eraseIdx_zero, List.tail_drop]
      rw [e1, e2, Nat.sub_sub]

section
variable {R : Type*} [CommRing R] [LinearOrder R] [IsStrictOrderedRing R]

theorem aff_drop_zero {snodes : Nat} {r : Row} (h : isTileRow snodes r = false) (z y : List R) (hz : z.length = snodes)
    (hl : snodes ≤ r.val.length) : aff r.val (z ++ y) = aff (r.val.drop snodes) y := by
  unfold aff
  conv_lhs => rw [← List.take_append_drop snodes r.val]
  rw [List.append_assoc, dot_append _ _ _ _ (by simp [hz]; omega)]
  have : dot (r.val.take snodes) z = 0 := by
    apply dot_all_zero
    intro a ha
    obtain ⟨j, hj, rfl⟩ := List.mem_iff_getElem.mp ha
    have hj' : j < snodes := by simp at hj; omega
    unfold isTileRow at h
    rw [List.any_eq_false] at h
    have := h j (List.mem_range.mpr hj')
    simp only [coef, decide_eq_true_eq, not_not] at this
    rw [List.getElem_take]
    simpa [List.getD_eq_getElem?_getD, show j < r.val.length by omega] using this
  rw [this, zero_add]

theorem sat_dropCols {snodes : Nat} {c : Cst} (hc : c.WF) (hs : snodes ≤ c.ncols) (z y : List R) (hz : z.length = snodes) :
    (dropCols snodes ⟨c.ncols, c.rows.filter (fun r => !isTileRow snodes r)⟩).Sat y ↔
      ∀ r ∈ c.rows, isTileRow snodes r = false → r.Sat (z ++ y) := by
  have key : ∀ r ∈ c.rows, isTileRow snodes r = false →
      (Row.Sat { r with val := r.val.drop snodes } y ↔ r.Sat (z ++ y)) := by
    intro r hr h
    unfold Row.Sat
    rw [aff_drop_zero h z y hz (by rw [hc.2 r hr]; exact hs)]
  unfold dropCols Cst.Sat
  simp only [List.mem_map, List.mem_filter, Bool.not_eq_true', forall_exists_index, and_imp]
  constructor
  · intro h r hr ht
    exact (key r hr ht).mp (h _ r hr ht rfl)
  · rintro h _ r hr ht rfl
    exact (key r hr ht).mpr (h r hr ht)

theorem sat_liftRow (n : Nat) (r : Row) (t y : List R) (ht : t.length = n) : (liftRow n r).Sat (t ++ y) ↔ r.Sat y := by
  unfold Row.Sat liftRow aff
  simp only
  rw [List.append_assoc, dot_append _ _ _ _ (by simp [zrow, ht]), dot_zrow, zero_add]

theorem sat_sched_ext (sched : Cst) (extra : List Row) (n : Nat) (t y : List R) (ht : t.length = n) :
    Cst.Sat ⟨sched.ncols, sched.rows ++ extra.map (liftRow n)⟩ (t ++ y) ↔
      sched.Sat (t ++ y) ∧ ∀ r ∈ extra, r.Sat y := by
  unfold Cst.Sat
  simp only [List.mem_append, List.mem_map]
  constructor
  · intro h
    exact ⟨fun r hr => h r (.inl hr), fun r hr => (sat_liftRow n r t y ht).mp (h _ (.inr ⟨r, hr, rfl⟩))⟩
  · rintro ⟨h1, h2⟩ r (hr | ⟨r', hr', rfl⟩)
    · exact h1 r hr
    · exact (sat_liftRow n r' t y ht).mpr (h2 r' hr')

end

/-- C48. `normalize_domain_schedule` on a statement whose domain is one polyhedron: it succeeds, leaves the
other statements alone, the statement's domain is again over its original iterators only, and together
the new domain and the schedule relation hold for exactly the same tile iterators `z`, iterations `x`,
parameters and timestamps as the old domain and schedule. -/
theorem C48_relation (p : Prog) (i : Nat) (st : Stmt) (hst : p.stmts[i]? = some st) (hd : st.domain.WF)
    (hn : st.domain.ncols = st.dim + p.npar + 1) (htr : ∀ r ∈ st.trans, r.length = st.dim + p.npar + 1)
    (hdo : st.dimOrig ≤ st.dim) :
    ∃ (sched : Cst) (p' : Prog) (st' : Stmt), normalizeDomainSchedule p i = some (sched, p') ∧ p'.stmts[i]? = some st' ∧
      (∀ j, j ≠ i → p'.stmts[j]? = p.stmts[j]?) ∧
      st'.dim = st.dimOrig ∧ st'.domain.WF ∧ st'.domain.ncols = st.dimOrig + p.npar + 1 ∧
      sched.WF ∧ sched.ncols = st.trans.length + st.dim + p.npar + 1 ∧
      ∀ z x q t : List Int, z.length = st.dim - st.dimOrig → x.length = st.dimOrig → q.length = p.npar →
        t.length = st.trans.length →
        ((sched.Sat (t ++ z ++ x ++ q) ∧ st'.domain.Sat (x ++ q)) ↔
          (st.domain.Sat (z ++ x ++ q) ∧ t = timesOf st.trans (z ++ x) q)) := by
  unfold normalizeDomainSchedule
  rw [hst]
  simp only [Option.bind_eq_bind, Option.bind_some, normPiece_eq]
  set snodes := st.dim - st.dimOrig with hsn
  set st1 : Stmt := { st with domain := ⟨st.domain.ncols, st.domain.rows.filter (fun r => !isTileRow snodes r)⟩ } with hst1
  have hi : i < p.stmts.length := by
    by_contra hc
    rw [List.getElem?_eq_none (by omega)] at hst; cases hst
  obtain ⟨p', h1, h2, h3, h4, h5⟩ := removeDims_eq { p with stmts := p.stmts.set i st1 } i st1
    (by simp [List.getElem?_set_self hi]) snodes (by simp only [hst1]; omega) (by simp only [hst1]; omega)
  rw [h1]
  obtain ⟨ws, ns⟩ := stmtGetSchedule_wf st.trans st.domain.ncols hd.1 (by rw [hn]; exact htr)
  refine ⟨_, p', _, rfl, h5, ?_, ?_, ?_, ?_, ?_, ?_, ?_⟩
  · intro j hj
    rw [h4 j hj]
    simp only
    rw [List.getElem?_set_ne (by omega)]
  · simp only [hst1]; omega
  · refine ⟨by simp only [hst1, dropCols]; omega, ?_⟩
    intro r hr
    simp only [hst1, dropCols, List.mem_map, List.mem_filter] at hr ⊢
    obtain ⟨r', ⟨hr', -⟩, rfl⟩ := hr
    simp [hd.2 r' hr']
  · simp only [hst1, dropCols]; omega
  · refine ⟨by simp only; omega, ?_⟩
    intro r hr
    simp only [List.mem_append, List.mem_map, List.mem_filter] at hr
    rcases hr with hr | ⟨r', ⟨hr', -⟩, rfl⟩
    · exact ws.2 r hr
    · simp only [liftRow, List.length_append, zrow, List.length_replicate, hd.2 r' hr']
      omega
  · simp only; omega
  · intro z x q t hz hx hq ht
    have ea : t ++ z ++ x ++ q = t ++ (z ++ (x ++ q)) := by simp
    have eb : z ++ x ++ q = z ++ (x ++ q) := by simp
    rw [ea, sat_sched_ext _ _ _ t (z ++ (x ++ q)) ht,
      C33_schedule st.trans st.domain.ncols (by rw [hn]; exact htr) t (z ++ (x ++ q)) ht (by simp [hz, hx, hq]; omega)]
    have hdr := sat_dropCols (snodes := snodes) hd (by omega) z (x ++ q) hz
    simp only [hst1]
    rw [hdr]
    have et : timesOf st.trans (z ++ x) q = st.trans.map (fun r => aff r (z ++ (x ++ q))) := by
      unfold timesOf
      simp
    rw [et, eb]
    simp only [List.mem_filter, and_imp]
    constructor
    · rintro ⟨⟨e1, e2⟩, e3⟩
      refine ⟨fun r hr => ?_, e1⟩
      cases c : isTileRow snodes r with
      | true => exact e2 r hr c
      | false => exact e3 r hr c
    · rintro ⟨e1, e2⟩
      exact ⟨⟨e2, fun r hr _ => e1 r hr⟩, fun r hr _ => e1 r hr⟩

/-- A one-dimensional statement tiled by 4 (tile iterator first). -/
def exTiledStmt : Stmt :=
  { dim := 2
    dimOrig := 1
    domain := ⟨4, [⟨false, [0, 1, 0, 0]⟩, ⟨false, [0, -1, 1, -1]⟩, ⟨false, [-4, 1, 0, 0]⟩, ⟨false, [4, -1, 0, 3]⟩]⟩
    isOrig := [false, true]
    trans := [[1, 0, 0, 0], [0, 1, 0, 0]]
    hypTypes := [.tileSpaceLoop, .loop] }

def exTiledProg : Prog := { nvar := 1, npar := 1, stmts := [exTiledStmt], deps := [], hProps := [.tileSpaceLoop, .loop] }

example : (normalizeDomainSchedule exTiledProg 0).map (fun r => (r.1.rows.map (·.val), r.2.stmts.map (·.domain.rows.map (·.val)))) =
    some ([[1, 0, -1, 0, 0, 0], [0, 1, 0, -1, 0, 0], [0, 0, -4, 1, 0, 0], [0, 0, 4, -1, 0, 3]],
      [[[1, 0, 0], [-1, 1, -1]]]) := by decide +kernel

example := C48_relation exTiledProg 0 exTiledStmt rfl (by decide) (by decide) (by decide) (by decide)

theorem normPieces_eq (snodes n : Nat) (ds : List Cst) (sched : Cst) :
    normPieces snodes n ds sched =
      (ds.map (fun d => ⟨d.ncols, d.rows.filter (fun r => !isTileRow snodes r)⟩),
        ⟨sched.ncols, sched.rows ++ (ds.flatMap (fun d => d.rows.filter (isTileRow snodes))).map (liftRow n)⟩) := by
  induction ds generalizing sched with
  | nil => simp [normPieces]
  | cons d ds ih => simp [normPieces, normPiece_eq, ih]

/-- C48, domains that are unions: the relation is kept when all pieces have the same tile constraints.
Missing: pieces with different tile constraints (`C48_violated`). -/
theorem C48_union_partial (snodes nc : Nat) (trans : List (List Int)) (ds : List Cst)
    (hwf : ∀ d ∈ ds, d.WF ∧ d.ncols = nc) (hsn : snodes + 1 ≤ nc) (htr : ∀ r ∈ trans, r.length = nc)
    (hsame : ∀ d ∈ ds, ∀ d' ∈ ds, ∀ r ∈ d.rows, isTileRow snodes r = true → r ∈ d'.rows)
    (z y t : List Int) (hz : z.length = snodes) (hy : snodes + y.length + 1 = nc) (ht : t.length = trans.length) :
    ((normPieces snodes trans.length ds (stmtGetSchedule nc trans)).2.Sat (t ++ z ++ y) ∧
      SatUnion ((normPieces snodes trans.length ds (stmtGetSchedule nc trans)).1.map (dropCols snodes)) y) ↔
    (SatUnion ds (z ++ y) ∧ t = trans.map (fun r => aff r (z ++ y))) := by
  rw [normPieces_eq, List.append_assoc]
  simp only
  rw [sat_sched_ext _ _ _ t (z ++ y) ht, C33_schedule trans nc htr t (z ++ y) ht (by simp [hz]; omega)]
  unfold SatUnion
  simp only [List.map_map, List.mem_map, Function.comp_apply, exists_exists_and_eq_and, List.mem_flatMap,
    List.mem_filter, forall_exists_index, and_imp]
  constructor
  · rintro ⟨⟨h1, h2⟩, d, hd, h3⟩
    refine ⟨⟨d, hd, fun r hr => ?_⟩, h1⟩
    have hdr := (sat_dropCols (snodes := snodes) (hwf d hd).1 (by rw [(hwf d hd).2]; omega) z y hz).mp h3
    cases c : isTileRow snodes r with
    | true => exact h2 r d hd hr c
    | false => exact hdr r hr c
  · rintro ⟨⟨d, hd, h1⟩, h2⟩
    refine ⟨⟨h2, fun r d' hd' hr c => h1 r (hsame d' hd' d hd r hr c)⟩, d, hd, ?_⟩
    exact (sat_dropCols (snodes := snodes) (hwf d hd).1 (by rw [(hwf d hd).2]; omega) z y hz).mpr fun r hr _ => h1 r hr

/-- A union domain as tiling leaves it: `pluto_constraints_add_inequality` (lib/constraints.c:1475-1490)
adds a row to every piece, but only the first piece gets the tile constraints written into it
(lib/tile.c:145-186). -/
def exUnionTiled : List Cst :=
  [⟨3, [⟨false, [0, 1, 0]⟩, ⟨false, [0, -1, 3]⟩, ⟨false, [-4, 1, 0]⟩, ⟨false, [4, -1, 3]⟩]⟩,
   ⟨3, [⟨false, [0, 1, -10]⟩, ⟨false, [0, -1, 12]⟩, ⟨false, [0, 0, 0]⟩, ⟨false, [0, 0, 0]⟩]⟩]

/-- C48 does not hold for all unions: the constraints of the first piece are imposed on all of them. -/
theorem C48_violated :
    ¬ ∀ z y t : List Int, z.length = 1 → y.length = 1 → t.length = 2 →
      (((normPieces 1 2 exUnionTiled (stmtGetSchedule 3 [[1, 0, 0], [0, 1, 0]])).2.Sat (t ++ z ++ y) ∧
        SatUnion ((normPieces 1 2 exUnionTiled (stmtGetSchedule 3 [[1, 0, 0], [0, 1, 0]])).1.map (dropCols 1)) y) ↔
      (SatUnion exUnionTiled (z ++ y) ∧ t = [[1, 0, 0], [0, 1, 0]].map (fun r => aff r (z ++ y)))) := by
  intro h
  have := (h [0] [10] [0, 10] rfl rfl rfl).mpr ⟨⟨exUnionTiled[1], by simp [exUnionTiled], by
    intro r hr
    simp [exUnionTiled] at hr
    rcases hr with rfl | rfl | rfl <;> simp [Row.Sat, aff, dot]⟩, by simp [aff, dot]⟩
  have h2 := this.1 (liftRow 2 ⟨false, [4, -1, 3]⟩) (by decide +kernel)
  simp [Row.Sat, liftRow, aff, dot, zrow, List.replicate] at h2

end Pluto
