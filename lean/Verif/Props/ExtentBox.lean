import Verif.Props.Extent
import Verif.Lemmas.SatFold

/-! C78: bounding boxes. -/

namespace Pluto

theorem block_count (c : Cst) (q : List Int) : ∀ (es : List Int) (pre : List Int) (pts : List (List Int)),
    (∀ k e, es[k]? = some e → ∀ pre' vs : List Int, pre'.length = pre.length + k → vs ≠ [] → BlockPoints c 1 q pre' (vs.map ([·])) →
      (vs.length : Int) ≤ e) → pts ≠ [] → BlockPoints c es.length q pre pts → (pts.length : Int) ≤ es.prod
  | [], pre, pts, _, _, hb => by
    have h1 : ∀ t ∈ pts, t = [] := fun t ht => List.length_eq_zero_iff.mp (hb.2 t ht).1
    match pts, h1, hb.1 with
    | [], _, _ => simp
    | [a], _, _ => simp
    | a :: b :: l, h1, hn =>
      have := h1 a (by simp)
      have := h1 b (by simp)
      simp_all
  | e :: es, pre, pts, he, hne, hb => by
    have hcons : ∀ t ∈ pts, ∃ v t', t = v :: t' ∧ t'.length = es.length := by
      intro t ht
      have hl := (hb.2 t ht).1
      match t, hl with
      | v :: t', hl => exact ⟨v, t', rfl, by simpa using hl⟩
    set f : List Int → Int := fun t => t.headD 0 with hf
    set s := pts.toFinset with hs
    have hcard : s.card = pts.length := List.toFinset_card_of_nodup hb.1
    -- the first coordinates
    set vs := (s.image f).toList with hvs
    have hvm : ∀ v, v ∈ vs ↔ ∃ t ∈ pts, f t = v := by
      intro v
      rw [hvs, Finset.mem_toList, Finset.mem_image]
      simp [hs]
    obtain ⟨t0, ht0⟩ := List.exists_mem_of_ne_nil pts hne
    have hvne : vs ≠ [] := List.ne_nil_of_mem ((hvm (f t0)).mpr ⟨t0, ht0, rfl⟩)
    have hvlen : (vs.length : Int) ≤ e := by
      refine he 0 e rfl pre vs (by simp) hvne ⟨?_, ?_⟩
      · exact (Finset.nodup_toList _).map (fun a b h => by simpa using h)
      · intro t ht
        obtain ⟨v, hv, rfl⟩ := List.mem_map.mp ht
        obtain ⟨t, htp, hft⟩ := (hvm v).mp hv
        obtain ⟨v', t', rfl, hl'⟩ := hcons t htp
        have : v' = v := hft
        subst this
        obtain ⟨-, mid, h1, h2⟩ := hb.2 _ htp
        simp only [List.length_cons] at h1
        exact ⟨rfl, t' ++ mid, by simp; omega, by simpa using h2⟩
    -- the points with a given first coordinate
    have hfib : ∀ v, (pts.filter (fun t => decide (f t = v))) ≠ [] → ((pts.filter (fun t => decide (f t = v))).length : Int) ≤ es.prod := by
      intro v hvne
      have := block_count c q es (pre ++ [v]) ((pts.filter (fun t => decide (f t = v))).map List.tail)
        (fun k e' hk pre' vs' hp hn hbp => he (k + 1) e' (by simpa using hk) pre' vs' (by simp at hp; omega) hn hbp)
        (by simpa using hvne) ⟨?_, ?_⟩
      · simpa using this
      · rw [List.nodup_map_iff_inj_on (hb.1.filter _)]
        intro a ha b hb' hab
        obtain ⟨ha1, ha2⟩ := List.mem_filter.mp ha
        obtain ⟨hb1, hb2⟩ := List.mem_filter.mp hb'
        obtain ⟨x, t, rfl, -⟩ := hcons a ha1
        obtain ⟨y, u, rfl, -⟩ := hcons b hb1
        have e1 : x = v := of_decide_eq_true ha2
        have e2 : y = v := of_decide_eq_true hb2
        rw [e1, e2, show t = u from hab]
      · intro t' ht'
        obtain ⟨t, ht, rfl⟩ := List.mem_map.mp ht'
        obtain ⟨ht1, ht2⟩ := List.mem_filter.mp ht
        obtain ⟨x, t, rfl, hl⟩ := hcons t ht1
        have e1 : x = v := of_decide_eq_true ht2
        subst e1
        obtain ⟨-, mid, h1, h2⟩ := hb.2 _ ht1
        simp only [List.length_cons] at h1
        exact ⟨hl, mid, by simp; omega, by simpa using h2⟩
    have hpos : 0 < es.prod := by
      have hne : pts.filter (fun t => decide (f t = f t0)) ≠ [] := List.ne_nil_of_mem (List.mem_filter.mpr ⟨ht0, by simp⟩)
      have := hfib (f t0) hne
      have := List.length_pos_iff.mpr hne
      omega
    have hmul : s.card ≤ es.prod.toNat * (s.image f).card := by
      refine Finset.card_le_mul_card_image s es.prod.toNat (fun v _ => ?_)
      have : (s.filter (fun t => f t = v)).card = (pts.filter (fun t => decide (f t = v))).length := by
        rw [← List.toFinset_card_of_nodup (hb.1.filter _), List.toFinset_filter, hs]
        congr 1
        ext t
        simp
      rw [this]
      by_cases hn : pts.filter (fun t => decide (f t = v)) = []
      · rw [hn]; simp
      · have := hfib v hn; omega
    have hl : (s.image f).card = vs.length := by rw [hvs, Finset.length_toList]
    rw [hcard, hl] at hmul
    have h1 : (pts.length : Int) ≤ es.prod * vs.length := by
      have := Int.ofNat_le.mpr hmul
      rw [Int.natCast_mul, Int.toNat_of_nonneg (by omega)] at this
      exact this
    rw [List.prod_cons]
    calc (pts.length : Int) ≤ es.prod * vs.length := h1
      _ ≤ es.prod * e := Int.mul_le_mul_of_nonneg_left hvlen (by omega)
      _ = e * es.prod := mul_comm _ _

/-- What is assumed about dimension `pos` of `c`: the text of its lower bound is a single operand, and constants are compared for coefficients of one
magnitude. -/
def PlainDim (proj : Cst → Nat → Nat → Cst) (c : Cst) (pos npar : Nat) : Prop :=
  (∃ m : Int, 0 < m ∧ ∀ r ∈ (projectOutSingle proj c (pos + 1) (c.ncols - 1 - pos - 1)).rows,
    coef r.val pos = 0 ∨ coef r.val pos = m ∨ coef r.val pos = -m) ∧
  ∀ lb ub, getLbUbExpr proj c pos npar = some (lb, ub) → lb.Single

/-- C78: `get_parametric_bounding_box`. For all parameters, the printed expression is at least the number of points of the block in the union, for any values of the
variables before it, if dimensions are plain and no extent is negative. Missing for the full claim: the first is needed by `C78_violated_difference` and C31, the second by
`C78_violated_union`. -/
theorem C78_box_partial {proj : Cst → Nat → Nat → Cst} (hP : ProjOracle proj) (start num npar : Nat) (q pre : List Int) (hq : q.length = npar)
    (hpre : pre.length = start) : ∀ (cs : List Cst) (_ : ∀ c ∈ cs, c.WF) (_ : ∀ c ∈ cs, ∀ k < num, PlainDim proj c (start + k) npar)
    (box : List (List CExtent)) (_ : getBoundingBox proj cs start num npar = some box) (_ : ∀ es ∈ box, ∀ e ∈ es, 0 ≤ e.value q)
    (pts : List (List Int)) (_ : pts.Nodup) (_ : ∀ t ∈ pts, ∃ c ∈ cs, BlockPoints c num q pre [t]), (pts.length : Int) ≤ boxValue q box
  | [], _, _, box, _, _, pts, _, hp => by
    match pts, hp with
    | [], _ =>
      rename_i hbox _ _ _
      obtain rfl : box = [] := by simpa [getBoundingBox] using hbox.symm
      simp [boxValue]
    | t :: _, hp => obtain ⟨c, h, -⟩ := hp t (by simp); simp at h
  | c :: cs, hc, hd, box, hbox, hnn, pts, hnd, hp => by
    classical
    unfold getBoundingBox at hbox
    rw [List.mapM_cons] at hbox
    simp only [Option.bind_eq_bind, Option.bind_eq_some_iff, Option.pure_def, Option.some.injEq] at hbox
    obtain ⟨es, hes, box', hbox', rfl⟩ := hbox
    set A := pts.filter (fun t => decide (BlockPoints c num q pre [t])) with hA
    set B := pts.filter (fun t => !decide (BlockPoints c num q pre [t])) with hB
    have hlen : pts.length = A.length + B.length := by
      rw [hA, hB]
      have := List.length_eq_length_filter_add (l := pts) (fun t => decide (BlockPoints c num q pre [t]))
      simpa using this
    have ihB := C78_box_partial hP start num npar q pre hq hpre cs (fun c h => hc c (List.mem_cons_of_mem _ h))
      (fun c h => hd c (List.mem_cons_of_mem _ h)) box' hbox' (fun es h => hnn es (List.mem_cons_of_mem _ h)) B (hnd.filter _) (by
        intro t ht
        obtain ⟨h1, h2⟩ := List.mem_filter.mp ht
        obtain ⟨c', hc', hb⟩ := hp t h1
        rcases List.mem_cons.mp hc' with rfl | h
        · simp [hb] at h2
        · exact ⟨c', h, hb⟩)
    have hext := mapM_forall₂ _ _ _ hes
    have hl : es.length = num := by rw [← hext.length_eq, List.length_range]
    have hA' : (A.length : Int) ≤ (es.map (CExtent.value q)).prod := by
      by_cases hAn : A = []
      · rw [hAn]
        refine List.prod_nonneg (fun a ha => ?_)
        obtain ⟨e, he, rfl⟩ := List.mem_map.mp ha
        exact hnn es (by simp) e he
      · refine block_count c q (es.map (CExtent.value q)) pre A ?_ hAn ⟨hnd.filter _, ?_⟩
        · intro k e hk pre' vs hpl hvn hbp
          rw [List.getElem?_map] at hk
          obtain ⟨x, hx, rfl⟩ := Option.map_eq_some_iff.mp hk
          have hkn : k < num := by rw [← hl]; exact (List.getElem?_eq_some_iff.mp hx).1
          obtain ⟨⟨m, hm, hmag⟩, hsing⟩ := hd c (by simp) k hkn
          have hxe : getExtentConst proj c (start + k) npar = some x := by
            have := List.forall₂_iff_get.mp hext
            have h2 := this.2 k (by simpa using hkn) (by omega)
            obtain ⟨hk', hx'⟩ := List.getElem?_eq_some_iff.mp hx
            simpa [hx'] using h2
          exact C78_extent_const_partial hP c (hc c (by simp)) (start + k) npar m hm hmag hsing x hxe pre' q vs (by omega) hq hvn hbp
        · intro t ht
          have := of_decide_eq_true (List.mem_filter.mp ht).2
          simpa [hl] using this.2 t (by simp)
    have e : boxValue q (es :: box') = (es.map (CExtent.value q)).prod + boxValue q box' := by simp [boxValue]
    rw [e, hlen]
    push_cast
    omega

end Pluto
