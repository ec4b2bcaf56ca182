import Verif.Lemmas.AutoUnpad
import Verif.Spec.Polyloop
import Mathlib.LinearAlgebra.FiniteDimensional.Lemmas

/-! Statements of the same depth: every level of the schedules found is scalar for all of them or for none. -/

namespace Pluto

/-- All statements have `n` loops and schedules of the same rank, and each level is scalar for all or for none. -/
def Even (n : Nat) (p : Prog) : Prop :=
  ∃ r, ∀ st ∈ p.stmts, st.dimOrig = n ∧ rowRank n (st.trans.map (·.take n)) = r ∧
    ∀ (l : Nat) (row : List Int), st.trans[l]? = some row → (p.hProps[l]? = some HypType.scalar ↔ ∀ v ∈ row.take n, v = 0)

theorem qvec_zero {n : Nat} {r : List Int} (h : ∀ v ∈ r, v = 0) : qvec n r = 0 := by
  funext j
  unfold qvec
  rw [List.getD_eq_getElem?_getD]
  cases hc : r[(j : Nat)]? with
  | none => simp
  | some v => simp [h v (List.mem_of_getElem? hc)]

theorem rowSpace_append (n : Nat) (rows : List (List Int)) (r : List Int) :
    rowSpace n (rows ++ [r]) = rowSpace n rows ⊔ Submodule.span ℚ {qvec n r} := by
  unfold rowSpace
  rw [← Submodule.span_union]
  congr 1
  ext v
  simp only [List.mem_append, List.mem_singleton, Set.mem_setOf_eq, Set.mem_union, Set.mem_singleton_iff]
  constructor
  · rintro ⟨a, ha | rfl, rfl⟩
    · exact .inl ⟨a, ha, rfl⟩
    · exact .inr rfl
  · rintro (⟨a, ha, rfl⟩ | rfl)
    · exact ⟨a, .inl ha, rfl⟩
    · exact ⟨r, .inr rfl, rfl⟩

theorem rowRank_new {n : Nat} {rows : List (List Int)} {r : List Int} (h : qvec n r ∉ rowSpace n rows) :
    rowRank n (rows ++ [r]) = rowRank n rows + 1 := by
  unfold rowRank
  rw [rowSpace_append, Submodule.finrank_sup_span_singleton h]

theorem rowRank_zero {n : Nat} {rows : List (List Int)} {r : List Int} (h : ∀ v ∈ r, v = 0) :
    rowRank n (rows ++ [r]) = rowRank n rows := by
  unfold rowRank
  rw [rowSpace_append, qvec_zero h, Submodule.span_zero_singleton, sup_bot_eq]

theorem even_span {n : Nat} {p : Prog} {st : Stmt} (hn : st.dimOrig = n) (hlen : st.trans.length = p.hProps.length)
    (h : ∀ (l : Nat) (row : List Int), st.trans[l]? = some row → (p.hProps[l]? = some HypType.scalar ↔ ∀ v ∈ row.take n, v = 0)) :
    rowSpace st.dimOrig (st.trans.map (·.take st.dimOrig)) ≤ loopSpan p st := by
  unfold rowSpace
  rw [Submodule.span_le]
  rintro v ⟨r, hr, rfl⟩
  obtain ⟨row, hrow, rfl⟩ := List.mem_map.mp hr
  obtain ⟨l, hl, hg⟩ := List.getElem_of_mem hrow
  have hg' : st.trans[l]? = some row := by rw [List.getElem?_eq_getElem hl, hg]
  have ht : p.hProps[l]? = some (p.hProps[l]'(by omega)) := List.getElem?_eq_getElem _
  by_cases hc : p.hProps[l]'(by omega) = HypType.scalar
  · rw [hc] at ht
    have := (h l row hg').mp ht
    rw [qvec_zero (by rw [hn]; exact this)]
    exact Submodule.zero_mem _
  · exact Submodule.subset_span ⟨l, row, _, hg', ht, hc, rfl⟩

theorem getElem?_snoc {α : Type} {l : List α} {a b : α} {i : Nat} (h : (l ++ [a])[i]? = some b) : l[i]? = some b ∨ i = l.length ∧ b = a := by
  rcases Nat.lt_or_ge i l.length with hc | hc
  · rw [List.getElem?_append_left hc] at h; exact .inl h
  · rw [List.getElem?_append_right hc] at h
    have := (List.getElem?_eq_some_iff.mp h).1
    simp only [List.length_singleton] at this
    have hi : i = l.length := by omega
    subst hi
    simp at h
    exact .inr ⟨rfl, h.symm⟩

theorem even_moves {isEmpty : Cst → Bool} (hE : EmptyOracle isEmpty) {k : Prog} (hk : SkelOK k) (n : Nat) :
    Moves isEmpty k False True (Even n) where
  hyper := by
    rintro p sol hi ⟨r, hr⟩ hs hnew
    obtain ⟨⟨st0, hst0, hneed⟩, hnw⟩ := hnew trivial
    have hlt : r < n := by
      obtain ⟨a, b, _⟩ := hr st0 hst0
      unfold NeedsLoops at hneed
      rw [a, b] at hneed
      exact hneed
    refine ⟨r + 1, fun st' hst' => ?_⟩
    unfold addHyperplane at hst' ⊢
    obtain ⟨j, hj, rfl⟩ := List.mem_mapIdx.mp hst'
    have hm := List.getElem_mem hj
    obtain ⟨e1, e2, e3⟩ := hr _ hm
    obtain ⟨l1, _⟩ := hi.rows _ hm
    have hle : n ≤ p.nvar := by rw [← e1]; exact (hk.stmt hi.sk hm).2.1
    have hneed' : NeedsLoops p.stmts[j] := by
      unfold NeedsLoops; rw [e1, e2]; exact hlt
    have hv := hnw j _ (List.getElem?_eq_getElem hj) hneed'
    have hnot := fun hx => hv (even_span e1 l1 e3 hx)
    have etake : (hyperplaneRow p.nvar p.npar sol j).take n = stmtCoeffs p j p.stmts[j] sol := by
      unfold hyperplaneRow stmtCoeffs
      rw [e1]
      have hlen : n ≤ ((sol.drop (stmtOffset p.nvar p.npar j)).take p.nvar).length := by
        have := hs.len
        unfold SolLen at this
        have hb := stmtOffset_bound p.nvar p.npar p.stmts.length j hj
        rw [List.length_take, List.length_drop]
        unfold cstWidth at hb
        omega
      rw [List.append_assoc, List.take_append_of_le_length hlen, List.take_take, Nat.min_eq_left hle]
      rfl
    rw [← etake] at hnot
    simp only at hnot ⊢
    rw [e1] at hnot
    refine ⟨e1, ?_, fun l row hl => ?_⟩
    · rw [List.map_append, List.map_singleton, rowRank_new hnot, e2]
    · rcases getElem?_snoc hl with hl | ⟨rfl, rfl⟩
      · have hlt := (List.getElem?_eq_some_iff.mp hl).1
        rw [List.getElem?_append_left (by omega)]
        exact e3 l row hl
      · rw [l1]
        simp only [List.getElem?_concat_length, Option.some.injEq, reduceCtorEq, false_iff]
        intro hz
        apply hnot
        rw [qvec_zero hz]
        exact Submodule.zero_mem _
  scalar := by
    rintro p f c hi ⟨r, hr⟩ hf _
    refine ⟨r, fun st' hst' => ?_⟩
    have hap := scalar_appended (p := p) f c hf
    unfold addScalarRows at hst'
    obtain ⟨j, hj, rfl⟩ := List.mem_mapIdx.mp hst'
    have hm := List.getElem_mem hj
    obtain ⟨e1, e2, e3⟩ := hr _ hm
    obtain ⟨l1, _⟩ := hi.rows _ hm
    have hle : n ≤ p.nvar := by rw [← e1]; exact (hk.stmt hi.sk hm).2.1
    have hz : ∀ v ∈ (zrow (p.nvar + p.npar) ++ [c j]).take n, v = 0 := by
      rw [List.take_append_of_le_length (by simp [zrow]; omega)]
      intro v hv
      have := List.mem_of_mem_take hv
      simp [zrow] at this
      exact this.2
    have hpne : p.stmts ≠ [] := by intro hc; rw [hc] at hj; simp at hj
    rw [hf j hj]
    simp only [List.map_singleton]
    refine ⟨e1, ?_, fun l row hl => ?_⟩
    · rw [List.map_append, List.map_singleton, rowRank_zero hz, e2]
    · have hhp : (addScalarRows p f).hProps = p.hProps ++ [HypType.scalar] := by
        unfold addScalarRows
        have := hf 0 (List.length_pos_of_ne_nil hpne)
        simp [this]
      rw [hhp]
      rcases getElem?_snoc hl with hl | ⟨rfl, rfl⟩
      · have hlt := (List.getElem?_eq_some_iff.mp hl).1
        rw [List.getElem?_append_left (by omega)]
        exact e3 l row hl
      · rw [l1]
        simpa using hz
  update := by
    intro p p' l m hi hT hl h
    obtain ⟨_, e, _⟩ := hi.update hE hk hl h
    rw [e]; exact hT
  drop := by
    intro p ds _ hT _
    exact hT
  precise := by
    intro h; exact h.elim

/-- If all statements have the same number of loops and the search stays in EAGER mode, then every level is
scalar for all statements or for none. -/
theorem auto_even (o : AutoOpts) (L : Libs) (hE : EmptyOracle L.isEmpty) (hL : FeasibleOracle L.solve) (hK : KernelOracle L.kernel)
    (fuel : Nat) (d0 : DfsState) (p0 p : Prog) (hp : p0.InputOK) (hz : EagerAuto o L noDiamond fuel d0 p0)
    (n : Nat) (hn : ∀ st ∈ p0.stmts, st.dim = n)
    (h : autoTransform o L noDiamond fuel d0 p0 = some (.success p)) :
    ∀ l i j, i < p.stmts.length → j < p.stmts.length → p.Scalar l i → p.Scalar l j := by
  by_cases hne : p0.stmts = []
  · have r1 := (auto_legal noDiamond o L hE hL fuel d0 p0 p hp noDiamond_ok h).2.2.1
    have := r1.length_eq
    rw [hne] at this
    simp only [List.length_nil] at this
    intro l i j hi
    omega
  · obtain ⟨k, q, hk, hi, hpad, _, hden, r, hr⟩ := auto_keeps (lz := False) (ke := True) (I := Even n) o L hE hL
      (fun _ => ⟨hK, fun h => h⟩) fuel d0 p0 p (fun k hk _ => even_moves hE hk n) (fun m p h h0 hpad => by
        refine ⟨rowRank n [], fun st hst => ?_⟩
        rw [(h.trans st hst).1]
        refine ⟨?_, rfl, by simp⟩
        obtain ⟨i, hi, rfl⟩ := List.getElem_of_mem hst
        have := hpad.stmts i
        rw [List.getElem?_eq_getElem hi] at this
        cases hc : p0.stmts[i]? with
        | none => rw [hc] at this; cases this
        | some st0 =>
          rw [hc] at this
          cases this with
          | some hps =>
            rw [hps.orig, ← (hp.stmts st0 (List.mem_of_getElem? hc)).1]
            exact hn _ (List.mem_of_getElem? hc)) hp (.inr hz) hne h
    obtain ⟨h2, h3, hu⟩ := unpad_facts hp hi hpad hden
    have key : ∀ i < p.stmts.length, ∀ l, p.Scalar l i ↔ q.hProps[l]? = some HypType.scalar := by
      intro i hil l
      have hil0 : i < p0.stmts.length := by rw [← h2.len]; exact hil
      obtain ⟨st, st', u⟩ := hu i hil0
      obtain ⟨e1, _, e3⟩ := hr st (List.mem_of_getElem? u.getq)
      have hd : p0.dim i = n := by
        rw [Prog.dim_of (List.getElem?_eq_getElem hil0)]
        exact hn _ (List.getElem_mem hil0)
      have hle := u.le
      have hcut : ∀ row ∈ st.trans, (cutRow n p0.nvar row).take n = row.take n := by
        intro row hrow
        unfold cutRow
        have := u.row row hrow
        rw [List.take_append_of_le_length (by rw [List.length_take]; omega), List.take_take, Nat.min_self]
      constructor
      · rintro ⟨s1, r1, g1, g2, g3⟩
        rw [u.getp, Option.some.injEq] at g1
        subst g1
        rw [u.trans, List.getElem?_map, Option.map_eq_some_iff] at g2
        obtain ⟨row, g4, rfl⟩ := g2
        rw [u.dim, hd, hcut row (List.mem_of_getElem? g4)] at g3
        exact (e3 l row g4).mpr g3
      · intro ht
        have hl : l < st.trans.length := by rw [u.len]; exact (List.getElem?_eq_some_iff.mp ht).1
        have g4 := List.getElem?_eq_getElem hl
        refine ⟨st', cutRow (p0.dim i) p0.nvar st.trans[l], u.getp, by rw [u.trans, List.getElem?_map, g4]; rfl, ?_⟩
        rw [u.dim, hd, hcut _ (List.getElem_mem hl)]
        exact (e3 l _ g4).mp ht
    intro l i j hi hj hs
    exact (key j hj l).mpr ((key i hi l).mp hs)

end Pluto
