import Verif.Spec.Mark
import Verif.Model.Mark
import Verif.Lemmas.TileBands

/-! Lemmas about the loops chosen for unroll-jam. -/

namespace Pluto

theorem range'_get (ts : List Int) (k e : Nat) (h : e ≤ ts.length) :
    (ts.take e).drop (k + 1) = (List.range' (k + 1) (e - (k + 1))).map (fun l => ts.getD l 0) := by
  apply List.ext_getElem
  · simp; omega
  · intro n h1 h2
    simp only [List.length_drop, List.length_take] at h1
    simp only [List.getElem_drop, List.getElem_take, List.getElem_map, List.getElem_range', List.getD_eq_getElem?_getD]
    rw [List.getElem?_eq_getElem (by omega)]
    simp

/-- Grouping keeps the order if no entry inside goes backwards when those between are equal. -/
theorem lex_jam {a b : List Int} {k e : Nat} {o u : Int} (hu : 0 < u) (hke : k < e) (la : e ≤ a.length) (lb : e ≤ b.length)
    (h : LexBefore a b)
    (hc : a.take k = b.take k → ∀ l, k < l → l < e → (∀ l', k < l' → l' < l → a.getD l' 0 = b.getD l' 0) →
      a.getD l 0 ≤ b.getD l 0) :
    LexBefore (jamTime o u k e a) (jamTime o u k e b) := by
  unfold jamTime
  simp only [List.append_assoc]
  rw [← List.take_append_drop k a, ← List.take_append_drop k b] at h
  have l0 : (a.take k).length = (b.take k).length := by simp; omega
  rcases lex_split l0 h with h1 | ⟨h1, h2⟩
  · exact lex_append (by simpa using h1) _ _
  have hcc := hc h1
  rw [h1, lex_prefix]
  have ea : a.drop k = [a.getD k 0] ++ ((a.take e).drop (k + 1) ++ a.drop e) := by
    have : a.drop (k + 1) = (a.take e).drop (k + 1) ++ a.drop e := by
      conv_lhs => rw [← List.take_append_drop e a]
      rw [List.drop_append_of_le_length (by simp; omega)]
    rw [← this, List.drop_eq_getElem_cons (by omega), List.getD_eq_getElem?_getD, List.getElem?_eq_getElem (by omega)]
    rfl
  have eb : b.drop k = [b.getD k 0] ++ ((b.take e).drop (k + 1) ++ b.drop e) := by
    have : b.drop (k + 1) = (b.take e).drop (k + 1) ++ b.drop e := by
      conv_lhs => rw [← List.take_append_drop e b]
      rw [List.drop_append_of_le_length (by simp; omega)]
    rw [← this, List.drop_eq_getElem_cons (by omega), List.getD_eq_getElem?_getD, List.getElem?_eq_getElem (by omega)]
    rfl
  rw [ea, eb] at h2
  have hmid := lex_map (List.range' (k + 1) (e - (k + 1))) (fun l => a.getD l 0) (fun l => b.getD l 0) (by
    intro A m B hAB hA
    have hm : m ∈ List.range' (k + 1) (e - (k + 1)) := by rw [hAB]; simp
    rw [List.mem_range'_1] at hm
    refine hcc m (by omega) (by omega) (fun l' h1 h2 => hA l' ?_)
    have hl : l' ∈ List.range' (k + 1) (e - (k + 1)) := by rw [List.mem_range'_1]; omega
    rw [hAB] at hl
    have hp : (A ++ m :: B).Pairwise (· < ·) := by rw [← hAB]; exact List.pairwise_lt_range'
    rw [List.pairwise_append] at hp
    rcases List.mem_append.mp hl with hl | hl
    · exact hl
    · rcases List.mem_cons.mp hl with rfl | hl
      · omega
      · have := List.rel_of_pairwise_cons hp.2.1 hl
        omega)
  rw [← range'_get a k e la, ← range'_get b k e lb] at hmid
  have one : ∀ {x y : Int} (X Y : List Int), x < y → LexBefore ([x] ++ X) ([y] ++ Y) :=
    fun {x y} X Y hxy => lex_append ⟨0, x, y, rfl, rfl, hxy, fun l' hl' => absurd hl' (by omega)⟩ _ _
  have hk : a.getD k 0 ≤ b.getD k 0 := by
    rcases lex_split (by simp) h2 with h3 | ⟨h3, _⟩
    · obtain ⟨l, x, y, p1, p2, p3, _⟩ := h3
      have : l = 0 := by
        have := (List.getElem?_eq_some_iff.mp p1).1
        simp at this; exact this
      subst this
      simp only [List.getElem?_cons_zero, Option.some.injEq] at p1 p2
      rw [p1, p2]; omega
    · simp only [List.cons.injEq, and_true] at h3
      omega
  have hdiv : (a.getD k 0 - o) / u ≤ (b.getD k 0 - o) / u := Int.ediv_le_ediv hu (by omega)
  rcases lt_or_eq_of_le hdiv with hlt | heq
  · exact one _ _ hlt
  · rw [heq, lex_prefix]
    rcases hmid with hm | hm
    · rw [hm, lex_prefix]
      rcases lt_or_eq_of_le hk with hlt | hke'
      · refine one _ _ ?_
        have e1 := Int.mul_ediv_add_emod (a.getD k 0 - o) u
        have e2 := Int.mul_ediv_add_emod (b.getD k 0 - o) u
        rw [heq] at e1
        omega
      · rw [hke', lex_prefix]
        rw [hke', lex_prefix, hm, lex_prefix] at h2
        exact h2
    · exact lex_append hm _ _

/-- Where the loops for unroll-jam come from. -/
theorem unrollJam_mem {p : Prog} {want : Loop → Bool} {ls : List Loop} (h : unrollJamLoops p want = some ls) {L : Loop} (hL : L ∈ ls) :
    want L = true ∧ loopIsInnermost p L = some false ∧ ∃ bands, innermostBands p 1 = some bands ∧ ∃ b ∈ bands,
      ∃ loops, getLoopsUnder p b.loop.stmts b.loop.depth = some loops ∧ L ∈ loops := by
  unfold unrollJamLoops at h
  simp only [Option.bind_eq_bind, Option.bind_eq_some_iff, pure, Option.some.injEq] at h
  obtain ⟨bands, h1, lss, h2, rfl⟩ := h
  obtain ⟨xs, hx, hL⟩ := List.mem_flatten.mp hL
  obtain ⟨b, hb, hm⟩ := forall₂_mem_right (mapM_forall₂ _ _ _ h2) hx
  simp only [Option.bind_eq_some_iff, Option.some.injEq] at hm
  obtain ⟨loops, k1, inner, k2, rfl⟩ := hm
  simp only [List.mem_map, List.mem_filter, Bool.and_eq_true, Bool.not_eq_true'] at hL
  obtain ⟨x, ⟨x1, x2, x3⟩, rfl⟩ := hL
  have := (List.forall₂_iff_zip.mp (mapM_forall₂ _ _ _ k2)).2 x1
  rw [x3] at this
  exact ⟨x2, this, bands, h1, b, hb, loops, k1, (List.of_mem_zip x1).1⟩

theorem innermostBands_mem {p : Prog} {n : Nat} {bands : List Band} (h : innermostBands p n = some bands) {b : Band}
    (hb : b ∈ bands) : ∃ all, getAllLoops p = some all ∧ b.loop ∈ all ∧ permutableBand p b.loop = some (some b) ∧
      isBandInnermost p b n = some true := by
  unfold innermostBands at h
  simp only [Option.bind_eq_bind, Option.bind_eq_some_iff, pure, Option.some.injEq] at h
  obtain ⟨all, h1, bs, h2, ok, h3, rfl⟩ := h
  unfold dominatorBands at hb
  have hb := (List.mem_filter.mp hb).1
  simp only [List.mem_map, List.mem_filter] at hb
  obtain ⟨x, ⟨x1, x2⟩, rfl⟩ := hb
  have hin := (List.of_mem_zip x1).1
  have hok := (List.forall₂_iff_zip.mp (mapM_forall₂ _ _ _ h3)).2 x1
  rw [x2] at hok
  obtain ⟨k1, k2⟩ := outer_sublist h2
  exact ⟨all, h1, k1.subset (List.mem_map.mpr ⟨_, hin, rfl⟩), k2 _ hin, hok⟩

end Pluto
