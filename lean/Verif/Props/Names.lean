import Verif.Lemmas.Names
import Mathlib.Tactic.Cases

/-! C89: the names of variables stay with their dimensions. -/

namespace Pluto

/-- Growing the array: the names stay and the new dimensions have none. -/
theorem resizeNames_named {h : NameHeap} {c : NamedCst} {rest : Nat → Option String} {l : List (Option String)}
    (hn : Named h c rest l) (nrows ncols : Nat) (hc : c.ncols ≤ ncols) (h2 : 2 ≤ ncols) :
    ∃ c', resizeNames h c nrows ncols = some (h, c') ∧ c'.nrows = nrows ∧ c'.ncols = ncols ∧
      ncols ≤ c'.allocCols ∧
      Named h c' rest (l ++ List.replicate (ncols - c.ncols) none) := by
  obtain ⟨s, extra, hs, ho⟩ := hn.own
  have hl := own_length ho
  have hlen := hn.len
  have hz : c.ncols - ncols = 0 := by omega
  have hne : ncols - 1 ≠ 0 := by omega
  -- the array after realloc
  obtain ⟨t, e, ht, htl⟩ : ∃ t e : List NameSlot,
      (s ++ extra).take (ncols - 1) ++ List.replicate (ncols - 1 - (s ++ extra).length) .undef = s ++ (t ++ e) ∧
      t.length = ncols - c.ncols := by
    refine ⟨extra.take (ncols - c.ncols) ++ List.replicate (ncols - 1 - (s ++ extra).length) .undef, [], ?_, ?_⟩
    · rw [List.take_append, List.take_of_length_le (by omega)]
      have : ncols - 1 - s.length = ncols - c.ncols := by omega
      rw [this]; simp
    · simp only [List.length_append, List.length_take, List.length_replicate]; omega
  have hnull := @nullNames_eq e t s
  have hsl : s.length = c.ncols - 1 := by omega
  rw [hsl, htl] at hnull
  refine ⟨{ c with nrows := nrows, ncols := ncols, allocRows := max nrows c.allocRows,
                   allocCols := max ncols c.allocCols,
                   names := some (s ++ (List.replicate (ncols - c.ncols) .null ++ e)) }, ?_, rfl, rfl,
    by simp; omega, ⟨hn.fresh, by simp; omega, ?_⟩⟩
  · simp only [resizeNames, hs, hz, freeNames, Option.bind_eq_bind, Option.bind_some, reallocNames, hne, if_false, ht, hnull]
  · exact ⟨s ++ List.replicate (ncols - c.ncols) .null, e, by simp, (own_append hl).mpr ⟨rest, ho, own_null _⟩⟩

/-- C89 (`pluto_constraints_add_dim`): every variable keeps its name, the new one has the name given or `_u`. -/
theorem C89_add {h : NameHeap} {c : NamedCst} {rest : Nat → Option String} {l : List (Option String)}
    (hn : Named h c rest l) (pos : Nat) (hp : pos ≤ l.length) (name : Option String) :
    ∃ h' c', addDimNames h c pos name = some (h', c') ∧ c'.ncols = c.ncols + 1 ∧
      Named h' c' rest (l.take pos ++ some (name.getD "_u") :: l.drop pos) := by
  have hlen := hn.len
  -- after the change of size: a longer array of which the names are the first ones
  have key : ∃ c1, addDimSize h c = some (h, c1) ∧ c1.ncols = c.ncols + 1 ∧
      ∃ s extra, c1.names = some (s ++ extra) ∧ Own h.at_ rest s l := by
    unfold addDimSize
    split
    · obtain ⟨c1, h1, _, h3, _, h5⟩ := resizeNames_named hn c.nrows (c.ncols + 1) (by omega) (by omega)
      obtain ⟨s, extra, hs, ho⟩ := h5.own
      refine ⟨c1, h1, h3, ?_⟩
      have hl := own_length ho
      have hsl : (s.take l.length).length = l.length := by
        simp at hl ⊢; omega
      have e : s = s.take l.length ++ s.drop l.length := by simp
      rw [e] at ho
      obtain ⟨g, h6, h7⟩ := (own_append hsl).mp ho
      have hg : g = rest := by
        have hd := own_length h7
        clear h6 e ho hs h1
        generalize s.drop l.length = t at h7 hd
        generalize c.ncols + 1 - c.ncols = n at h7 hd
        simp at hd
        induction t generalizing n with
        | nil => cases n with
          | zero => exact h7
          | succ n => simp at hd
        | cons x t ih =>
          cases n with
          | zero => simp at hd
          | succ n =>
            cases x <;> simp only [List.replicate_succ, Own] at h7
            exact ih n h7 (by simpa using hd)
      subst hg
      exact ⟨s.take l.length, s.drop l.length ++ extra, by rw [hs, ← List.append_assoc, ← e], h6⟩
    · obtain ⟨s, extra, hs, ho⟩ := hn.own
      exact ⟨_, rfl, rfl, s, extra, hs, ho⟩
  obtain ⟨c1, hk, hcols, s, extra, hs, ho⟩ := key
  have hl := own_length ho
  have hr : ∃ x e, reallocNames (s ++ extra) (c1.ncols - 1) = some (s ++ x :: e) := by
    have hne : c1.ncols - 1 ≠ 0 := by omega
    unfold reallocNames
    rw [if_neg hne, List.take_append, List.take_of_length_le (by omega)]
    have : c1.ncols - 1 - s.length = 1 := by omega
    rw [this]
    cases extra with
    | nil => exact ⟨.undef, [], by
        have : c1.ncols - 1 - (s ++ []).length = 1 := by simp; omega
        rw [this]; simp⟩
    | cons x extra => exact ⟨x, [], by
        have : c1.ncols - 1 - (s ++ x :: extra).length = 0 := by simp; omega
        rw [this]; simp⟩
  obtain ⟨x, e, hr⟩ := hr
  have hsplit : s ++ x :: e = s.take pos ++ (s.drop pos ++ x :: e) := by rw [← List.append_assoc]; simp
  have htl : (s.take pos).length = pos := by simp; omega
  have hdl : (s.drop pos).length = c1.ncols - 2 - pos := by simp; omega
  obtain ⟨y, hy⟩ := @shiftNamesUp_eq e (s.drop pos) (s.take pos) x
  rw [htl, hdl, ← hsplit] at hy
  have hw := writeName_mid (s.take pos) (s.drop pos ++ e) y (nameDup h (name.getD "_u")).2
  rw [htl] at hw
  obtain ⟨hd1, hd2⟩ := nameDup_own hn.fresh (name.getD "_u")
  refine ⟨(nameDup h (name.getD "_u")).1,
    { c1 with names := some (s.take pos ++ (nameDup h (name.getD "_u")).2 :: (s.drop pos ++ e)) }, ?_, hcols,
    ⟨hd2, ?_, ?_⟩⟩
  · unfold addDimNames
    rw [if_neg (by omega), hk]
    simp only [Option.bind_eq_bind, Option.bind_some, hs, hr, hy, hw]
  · simp only [List.length_append, List.length_cons, List.length_take, List.length_drop, hcols]; omega
  · refine ⟨s.take pos ++ (nameDup h (name.getD "_u")).2 :: s.drop pos, e, by simp, ?_⟩
    have e1 : Own h.at_ rest (s.take pos ++ s.drop pos) (l.take pos ++ l.drop pos) := by simpa using ho
    have hlt : (s.take pos).length = (l.take pos).length := by simp; omega
    obtain ⟨g, h1, h2⟩ := (own_append hlt).mp e1
    obtain ⟨g', h3, h4⟩ := own_comm hd1 h1
    exact (own_append hlt).mpr ⟨g', h3, (own_append (a := [(nameDup h (name.getD "_u")).2])
      (la := [some (name.getD "_u")]) (by simp)).mpr ⟨g, h4, h2⟩⟩

/-- C89 (`pluto_constraints_remove_dim`), partial: when all variables behind the one removed have a name, the others
keep theirs and the string of the removed one is freed. With the last variable the array goes. Without the hypothesis
the claim fails: `C89_violated_remove`. -/
theorem C89_remove_partial {h : NameHeap} {c : NamedCst} {rest : Nat → Option String} {l : List (Option String)}
    (hn : Named h c rest l) (pos : Nat) (hp : pos < l.length) (hall : ∀ o ∈ l.drop (pos + 1), o ≠ none) :
    ∃ h' c', removeDimNames h c pos = some (h', c') ∧ c'.ncols = c.ncols - 1 ∧
      (2 ≤ l.length → Named h' c' rest (l.take pos ++ l.drop (pos + 1))) ∧
      (l.length = 1 → Unnamed h' c' rest) := by
  obtain ⟨s, extra, hs, ho⟩ := hn.own
  have hl := own_length ho
  have hlen := hn.len
  have hps : pos < s.length := by omega
  have es : s = s.take pos ++ s[pos] :: s.drop (pos + 1) := by simp
  have el : l = l.take pos ++ l[pos] :: l.drop (pos + 1) := by simp
  have htl : (s.take pos).length = pos := by simp; omega
  have hlt : (s.take pos).length = (l.take pos).length := by simp; omega
  have ho' : Own h.at_ rest (s.take pos ++ s[pos] :: s.drop (pos + 1)) (l.take pos ++ l[pos] :: l.drop (pos + 1)) := by
    rw [← es, ← el]; exact ho
  obtain ⟨g, h1, h2⟩ := (own_append hlt).mp ho'
  obtain ⟨g1, h3, h4⟩ := (own_append (a := [s[pos]]) (la := [l[pos]]) (b := s.drop (pos + 1)) (lb := l.drop (pos + 1))
    (by simp)).mp h2
  obtain ⟨g2, h5, h6⟩ := own_comm h1 h3
  have hfree : freeName h (s ++ extra) pos = some { h with at_ := g2 } := by
    have := @freeNames_own (s.drop (pos + 1) ++ extra) [s[pos]] [l[pos]] h g2 (s.take pos) h5
    rw [htl] at this
    have e : s.take pos ++ ([s[pos]] ++ (s.drop (pos + 1) ++ extra)) = s ++ extra := by
      show s.take pos ++ (s[pos] :: s.drop (pos + 1) ++ extra) = s ++ extra
      rw [← List.append_assoc, ← es]
    rw [e] at this
    simp only [List.length_singleton, freeNames, Option.bind_eq_bind] at this
    cases hf : freeName h (s ++ extra) pos with
    | none => rw [hf] at this; simp at this
    | some v => rw [hf] at this; simpa using this
  have hnn : ∀ y ∈ s.drop (pos + 1), y ≠ .null := by
    have : ∀ {m f : Nat → Option String} {s l}, Own m f s l → (∀ o ∈ l, o ≠ none) → ∀ y ∈ s, y ≠ NameSlot.null := by
      intro m f s
      induction s generalizing m with
      | nil => intro l _ _ y hy; cases hy
      | cons x s ih =>
        intro l h ha y hy
        cases x <;> rcases l with _ | ⟨_ | n, l⟩ <;> simp only [Own] at h
        · exact absurd rfl (ha none (by simp))
        · rcases List.mem_cons.mp hy with rfl | hy
          · simp
          · exact ih h.2 (fun o ho => ha o (by simp [ho])) y hy
    exact this h4 hall
  have hdl : (s.drop (pos + 1)).length = c.ncols - 2 - pos := by simp; omega
  obtain ⟨y, hy⟩ := @shiftNamesDown_eq extra (s.drop (pos + 1)) (s.take pos) s[pos] hnn
  have e : s.take pos ++ s[pos] :: (s.drop (pos + 1) ++ extra) = s ++ extra := by
    show s.take pos ++ (s[pos] :: s.drop (pos + 1) ++ extra) = s ++ extra
    rw [← List.append_assoc, ← es]
  rw [htl, hdl, e] at hy
  refine ⟨{ h with at_ := g2 }, { c with
      ncols := c.ncols - 1
      names := reallocNames (s.take pos ++ (s.drop (pos + 1) ++ y :: extra)) (c.ncols - 2) }, ?_, rfl, ?_, ?_⟩
  · unfold removeDimNames
    rw [if_neg (by omega), hs]
    simp only [hfree, hy, Option.bind_eq_bind, Option.bind_some]
  · intro h2l
    refine ⟨fun i hi => own_none h5 (hn.fresh i hi), by simp; omega, ?_⟩
    refine ⟨s.take pos ++ s.drop (pos + 1), [], ?_, (own_append hlt).mpr ⟨g1, h6, h4⟩⟩
    have hne : c.ncols - 2 ≠ 0 := by omega
    simp only [reallocNames, hne, if_false]
    have hA : (s.take pos ++ s.drop (pos + 1)).length = c.ncols - 2 := by simp; omega
    have e2 : s.take pos ++ (s.drop (pos + 1) ++ y :: extra) = (s.take pos ++ s.drop (pos + 1)) ++ y :: extra := by simp
    rw [e2, ← hA]
    simp only [List.take_left, List.append_nil]
    rw [Nat.sub_eq_zero_of_le (by simp)]; simp
  · intro h1l
    refine ⟨fun i hi => own_none h5 (hn.fresh i hi), ?_, ?_⟩
    · have hz : c.ncols - 2 = 0 := by omega
      simp [reallocNames, hz]
    · have hp0 : pos = 0 := by omega
      subst hp0
      have ha : l.drop (0 + 1) = [] := by apply List.drop_eq_nil_of_le; omega
      have hb : s.drop (0 + 1) = [] := by apply List.drop_eq_nil_of_le; omega
      rw [ha, hb] at h4
      simp only [List.take_zero, Own] at h6 h4
      show g2 = rest
      rw [h6, h4]

/-- C89 (`pluto_constraints_set_names`): the variables get the names given; their old names are freed. -/
theorem C89_set_names {h : NameHeap} {c : NamedCst} {rest : Nat → Option String}
    (hn : (∃ l, Named h c rest l) ∨ Unnamed h c rest) {src more : List NameSlot} {l' : List (Option String)}
    (hr : NamesRead rest src l') (hl' : l'.length + 1 = c.ncols) :
    ∃ h' c', setNames h c (src ++ more) = some (h', c') ∧ c'.ncols = c.ncols ∧ Named h' c' rest l' := by
  have hrl := reads_length hr
  have hcl : c.ncols - 1 = src.length := by omega
  have key : ∃ h1 t e, setNamesInit h c = some (h1, t ++ e) ∧ t.length = src.length ∧
      h1.at_ = rest ∧ ∀ i, h1.next ≤ i → h1.at_ i = none := by
    unfold setNamesInit
    rcases hn with ⟨l, hn⟩ | hn
    · obtain ⟨s, extra, hs, ho⟩ := hn.own
      have hl := own_length ho
      have hlen := hn.len
      have hf := @freeNames_own extra s l h rest [] ho
      have hsl : s.length = c.ncols - 1 := by omega
      rw [hsl] at hf
      simp only [List.nil_append, List.length_nil] at hf
      refine ⟨{ h with at_ := rest }, s, extra, ?_, by omega, rfl, fun i hi => own_none ho (hn.fresh i hi)⟩
      rw [hs]; simp [hf]
    · refine ⟨h, List.replicate (c.ncols - 1) .undef, [], ?_, by simp; omega, hn.mem, hn.fresh⟩
      rw [hn.names]; simp
  obtain ⟨h1, t, e, hk, ht, hm, hf⟩ := key
  obtain ⟨h', s', h3, h4, h5⟩ := @copyNames_eq rest e more t src l' h1 [] [] hf (fun k n hk => by rw [hm]; exact hk) hr ht
  simp only [List.nil_append, List.length_nil] at h3
  refine ⟨h', { c with names := some (s' ++ e) }, ?_, rfl, ⟨h5, hl', s', e, rfl, hm ▸ h4⟩⟩
  unfold setNames
  rw [hk]
  simp only [Option.bind_eq_bind, Option.bind_some]
  rw [hcl, h3]
  simp

end Pluto
