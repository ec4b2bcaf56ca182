import Verif.Props.Names

/-! C89, continued: ranges, copies and the names given by the library. -/

namespace Pluto

/-- C89 (`pluto_constraints_set_names_range`) with names: those of the range are replaced, the others stay. -/
theorem C89_set_range {h : NameHeap} {c : NamedCst} {rest : Nat → Option String} {l : List (Option String)}
    (hn : Named h c rest l) {pre src more : List NameSlot} {l' : List (Option String)} (hr : NamesRead rest src l')
    (dOff : Nat) (hd : dOff + l'.length ≤ l.length) :
    ∃ h' c', setNamesRange h c (some (pre ++ (src ++ more))) dOff pre.length l'.length = some (h', c') ∧
      c'.ncols = c.ncols ∧ Named h' c' rest (l.take dOff ++ (l' ++ l.drop (dOff + l'.length))) := by
  have hrl := reads_length hr
  have hlen := hn.len
  by_cases h0 : l'.length = 0
  · have : l' = [] := List.length_eq_zero_iff.mp h0
    subst this
    exact ⟨h, c, by simp [setNamesRange], rfl, by simpa using hn⟩
  obtain ⟨s, extra, hs, ho⟩ := hn.own
  have hl := own_length ho
  have es : s = s.take dOff ++ ((s.drop dOff).take l'.length ++ s.drop (dOff + l'.length)) := by
    rw [← List.drop_drop, List.take_append_drop, List.take_append_drop]
  have el : l = l.take dOff ++ ((l.drop dOff).take l'.length ++ l.drop (dOff + l'.length)) := by
    rw [← List.drop_drop, List.take_append_drop, List.take_append_drop]
  have htl : (s.take dOff).length = dOff := by simp; omega
  have hml : ((s.drop dOff).take l'.length).length = l'.length := by simp; omega
  have hlt : (s.take dOff).length = (l.take dOff).length := by simp; omega
  have hlm : ((s.drop dOff).take l'.length).length = ((l.drop dOff).take l'.length).length := by simp; omega
  rw [es, el] at ho
  obtain ⟨g, h1, h2⟩ := (own_append hlt).mp ho
  obtain ⟨g1, h3, h4⟩ := (own_append hlm).mp h2
  obtain ⟨g2, h5, h6⟩ := own_comm h1 h3
  generalize hA : s.take dOff = A at *
  generalize hB : (s.drop dOff).take l'.length = B at *
  generalize hC : s.drop (dOff + l'.length) = C at *
  have hf := @freeNames_own (C ++ extra) B _ h g2 A h5
  have hrest : ∀ k n, rest k = some n → g2 k = some n := fun k n hk => own_sub h6 (own_sub h4 hk)
  have hfr : ∀ i, h.next ≤ i → g2 i = none := fun i hi => own_none h5 (hn.fresh i hi)
  obtain ⟨h', s', h7, h8, h9⟩ := @copyNames_eq rest (C ++ extra) more B src l' { h with at_ := g2 } A pre hfr hrest hr
    (by omega)
  refine ⟨h', { c with names := some (A ++ (s' ++ (C ++ extra))) }, ?_, rfl, ⟨h9, ?_, ?_⟩⟩
  · have harr : s ++ extra = A ++ (B ++ (C ++ extra)) := by rw [es]; simp
    rw [htl, hml] at hf
    rw [htl, hrl] at h7
    unfold setNamesRange
    rw [if_neg h0]
    simp only [Option.bind_eq_bind, Option.bind_some]
    rw [if_neg (by omega)]
    simp only [setNamesRangeInit, hs, harr, hf, h7, Option.bind_eq_bind, Option.bind_some]
  · simp only [List.length_append, List.length_take, List.length_drop]; omega
  · have hsl := own_length h8
    refine ⟨A ++ (s' ++ C), extra, by simp, ?_⟩
    -- h' --s'--> g2 --A--> g1 --C--> rest
    obtain ⟨g3, h10, h11⟩ := own_comm h8 h6
    exact (own_append hlt).mpr ⟨g3, h10, (own_append hsl).mpr ⟨g1, h11, h4⟩⟩

/-- C89 (`pluto_constraints_set_names_range`) without names: the variables outside the range have none. -/
theorem C89_set_range_unnamed {h : NameHeap} {c : NamedCst} {rest : Nat → Option String}
    (hn : Unnamed h c rest) {pre src more : List NameSlot} {l' : List (Option String)} (hr : NamesRead rest src l')
    (dOff : Nat) (hd : dOff + l'.length + 1 ≤ c.ncols) (hne : l' ≠ []) :
    ∃ h' c', setNamesRange h c (some (pre ++ (src ++ more))) dOff pre.length l'.length = some (h', c') ∧
      c'.ncols = c.ncols ∧ Named h' c' rest (List.replicate dOff none ++ (l' ++
        List.replicate (c.ncols - 1 - dOff - l'.length) none)) := by
  have h0 : l'.length ≠ 0 := fun h => hne (List.length_eq_zero_iff.mp h)
  have hnull : nullNames (List.replicate (c.ncols - 1) .undef) 0 (c.ncols - 1) =
      some (List.replicate (c.ncols - 1) .null) := by
    have := @nullNames_eq [] (List.replicate (c.ncols - 1) .undef) []
    simpa using this
  -- the same as with an array of null entries
  have hN : Named h { c with names := some (List.replicate (c.ncols - 1) .null) } rest
      (List.replicate (c.ncols - 1) none) :=
    ⟨hn.fresh, by simp; omega, List.replicate (c.ncols - 1) .null, [], by simp, by rw [hn.mem]; exact own_null _⟩
  have hfree : ∀ n d, d + n ≤ c.ncols - 1 → freeNames h (List.replicate (c.ncols - 1) .null) d n = some h := by
    intro n
    induction n with
    | zero => intro d _; rfl
    | succ n ih =>
      intro d hd
      have hx : (List.replicate (c.ncols - 1) NameSlot.null)[d]? = some .null := by
        rw [List.getElem?_replicate, if_pos (by omega)]
      simp only [freeNames, freeName, hx, Option.bind_eq_bind, Option.bind_some]
      exact ih (d + 1) (by omega)
  obtain ⟨h', c', h1, h2, h3⟩ := C89_set_range hN (pre := pre) (more := more) hr dOff (by simp; omega)
  refine ⟨h', c', ?_, h2, ?_⟩
  · rw [← h1]
    simp only [setNamesRange, setNamesRangeInit, hn.names, hnull, h0, if_false, hfree _ _ (show dOff + l'.length ≤ c.ncols - 1 by omega),
      Option.bind_eq_bind, Option.bind_some]
  · have e1 : (List.replicate (c.ncols - 1) (none : Option String)).take dOff = List.replicate dOff none := by
      rw [List.take_replicate]; congr 1; omega
    have e2 : (List.replicate (c.ncols - 1) (none : Option String)).drop (dOff + l'.length) =
        List.replicate (c.ncols - 1 - dOff - l'.length) none := by
      rw [List.drop_replicate]; congr 1; omega
    rw [e1, e2] at h3
    exact h3

/-- `copyClear` leaves null entries for all variables, or no array. -/
theorem copyClear_named {h : NameHeap} {c : NamedCst} {rest : Nat → Option String}
    (hn : (∃ l, Named h c rest l) ∨ Unnamed h c rest) :
    ∃ h' c', copyClear h c = some (h', c') ∧ h'.at_ = rest ∧ (∀ i, h'.next ≤ i → h'.at_ i = none) ∧
      (c.names = none → c'.names = none) ∧
      ∀ arr, c'.names = some arr → ∃ e, arr = List.replicate (c.ncols - 1) .null ++ e := by
  rcases hn with ⟨l, hn⟩ | hn
  · obtain ⟨s, extra, hs, ho⟩ := hn.own
    have hl := own_length ho
    have hlen := hn.len
    have hsl : s.length = c.ncols - 1 := by omega
    have hf := @freeNames_own extra s l h rest [] ho
    have hz := @nullNames_eq extra s []
    rw [hsl] at hf hz
    simp only [List.nil_append, List.length_nil] at hf hz
    refine ⟨{ h with at_ := rest }, { c with names := some (List.replicate (c.ncols - 1) .null ++ extra) }, ?_, rfl,
      fun i hi => own_none ho (hn.fresh i hi), (fun h' => by rw [hs] at h'; cases h'), ?_⟩
    · simp only [copyClear, hs, hf, hz, Option.bind_eq_bind, Option.bind_some]
    · intro arr harr
      exact ⟨extra, (Option.some.inj harr).symm⟩
  · refine ⟨h, c, by simp [copyClear, hn.names], hn.mem, hn.fresh, fun h => h, fun arr harr => ?_⟩
    rw [hn.names] at harr; cases harr

/-- Null entries for the variables are names of the variables. -/
theorem named_null {h : NameHeap} {c : NamedCst} {rest : Nat → Option String} {n : Nat} {e : List NameSlot}
    (hf : ∀ i, h.next ≤ i → h.at_ i = none) (hm : h.at_ = rest) (hc : 1 ≤ c.ncols) (hcn : c.ncols - 1 ≤ n)
    (hs : c.names = some (List.replicate n .null ++ e)) : Named h c rest (List.replicate (c.ncols - 1) none) := by
  refine ⟨hf, by simp; omega, List.replicate (c.ncols - 1) .null, List.replicate (n - (c.ncols - 1)) .null ++ e, ?_,
    by rw [hm]; exact own_null _⟩
  rw [hs, ← List.append_assoc, List.replicate_append_replicate]
  congr 3; omega

/-- C89 (`pluto_constraints_copy_single`), partial: the copy has the names of the source, in strings of its own, and
the old names of the destination are freed. This holds when the destination has no names, or at least as many columns
as the source, or is too small for it. In the other case it fails: `C89_violated_copy`. -/
theorem C89_copy_partial {h : NameHeap} {dest src : NamedCst} {rest : Nat → Option String}
    (hn : (∃ l, Named h dest rest l) ∨ Unnamed h dest rest) (hd : 1 ≤ dest.ncols ∧ dest.ncols ≤ dest.allocCols)
    (hs : 1 ≤ src.ncols)
    (hok : dest.names = none ∨ src.ncols ≤ dest.ncols ∨ src.nrows > dest.allocRows ∨ src.ncols > dest.allocCols) :
    (∀ s more l', src.names = some (s ++ more) → NamesRead rest s l' → l'.length + 1 = src.ncols →
      ∃ h' c', copySingleNames h dest src = some (h', c') ∧ c'.ncols = src.ncols ∧ Named h' c' rest l') ∧
    (src.names = none →
      ∃ h' c', copySingleNames h dest src = some (h', c') ∧ c'.ncols = src.ncols ∧ Unnamed h' c' rest) := by
  -- after making room
  have hsz : ∃ c1, copySize h dest src = some (h, c1) ∧ ((∃ l, Named h c1 rest l) ∨ Unnamed h c1 rest) ∧
      (c1.names = none ∨ src.ncols ≤ c1.ncols) := by
    unfold copySize
    by_cases hc : src.nrows > dest.allocRows ∨ src.ncols > dest.allocCols
    · rw [if_pos hc]
      rcases hn with ⟨l, hn⟩ | hn
      · by_cases h2 : 2 ≤ max src.ncols dest.allocCols
        · obtain ⟨c1, h1, _, h3, _, h5⟩ := resizeNames_named hn (max src.nrows dest.allocRows)
            (max src.ncols dest.allocCols) (by omega) h2
          exact ⟨c1, h1, .inl ⟨_, h5⟩, .inr (by omega)⟩
        · have hlen := hn.len
          obtain ⟨s, extra, hs', ho⟩ := hn.own
          have hl := own_length ho
          have hl0 : l = [] := List.length_eq_zero_iff.mp (by omega)
          have hs0 : s = [] := List.length_eq_zero_iff.mp (by omega)
          subst hl0 hs0
          have hz : dest.ncols - max src.ncols dest.allocCols = 0 := by omega
          have hz1 : max src.ncols dest.allocCols - 1 = 0 := by omega
          refine ⟨_, by simp only [resizeNames, hs', hz, hz1, freeNames, reallocNames, if_true, Option.bind_eq_bind,
            Option.bind_some]; rfl, .inr ⟨hn.fresh, rfl, ho⟩, .inl rfl⟩
      · refine ⟨{ dest with
            nrows := max src.nrows dest.allocRows
            ncols := max src.ncols dest.allocCols
            allocRows := max (max src.nrows dest.allocRows) dest.allocRows
            allocCols := max (max src.ncols dest.allocCols) dest.allocCols }, ?_,
          .inr ⟨hn.fresh, hn.names, hn.mem⟩, .inl hn.names⟩
        simp only [resizeNames, hn.names]
    · rw [if_neg hc]
      exact ⟨dest, rfl, hn, by rcases hok with h | h | h <;> tauto⟩
  obtain ⟨c1, h1, hn1, hok1⟩ := hsz
  obtain ⟨h2, c2, h3, hm, hf, hnone, harr⟩ := copyClear_named hn1
  -- the state in which the names are set
  have hst : (∃ l, Named h2 { c2 with nrows := src.nrows, ncols := src.ncols } rest l) ∨
      Unnamed h2 { c2 with nrows := src.nrows, ncols := src.ncols } rest := by
    cases hc2 : c2.names with
    | none => exact .inr ⟨hf, rfl, hm⟩
    | some arr =>
      obtain ⟨e, he⟩ := harr arr hc2
      have hlt : src.ncols ≤ c1.ncols := by
        rcases hok1 with h | h
        · rw [hnone h] at hc2; cases hc2
        · exact h
      exact .inl ⟨_, named_null (n := c1.ncols - 1) (e := e) hf hm hs (by show src.ncols - 1 ≤ _; omega)
        (by rw [he])⟩
  constructor
  · intro s more l' hsn hr hl'
    obtain ⟨h', c', h4, h5, h6⟩ := C89_set_names hst (more := more) hr hl'
    refine ⟨h', c', ?_, h5, h6⟩
    simp only [copySingleNames, h1, h3, hsn, Option.bind_eq_bind, Option.bind_some]
    exact h4
  · intro hsn
    rcases hst with ⟨l, hst⟩ | hst
    · obtain ⟨s, extra, hs', ho⟩ := hst.own
      have hl := own_length ho
      have hlen := hst.len
      have hfr := @freeNames_own extra s l h2 rest [] ho
      have hsl : s.length = src.ncols - 1 := by simp only at hlen; omega
      rw [hsl] at hfr
      simp only [List.nil_append, List.length_nil] at hfr
      refine ⟨{ h2 with at_ := rest }, { c2 with nrows := src.nrows, ncols := src.ncols, names := none }, ?_, rfl,
        ⟨fun i hi => own_none ho (hst.fresh i hi), rfl, rfl⟩⟩
      simp only at hs'
      simp only [copySingleNames, h1, h3, hsn, removeNames, hs', hfr, Option.bind_eq_bind, Option.bind_some]
    · refine ⟨h2, { c2 with nrows := src.nrows, ncols := src.ncols }, ?_, rfl, hst⟩
      have := hst.names
      simp only at this
      simp only [copySingleNames, h1, h3, hsn, removeNames, this, Option.bind_eq_bind, Option.bind_some]

/-- C89: what `pluto_constraints_add_dim` and `_remove_dim` do without names. -/
theorem C89_unnamed {h : NameHeap} {c : NamedCst} {rest : Nat → Option String} (hn : Unnamed h c rest) (pos : Nat) :
    (∀ name, pos + 1 ≤ c.ncols → ∃ c', addDimNames h c pos name = some (h, c') ∧ c'.ncols = c.ncols + 1 ∧
      Unnamed h c' rest) ∧
    (pos + 2 ≤ c.ncols → ∃ c', removeDimNames h c pos = some (h, c') ∧ c'.ncols = c.ncols - 1 ∧ Unnamed h c' rest) := by
  constructor
  · intro name hp
    by_cases hc : c.ncols = c.allocCols
    · refine ⟨{ c with nrows := c.nrows, ncols := c.ncols + 1, allocRows := max c.nrows c.allocRows,
                       allocCols := max (c.ncols + 1) c.allocCols }, ?_, rfl, ⟨hn.fresh, hn.names, hn.mem⟩⟩
      unfold addDimNames addDimSize
      rw [if_neg (by omega), if_pos hc]
      simp only [resizeNames, hn.names, Option.bind_eq_bind, Option.bind_some]
    · refine ⟨{ c with ncols := c.ncols + 1 }, ?_, rfl, ⟨hn.fresh, hn.names, hn.mem⟩⟩
      unfold addDimNames addDimSize
      rw [if_neg (by omega), if_neg hc]
      simp only [hn.names, Option.bind_eq_bind, Option.bind_some]
  · intro hp
    refine ⟨{ c with ncols := c.ncols - 1 }, ?_, rfl, ⟨hn.fresh, hn.names, hn.mem⟩⟩
    unfold removeDimNames
    rw [if_neg (by omega)]
    simp only [hn.names]

/-- The parameters' names. -/
theorem paramNames_eq {dim : Nat} {e : List NameSlot} : ∀ {t h a k}, a.length = dim + k →
    (∀ i, h.next ≤ i → h.at_ i = none) →
    ∃ h' s', paramNames h (a ++ (t ++ e)) dim k t.length = some (h', a ++ (s' ++ e)) ∧
      Own h'.at_ h.at_ s' ((List.range' k t.length).map fun i => some ("p" ++ toString i)) ∧
      (∀ i, h'.next ≤ i → h'.at_ i = none) := by
  intro t
  induction t with
  | nil => intro h a k _ hf; exact ⟨h, [], rfl, rfl, hf⟩
  | cons x t ih =>
    intro h a k ha hf
    obtain ⟨hd1, hd2⟩ := nameDup_own hf ("p" ++ toString k)
    obtain ⟨h', s', h1, h2, h3⟩ := @ih (nameDup h ("p" ++ toString k)).1 (a ++ [(nameDup h ("p" ++ toString k)).2]) (k + 1)
      (by simp; omega) hd2
    obtain ⟨g, h4, h5⟩ := own_comm h2 hd1
    refine ⟨h', (nameDup h ("p" ++ toString k)).2 :: s', ?_, ?_, h3⟩
    · have hw := writeName_mid a (t ++ e) x (nameDup h ("p" ++ toString k)).2
      rw [ha] at hw
      simp only [List.length_cons, List.cons_append, paramNames, hw, Option.bind_eq_bind, Option.bind_some]
      simpa using h1
    · simp only [List.length_cons, List.range'_succ, List.map_cons]
      exact (own_append (a := [(nameDup h ("p" ++ toString k)).2]) (la := [some ("p" ++ toString k)])
        (by simp)).mpr ⟨g, h4, h5⟩

/-- C89 (`extract_stmt` of lib/plutolib.c), partial: the variables of the domain of a statement with at least one loop
are named after its iterators and `p0`, `p1`, …. Without a loop and with parameters: `C89_violated_library`. -/
theorem C89_library_partial {h : NameHeap} {c : NamedCst} {rest : Nat → Option String} (hn : Unnamed h c rest)
    {iters : List NameSlot} {l : List (Option String)} (hr : NamesRead rest iters l) (npar : Nat)
    (hc : c.ncols = l.length + npar + 1) (hd : l ≠ []) :
    ∃ h' c', extractStmtNames h c iters l.length npar = some (h', c') ∧ c'.ncols = c.ncols ∧
      Named h' c' rest (l ++ (List.range npar).map fun i => some ("p" ++ toString i)) := by
  obtain ⟨h1, c1, h2, h3, h4⟩ := C89_set_range_unnamed hn (pre := []) (more := []) hr 0 (by omega) hd
  simp only [List.nil_append, List.append_nil, List.length_nil, List.replicate_zero] at h2 h4
  by_cases hp : npar = 0
  · subst hp
    refine ⟨h1, c1, ?_, h3, ?_⟩
    · simp only [extractStmtNames, h2, Option.bind_eq_bind, Option.bind_some, if_true]
    · have : c.ncols - 1 - 0 - l.length = 0 := by omega
      rw [this] at h4
      simpa using h4
  · have hk : c.ncols - 1 - 0 - l.length = npar := by omega
    rw [hk] at h4
    obtain ⟨s, extra, hs, ho⟩ := h4.own
    have hl := own_length ho
    simp at hl
    have es : s = s.take l.length ++ s.drop l.length := by simp
    have hlt : (s.take l.length).length = l.length := by simp; omega
    rw [es] at ho
    obtain ⟨g, h5, h6⟩ := (own_append hlt).mp ho
    have hg : g = rest := by
      have : ∀ {t : List NameSlot} {n : Nat} {g : Nat → Option String}, Own g rest t (List.replicate n none) → g = rest := by
        intro t
        induction t with
        | nil => intro n g h; cases n with
          | zero => exact h
          | succ n => simp [Own, List.replicate_succ] at h
        | cons x t ih =>
          intro n g h
          cases n with
          | zero => simp [Own] at h
          | succ n =>
            cases x <;> simp only [List.replicate_succ, Own] at h
            exact ih h
      exact this h6
    subst hg
    have hdl : (s.drop l.length).length = npar := by simp; omega
    obtain ⟨h', s', h7, h8, h9⟩ := @paramNames_eq l.length extra (s.drop l.length) h1 (s.take l.length) 0 (by omega) h4.fresh
    rw [hdl] at h7 h8
    have e2 : s.take l.length ++ (s.drop l.length ++ extra) = s ++ extra := by rw [← List.append_assoc]; simp
    rw [e2] at h7
    refine ⟨h', { c1 with names := some (s.take l.length ++ (s' ++ extra)) }, ?_, h3, ⟨h9, by simp; omega, ?_⟩⟩
    · simp only [extractStmtNames, h2, hs, h7, Option.bind_eq_bind, Option.bind_some, if_neg hp]
    · refine ⟨s.take l.length ++ s', extra, by simp, ?_⟩
      obtain ⟨g', h10, h11⟩ := own_comm h8 h5
      rw [← List.range_eq_range'] at h11
      exact (own_append hlt).mpr ⟨g', h10, h11⟩

/-- C89 is violated by `extract_stmt` for every statement without loops in a program with parameters: `names` is null
and is written through. -/
theorem C89_violated_library {h : NameHeap} {c : NamedCst} {rest : Nat → Option String} (hn : Unnamed h c rest)
    (iters : List NameSlot) (npar : Nat) (hp : 0 < npar) : extractStmtNames h c iters 0 npar = none := by
  have : npar ≠ 0 := by omega
  simp [extractStmtNames, setNamesRange, hn.names, this]

/-- C89 is violated by `pluto_constraints_copy_single` for every destination with exactly as many entries as variables
which has room for the source and fewer columns: entries behind the array are freed. -/
theorem C89_violated_copy {h : NameHeap} {dest src : NamedCst} {rest : Nat → Option String} {l : List (Option String)}
    (hn : Named h dest rest l) (hex : ∀ arr, dest.names = some arr → arr.length + 1 = dest.ncols)
    (hr : src.nrows ≤ dest.allocRows) (hc : dest.ncols < src.ncols) (ha : src.ncols ≤ dest.allocCols) :
    copySingleNames h dest src = none := by
  obtain ⟨h2, c2, h3, _, _, _, harr⟩ := copyClear_named (.inl ⟨l, hn⟩)
  obtain ⟨s, extra, hs, ho⟩ := hn.own
  have hlen := hn.len
  have hl := own_length ho
  have hcs : ∃ arr, c2.names = some arr ∧ arr.length + 1 = dest.ncols := by
    have hex' := hex _ hs
    have hsl : s.length = dest.ncols - 1 := by omega
    have hf := @freeNames_own extra s l h rest [] ho
    have hz := @nullNames_eq extra s []
    rw [hsl] at hf hz
    simp only [List.nil_append, List.length_nil] at hf hz
    simp only [copyClear, hs, hf, hz, Option.bind_eq_bind, Option.bind_some, Option.some.injEq, Prod.mk.injEq] at h3
    refine ⟨_, by rw [← h3.2], ?_⟩
    simp at hex' ⊢; omega
  obtain ⟨arr, hca, hal⟩ := hcs
  have hfree : ∀ (n i : Nat) (h : NameHeap), arr.length < i + n → freeNames h arr i n = none ∨ arr.length < i := by
    intro n
    induction n with
    | zero => intro i h hi; right; simpa using hi
    | succ n ih =>
      intro i h hi
      by_cases hlt : i < arr.length
      · left
        simp only [freeNames]
        cases hfn : freeName h arr i with
        | none => rfl
        | some h1 =>
          rcases ih (i + 1) h1 (by omega) with h4 | h4
          · exact h4
          · omega
      · left
        have : arr[i]? = none := List.getElem?_eq_none (by omega)
        simp [freeNames, freeName, this]
  have hf : freeNames h2 arr 0 (src.ncols - 1) = none := by
    rcases hfree (src.ncols - 1) 0 h2 (by omega) with h | h
    · exact h
    · omega
  have hsz : copySize h dest src = some (h, dest) := by
    unfold copySize; rw [if_neg (by omega)]
  cases hsn : src.names <;>
    simp [copySingleNames, hsz, h3, hsn, setNames, setNamesInit, removeNames, hca, hf]

end Pluto
