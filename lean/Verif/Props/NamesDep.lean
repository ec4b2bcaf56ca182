import Verif.Model.NamesDep
import Verif.Props.NamesEx

/-! C89: the names of the variables of a dependence polyhedron. -/

namespace Pluto

/-- The variables have the names `l`; when none of them has one there may be no array. -/
def NameState (h : NameHeap) (c : NamedCst) (rest : Nat → Option String) (l : List (Option String)) : Prop :=
  Named h c rest l ∨ (Unnamed h c rest ∧ l = List.replicate (c.ncols - 1) none ∧ 1 ≤ c.ncols)

theorem NameState.len {h c rest l} (hn : NameState h c rest l) : l.length + 1 = c.ncols := by
  rcases hn with hn | ⟨_, rfl, h1⟩
  · exact hn.len
  · simp; omega

/-- A range in either state. -/
theorem setNamesRange_state {h : NameHeap} {c : NamedCst} {rest : Nat → Option String} {l : List (Option String)}
    (hn : NameState h c rest l) {pre src more : List NameSlot} {l' : List (Option String)} (hr : NamesRead rest src l')
    (dOff : Nat) (hd : dOff + l'.length ≤ l.length) :
    ∃ h' c', setNamesRange h c (some (pre ++ (src ++ more))) dOff pre.length l'.length = some (h', c') ∧
      c'.ncols = c.ncols ∧ NameState h' c' rest (l.take dOff ++ (l' ++ l.drop (dOff + l'.length))) := by
  rcases hn with hn | ⟨hn, rfl, h1⟩
  · obtain ⟨h', c', h2, h3, h4⟩ := C89_set_range hn (pre := pre) (more := more) hr dOff hd
    exact ⟨h', c', h2, h3, .inl h4⟩
  · simp at hd
    by_cases h0 : l' = []
    · subst h0
      refine ⟨h, c, by simp [setNamesRange], rfl, .inr ⟨hn, ?_, h1⟩⟩
      simp at hd ⊢
      omega
    · obtain ⟨h', c', h2, h3, h4⟩ := C89_set_range_unnamed hn (pre := pre) (more := more) hr dOff (by omega) h0
      refine ⟨h', c', h2, h3, .inl ?_⟩
      rw [List.take_replicate, List.drop_replicate]
      have e1 : min dOff (c.ncols - 1) = dOff := by omega
      have e2 : c.ncols - 1 - (dOff + l'.length) = c.ncols - 1 - dOff - l'.length := by omega
      rw [e1, e2]; exact h4

theorem namesRead_mono {r r' : Nat → Option String} (hm : ∀ k n, r k = some n → r' k = some n) :
    ∀ {s l}, NamesRead r s l → NamesRead r' s l := by
  intro s
  induction s with
  | nil => intro l h; cases l <;> simp_all [NamesRead]
  | cons a s ih =>
    intro l h
    cases a <;> rcases l with _ | ⟨_ | n, l⟩ <;> simp only [NamesRead] at h ⊢
    · exact ih h
    · exact ⟨hm _ _ h.1, ih h.2⟩

/-- Names that are owned can be read. -/
theorem own_read {f : Nat → Option String} : ∀ {s l m}, Own m f s l → NamesRead m s l := by
  intro s
  induction s with
  | nil => intro l m h; cases l <;> simp_all [Own, NamesRead]
  | cons a s ih =>
    intro l m h
    cases a <;> rcases l with _ | ⟨_ | n, l⟩ <;> simp only [Own, NamesRead] at h ⊢
    · exact ih h
    · refine ⟨h.1, namesRead_mono ?_ (ih h.2)⟩
      intro k n hk
      split at hk
      · cases hk
      · exact hk

theorem primeNames_eq {r : Nat → Option String} {q : List NameSlot} : ∀ {ss : List NameSlot} {l : List String} {h p},
    (∀ i, h.next ≤ i → h.at_ i = none) → (∀ k n, r k = some n → h.at_ k = some n) → NamesRead r ss (l.map some) →
    ∃ h' s', primeNames h (p ++ (ss ++ q)) p.length l.length = some (h', s') ∧
      Own h'.at_ h.at_ s' (l.map fun n => some (n ++ "'")) ∧ (∀ i, h'.next ≤ i → h'.at_ i = none) := by
  intro ss
  induction ss with
  | nil =>
    intro l h p hf _ hr
    cases l with
    | nil => exact ⟨h, [], rfl, rfl, hf⟩
    | cons _ _ => simp [NamesRead] at hr
  | cons z ss ih =>
    intro l h p hf hsub hr
    rcases l with _ | ⟨n, l⟩
    · cases z <;> simp [NamesRead] at hr
    cases z <;> simp only [List.map_cons, NamesRead] at hr
    rename_i k
    obtain ⟨hk, hr⟩ := hr
    have hd := nameDup_own hf (n ++ "'")
    have hsub' : ∀ k' n', r k' = some n' → (nameDup h (n ++ "'")).1.at_ k' = some n' := fun k' n' h' =>
      own_sub hd.1 (hsub k' n' h')
    obtain ⟨h', s', h1, h2, h3⟩ := @ih l (nameDup h (n ++ "'")).1 (p ++ [.ptr k]) hd.2 hsub' hr
    obtain ⟨g, h4, h5⟩ := own_comm h2 hd.1
    refine ⟨h', (nameDup h (n ++ "'")).2 :: s', ?_, ?_, h3⟩
    · have hz : (p ++ (NameSlot.ptr k :: ss ++ q))[p.length]? = some (.ptr k) := by simp
      have hp : p ++ (NameSlot.ptr k :: ss ++ q) = (p ++ [.ptr k]) ++ (ss ++ q) := by simp
      rw [List.length_append, List.length_singleton] at h1
      rw [List.length_cons, primeNames, hz]
      simp only [hsub k n hk, Option.bind_eq_bind, Option.bind_some]
      rw [hp, h1]
      rfl
    · exact (own_append (a := [(nameDup h (n ++ "'")).2]) (la := [some (n ++ "'")]) (by simp)).mpr ⟨g, h4, h5⟩

/-- C89 (`basic_map_extract_dep`): the variables of a dependence polyhedron are named after the iterators of the source,
those of the destination with a prime, and the parameters; no string is left over. The names of the destination's
domain are needed only for the parameters. -/
theorem C89_dep_names {h : NameHeap} {c : NamedCst} {rest : Nat → Option String} (hn : Unnamed h c rest)
    {sit smore dit dmore : List NameSlot} {ls : List (Option String)} {ld : List String} {lp : List (Option String)}
    (hs : NamesRead rest sit ls) (hd : NamesRead rest dit (ld.map some)) {dnm : Option (List NameSlot)}
    (hp : lp = [] ∨ ∃ pre par more, dnm = some (pre ++ (par ++ more)) ∧ pre.length = ld.length ∧ NamesRead rest par lp)
    (hc : c.ncols = ls.length + ld.length + lp.length + 1) :
    ∃ h' c', depNames h c (sit ++ smore) (dit ++ dmore) dnm ls.length ld.length lp.length = some (h', c') ∧
      c'.ncols = c.ncols ∧ NameState h' c' rest (ls ++ (ld.map (fun n => some (n ++ "'")) ++ lp)) := by
  have hst : NameState h c rest (List.replicate (c.ncols - 1) none) := .inr ⟨hn, rfl, by omega⟩
  -- the iterators of the source
  obtain ⟨h1, c1, e1, hc1, hst1⟩ := setNamesRange_state hst (pre := []) (more := smore) hs 0 (by simp; omega)
  simp only [List.nil_append, List.length_nil, List.take_zero, Nat.zero_add, List.drop_replicate] at e1 hst1
  have hfresh1 : ∀ i, h1.next ≤ i → h1.at_ i = none := by
    rcases hst1 with h | h
    · exact h.fresh
    · exact h.1.fresh
  have hsub1 : ∀ k n, rest k = some n → h1.at_ k = some n := by
    rcases hst1 with h | h
    · obtain ⟨s, extra, _, ho⟩ := h.own
      exact fun k n hk => own_sub ho hk
    · intro k n hk; rw [h.1.mem]; exact hk
  -- the strings with a prime
  obtain ⟨h2, pr, e2, ho2, hf2⟩ := @primeNames_eq rest dmore dit ld h1 [] hfresh1 hsub1 hd
  simp only [List.nil_append, List.length_nil] at e2
  have hprl := own_length ho2
  simp at hprl
  -- the state with these strings as strings of somebody else
  obtain ⟨g, hst2, hog⟩ : ∃ g, NameState h2 c1 g (ls ++ List.replicate (c.ncols - 1 - ls.length) none) ∧
      Own g rest pr (ld.map fun n => some (n ++ "'")) := by
    rcases hst1 with h | ⟨h, hl, hc'⟩
    · obtain ⟨s, extra, hs', ho⟩ := h.own
      obtain ⟨g, h3, h4⟩ := own_comm ho2 ho
      exact ⟨g, .inl ⟨hf2, h.len, s, extra, hs', h3⟩, h4⟩
    · exact ⟨h2.at_, .inr ⟨⟨hf2, h.names, rfl⟩, hl, hc'⟩, h.mem ▸ ho2⟩
  obtain ⟨h3, c3, e3, hc3, hst3⟩ := setNamesRange_state hst2 (pre := []) (src := pr) (more := [])
    (l' := ld.map fun n => some (n ++ "'")) (own_read hog) ls.length (by simp; omega)
  simp only [List.nil_append, List.length_nil, List.append_nil, List.length_map, List.take_left, List.drop_append,
    Nat.add_sub_cancel_left, List.drop_replicate] at e3 hst3
  rw [List.drop_of_length_le (by omega), List.nil_append] at hst3
  have hk : c.ncols - 1 - ls.length - ld.length = lp.length := by omega
  rw [hk] at hst3
  -- they are freed
  obtain ⟨h4, e4, hst4⟩ : ∃ h4, freeNames h3 pr 0 ld.length = some h4 ∧
      NameState h4 c3 rest (ls ++ (ld.map (fun n => some (n ++ "'")) ++ List.replicate lp.length none)) := by
    have key : ∃ g', Own h3.at_ g' pr (ld.map fun n => some (n ++ "'")) ∧
        NameState ⟨h3.next, g'⟩ c3 rest (ls ++ (ld.map (fun n => some (n ++ "'")) ++ List.replicate lp.length none)) := by
      rcases hst3 with h | ⟨h, hl, hc'⟩
      · obtain ⟨s, extra, hs', ho⟩ := h.own
        obtain ⟨g', h5, h6⟩ := own_comm ho hog
        exact ⟨g', h5, .inl ⟨fun i hi => own_none h5 (h.fresh i hi), h.len, s, extra, hs', h6⟩⟩
      · have hm := h.mem
        refine ⟨rest, by rw [hm]; exact hog, .inr ⟨⟨fun i hi => ?_, h.names, rfl⟩, hl, hc'⟩⟩
        have := h.fresh i hi
        rw [hm] at this
        exact own_none hog this
    obtain ⟨g', h5, h6⟩ := key
    have hfr := @freeNames_own [] pr _ h3 g' [] h5
    simp only [List.nil_append, List.append_nil, List.length_nil, hprl] at hfr
    exact ⟨_, hfr, h6⟩
  -- the parameters
  have hlast : ∃ h' c', setNamesRange h4 c3 dnm (ls.length + ld.length) ld.length lp.length = some (h', c') ∧
      c'.ncols = c3.ncols ∧ NameState h' c' rest (ls ++ (ld.map (fun n => some (n ++ "'")) ++ lp)) := by
    rcases hp with rfl | ⟨pre, par, more, hdn, hpl, hrp⟩
    · exact ⟨h4, c3, by simp [setNamesRange], rfl, by simpa using hst4⟩
    · obtain ⟨h', c', e5, hc5, hst5⟩ := setNamesRange_state hst4 (pre := pre) (more := more) hrp (ls.length + ld.length)
        (by simp; omega)
      rw [hpl, ← hdn] at e5
      refine ⟨h', c', e5, hc5, ?_⟩
      have el : ls.length + ld.length = (ls ++ ld.map (fun n => some (n ++ "'"))).length := by simp
      have e6 : ls ++ (ld.map (fun n => some (n ++ "'")) ++ List.replicate lp.length none) =
        (ls ++ ld.map (fun n => some (n ++ "'"))) ++ List.replicate lp.length none := by simp
      rw [e6, el, List.take_left, List.drop_append, List.drop_of_length_le (by omega)] at hst5
      simpa using hst5
  obtain ⟨h5, c5, e5, hc5, hst5⟩ := hlast
  refine ⟨h5, c5, ?_, by omega, hst5⟩
  simp only [depNames, e1, e2, e3, e4, Option.bind_eq_bind, Option.bind_some]
  exact e5

/-- A dependence between two statements with one loop each and a parameter `N`; strings `i`, `j`, `N` of the statements. -/
example : ∃ h' c', depNames (memOf ["i", "j", "N"]) ⟨0, 4, 2, 4, none⟩ [.ptr 0] [.ptr 1] (some [.ptr 1, .ptr 2]) 1 1 1 =
      some (h', c') ∧ Named h' c' (memOf ["i", "j", "N"]).at_ [some "i", some "j'", some "N"] := by
  obtain ⟨h', c', h1, h2, h3⟩ := C89_dep_names (h := memOf ["i", "j", "N"]) (c := ⟨0, 4, 2, 4, none⟩)
    (rest := (memOf ["i", "j", "N"]).at_) ⟨memOf_fresh _, rfl, rfl⟩ (sit := [.ptr 0]) (smore := []) (dit := [.ptr 1])
    (dmore := []) (ls := [some "i"]) (ld := ["j"]) (lp := [some "N"]) ⟨rfl, trivial⟩ ⟨rfl, trivial⟩
    (dnm := some [.ptr 1, .ptr 2]) (.inr ⟨[.ptr 1], [.ptr 2], [], rfl, rfl, rfl, trivial⟩) rfl
  refine ⟨h', c', h1, ?_⟩
  rcases h3 with h3 | ⟨_, h3, _⟩
  · exact h3
  · rw [h2] at h3
    exact absurd h3 (by decide)

end Pluto
