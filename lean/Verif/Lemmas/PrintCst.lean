import Verif.Spec.PrintCst
import Verif.Lemmas.Print3

/-! Lemmas on printed constraint systems. -/

namespace Pluto

/-- The characters of sums and names. -/
def sumChar (c : Char) : Prop := c.isAlphanum = true ∨ c = '_' ∨ c = '+' ∨ c = '-'

theorem sumChar_ne {c : Char} (h : sumChar c) : c ≠ ' ' ∧ c ≠ '=' ∧ c ≠ '>' ∧ c ≠ '\n' ∧ c ≠ '#' := by
  refine ⟨?_, ?_, ?_, ?_, ?_⟩ <;> (rintro rfl; revert h; unfold sumChar; decide)

theorem sumChar_isDec {c : Char} (h : isDec c = true) : sumChar c := by
  left
  simp only [isDec, decide_eq_true_eq] at h
  simp only [Char.isAlphanum, Char.isDigit, Bool.or_eq_true, Bool.and_eq_true, decide_eq_true_eq]
  right
  constructor
  · rw [ge_iff_le, UInt32.le_iff_toNat_le]; exact h.1
  · rw [UInt32.le_iff_toNat_le]; exact h.2

theorem sumChar_intDec (z : Int) : ∀ c ∈ intDec z, sumChar c := by
  intro c hc
  unfold intDec at hc
  split at hc
  · rw [List.mem_cons] at hc
    rcases hc with rfl | hc
    · right; right; right; rfl
    · exact sumChar_isDec (natDec_isDec _ c hc)
  · exact sumChar_isDec (natDec_isDec _ c hc)

theorem sumChar_name {v : List Char} (h : IsName v) : ∀ c ∈ v, sumChar c := by
  intro c hc
  rcases h.2.1 c hc with h | h
  · exact Or.inl h
  · exact Or.inr (Or.inl h)

theorem sumChar_printTerm (f : Bool) (c : Int) {v : List Char} (hv : ∀ c ∈ v, sumChar c) : ∀ d ∈ printTerm f c v, sumChar d := by
  intro d hd
  have hp : sumChar '+' := Or.inr (Or.inr (Or.inl rfl))
  have hm : sumChar '-' := Or.inr (Or.inr (Or.inr rfl))
  have hi := sumChar_intDec c
  unfold printTerm at hd
  cases f <;> split_ifs at hd <;> simp only [List.mem_append, List.mem_cons, List.not_mem_nil, or_false, false_or, if_true] at hd
  all_goals first
    | (rcases hd with (rfl | hd) | hd <;> first | exact hp | exact hi d hd | exact hv d hd)
    | (rcases hd with rfl | hd <;> first | exact hp | exact hm | exact hi d hd | exact hv d hd)
    | (rcases hd with hd | hd <;> first | exact hi d hd | exact hv d hd)
    | exact hv d hd
    | simp at hd

theorem sumChar_printTerms : ∀ (f : Bool) (l : List (Int × List Char)), (∀ p ∈ l, ∀ c ∈ p.2, sumChar c) → ∀ d ∈ (printTerms f l).1, sumChar d
  | f, [], _ => by simp [printTerms]
  | f, (c, v) :: l, h => by
    intro d hd
    simp only [printTerms, List.mem_append] at hd
    rcases hd with hd | hd
    · exact sumChar_printTerm f c (h (c, v) (by simp)) d hd
    · exact sumChar_printTerms _ l (fun p hp => h p (by simp [hp])) d hd

theorem sumChar_printConst (f : Bool) (k : Int) : ∀ d ∈ printConst f k, sumChar d := by
  intro d hd
  have hp : sumChar '+' := Or.inr (Or.inr (Or.inl rfl))
  have hz : sumChar '0' := Or.inl (by decide)
  have hi := sumChar_intDec k
  unfold printConst at hd
  split_ifs at hd
  all_goals first
    | exact hi d hd
    | (rw [List.mem_append, List.mem_singleton] at hd
       rcases hd with rfl | hd
       · exact hp
       · exact hi d hd)
    | (rw [List.nil_append] at hd; exact hi d hd)
    | (rw [List.mem_singleton] at hd; subst hd; exact hz)
    | simp at hd

/-- Removing spaces. -/
def noSpace (s : List Char) : List Char := s.filter (fun c => decide (c ≠ ' '))

theorem noSpace_append (a b : List Char) : noSpace (a ++ b) = noSpace a ++ noSpace b := by simp [noSpace]

theorem noSpace_sum {s : List Char} (h : ∀ c ∈ s, sumChar c) : noSpace s = s := by
  unfold noSpace
  rw [List.filter_eq_self]
  intro c hc
  simpa using (sumChar_ne (h c hc)).1

theorem sumChar_of_noSpace {s : List Char} (h : ∀ c ∈ noSpace s, sumChar c) : ∀ c ∈ s, c ≠ '\n' ∧ c ≠ '#' := by
  intro c hc
  by_cases hs : c = ' '
  · subst hs; decide
  · have := sumChar_ne (h c (by simp [noSpace, hc, hs]))
    exact this.2.2.2

theorem takeWhile_append_stop {α : Type*} (p : α → Bool) {a b : List α} (ha : ∀ c ∈ a, p c = true) (hb : ∀ c ∈ b.head?, p c = false) :
    (a ++ b).takeWhile p = a ∧ (a ++ b).dropWhile p = b := by
  induction a with
  | nil =>
    cases b with
    | nil => simp
    | cons c b => simp [hb c (by simp)]
  | cons c a ih =>
    obtain ⟨h1, h2⟩ := ih (fun c hc => ha c (by simp [hc]))
    have := ha c (by simp)
    simp [this, h1, h2]

/-- The characters `=` or `>=`. -/
def relChars (eq : Bool) : List Char := if eq then ['='] else ['>', '=']

theorem splitRel_of {A B : List Char} (eq : Bool) (hA : ∀ c ∈ noSpace A, sumChar c) :
    splitRel (A ++ relChars eq ++ B) = (noSpace A, !eq, noSpace B) := by
  have e : (A ++ relChars eq ++ B).filter (fun c => decide (c ≠ ' ')) = noSpace A ++ (relChars eq ++ noSpace B) := by
    have : noSpace (relChars eq) = relChars eq := by cases eq <;> decide
    show noSpace _ = _
    rw [noSpace_append, noSpace_append, this, List.append_assoc]
  obtain ⟨h1, h2⟩ := takeWhile_append_stop (fun c => decide (c ≠ '=' ∧ c ≠ '>')) (a := noSpace A) (b := relChars eq ++ noSpace B)
    (fun c hc => by have := sumChar_ne (hA c hc); simp [this.2.1, this.2.2.1]) (by cases eq <;> simp [relChars])
  unfold splitRel
  simp only [e, h1, h2]
  cases eq <;> simp [relChars]

theorem lineHolds_of {σ : List Char → Int} {A B : List Char} (eq : Bool) {a b : Int} (hA : ∀ c ∈ noSpace A, sumChar c)
    (ha : readPlain σ (noSpace A) = some a) (hb : readPlain σ (noSpace B) = some b) :
    lineHolds σ (A ++ relChars eq ++ B) = some (if eq then decide (a = b) else decide (b ≤ a)) := by
  unfold lineHolds
  rw [splitRel_of eq hA]
  simp only [ha, hb]
  cases eq <;> rfl

theorem textLines_append : ∀ {A : List Char} (s : List Char), '\n' ∉ A → textLines (A ++ '\n' :: s) = A :: textLines s
  | [], s, _ => by simp [textLines]
  | c :: A, s, h => by
    simp only [List.mem_cons, not_or] at h
    have ih := textLines_append (A := A) s h.2
    rw [List.cons_append, textLines, if_neg (fun e => h.1 e.symm), ih]
    rfl

/-- A line of a relation that holds just if `P`. -/
structure RelLine (σ : List Char → Int) (line : List Char) (P : Prop) : Prop where
  nl : '\n' ∉ line
  hash : '#' ∉ line
  rel : '=' ∈ line
  holds : ∃ b, lineHolds σ line = some b ∧ (b = true ↔ P)

theorem linesHold_rel {σ : List Char → Int} {line : List Char} {P Q : Prop} (h : RelLine σ line P) {ls : List (List Char)}
    (hl : ∃ b, linesHold σ ls = some b ∧ (b = true ↔ Q)) : ∃ b, linesHold σ (line :: ls) = some b ∧ (b = true ↔ P ∧ Q) := by
  obtain ⟨b, hb, hbP⟩ := h.holds
  obtain ⟨b', hb', hbQ⟩ := hl
  refine ⟨b && b', ?_, by rw [Bool.and_eq_true, hbP, hbQ]⟩
  unfold linesHold at hb' ⊢
  rw [List.filter_cons, if_pos (by simpa using h.rel), List.mapM_cons, hb]
  obtain ⟨bs, h1, h2⟩ := Option.map_eq_some_iff.mp hb'
  rw [h1]
  simp [← h2]

theorem linesHold_skip {σ : List Char → Int} {line : List Char} (h : '=' ∉ line) (ls : List (List Char)) :
    linesHold σ (line :: ls) = linesHold σ ls := by
  unfold linesHold
  rw [List.filter_cons, if_neg (by simpa using h)]

theorem linesHold_rows {σ : List Char → Int} {α : Type*} (P : α → Prop) (Q : Prop) {ls : List (List Char)}
    (hl : ∃ b, linesHold σ ls = some b ∧ (b = true ↔ Q)) : ∀ {rows : List α} {Ls : List (List Char)},
    List.Forall₂ (fun r L => RelLine σ L (P r)) rows Ls → ∃ b, linesHold σ (Ls ++ ls) = some b ∧ (b = true ↔ (∀ r ∈ rows, P r) ∧ Q)
  | [], [], _ => by simpa using hl
  | r :: rows, L :: Ls, h => by
    rw [List.forall₂_cons] at h
    have := linesHold_rel h.1 (linesHold_rows P Q hl h.2)
    simp only [List.cons_append]
    obtain ⟨b, h1, h2⟩ := this
    exact ⟨b, h1, by rw [h2]; simp [and_assoc]⟩

theorem textLines_rows : ∀ {Ls : List (List Char)} (s : List Char), (∀ L ∈ Ls, '\n' ∉ L) →
    textLines ((Ls.map (fun L => L ++ ['\n'])).flatten ++ s) = Ls ++ textLines s
  | [], s, _ => by simp
  | L :: Ls, s, h => by
    have ih := textLines_rows (Ls := Ls) s (fun L hL => h L (by simp [hL]))
    have := textLines_append ((Ls.map (fun L => L ++ ['\n'])).flatten ++ s) (h L (by simp))
    simp only [List.map_cons, List.flatten_cons, List.append_assoc, List.cons_append, List.nil_append, this, ih]

theorem setsOf_skip {L : List Char} (h : L.take 5 ≠ ['S', 'e', 't', ' ', '#']) (ls : List (List Char)) :
    setsOf (L :: ls) = (L :: (setsOf ls).1, (setsOf ls).2) := by
  simp only [setsOf, if_neg h]

theorem setsOf_head {L : List Char} (h : L.take 5 = ['S', 'e', 't', ' ', '#']) (ls : List (List Char)) :
    setsOf (L :: ls) = ([], (setsOf ls).1 :: (setsOf ls).2) := by
  simp only [setsOf, if_pos h]

theorem take5_hash {L : List Char} (h : '#' ∉ L) : L.take 5 ≠ ['S', 'e', 't', ' ', '#'] := by
  intro e
  exact h (List.mem_of_mem_take (i := 5) (by rw [e]; simp))

theorem setsOf_rows : ∀ {Ls : List (List Char)} (ls : List (List Char)), (∀ L ∈ Ls, '#' ∉ L) →
    setsOf (Ls ++ ls) = (Ls ++ (setsOf ls).1, (setsOf ls).2)
  | [], ls, _ => by simp
  | L :: Ls, ls, h => by
    rw [List.cons_append, setsOf_skip (take5_hash (h L (by simp))), setsOf_rows ls (fun L hL => h L (by simp [hL]))]
    rfl

/-! ### Rows -/

theorem compactTerm_eq (f : Bool) (c : Int) (v : List Char) : compactTerm f c v = printTerm (!f) c v := by
  unfold compactTerm printTerm
  by_cases h1 : c = 1
  · subst h1; cases f <;> simp
  by_cases h2 : c = -1
  · subst h2; simp
  by_cases h3 : c = 0
  · subst h3; simp
  by_cases h4 : c ≥ 2
  · have : c > 0 := by omega
    cases f <;> simp [h1, h2, h3, h4, this]
  · have h5 : c ≤ -2 := by omega
    have h6 : ¬ c > 0 := by omega
    simp [h1, h2, h3, h4, h5, h6]

theorem compactTerms_eq : ∀ (f : Bool) (l : List (Int × List Char)),
    compactTerms f l = ((printTerms (!f) l).1, !(printTerms (!f) l).2)
  | f, [] => by simp [compactTerms, printTerms]
  | f, (c, v) :: l => by
    have ih := compactTerms_eq (f && decide (c = 0)) l
    have e : (!(f && decide (c = 0))) = (!f || decide (c ≠ 0)) := by cases f <;> simp
    simp only [compactTerms, printTerms, ih, e, compactTerm_eq]

theorem noSpace_compactConst (f : Bool) (k : Int) : noSpace (compactConst f k) = printConst (!f) k := by
  have hi : noSpace (intDec k) = intDec k := noSpace_sum (sumChar_intDec k)
  have hs : noSpace [' '] = [] := by decide
  have hp : ∀ s, noSpace ('+' :: s) = '+' :: noSpace s := fun s => by simp [noSpace]
  unfold compactConst printConst
  by_cases h0 : k = 0
  · subst h0; cases f <;> decide +kernel
  · cases f
    · by_cases h1 : k ≥ 1
      · have : k ≥ 0 := by omega
        simp [h0, h1, this, noSpace_append, hi, hs, hp]
      · have h2 : k ≤ -1 := by omega
        have h3 : ¬ k ≥ 0 := by omega
        simp [h0, h1, h2, h3, noSpace_append, hi, hs]
    · by_cases h1 : k ≥ 1
      · simp [h0, h1, noSpace_append, hi, hs]
      · have h2 : k ≤ -1 := by omega
        simp [h0, h1, h2, noSpace_append, hi, hs]

theorem prettyTerm_eq (c : Int) {v : List Char} (hv : ∀ d ∈ v, sumChar d) :
    noSpace (prettyTerm c v) = printTerm true c v ∧ noSpace (cplexTerm c v) = printTerm true c v := by
  have hi : noSpace (intDec c) = intDec c := noSpace_sum (sumChar_intDec c)
  have hs : noSpace [' '] = [] := by decide
  have hv : noSpace v = v := noSpace_sum hv
  have hp : ∀ s, noSpace ('+' :: s) = '+' :: noSpace s := fun s => by simp [noSpace]
  have hm : ∀ s, noSpace ('-' :: s) = '-' :: noSpace s := fun s => by simp [noSpace]
  have h6 : noSpace (List.replicate 6 ' ') = [] := by decide
  have h7 : noSpace (List.replicate 4 ' ') = [] := by decide
  unfold prettyTerm cplexTerm printTerm
  by_cases h1 : c = 1
  · subst h1; simp [noSpace_append, hp, hv, hs]
  by_cases h2 : c = -1
  · subst h2; simp [noSpace_append, hm, hv, hs]
  by_cases h3 : c = 0
  · subst h3; simp; decide
  by_cases h4 : c ≥ 2
  · have : c > 0 := by omega
    simp [h1, h2, h3, h4, this, noSpace_append, hp, hv, hs, hi]
  · have h5 : c ≤ -2 := by omega
    have h6 : ¬ c > 0 := by omega
    simp [h1, h2, h3, h4, h5, h6, noSpace_append, hv, hs, hi]

theorem printTerms_true_flag : ∀ l : List (Int × List Char), (printTerms true l).1 = l.flatMap (fun p => printTerm true p.1 p.2)
  | [] => rfl
  | (c, v) :: l => by
    have := printTerms_true_flag l
    simp only [printTerms, Bool.true_or, List.flatMap_cons, this]

theorem prettyTerms_eq : ∀ (l : List (Int × List Char)), (∀ p ∈ l, ∀ c ∈ p.2, sumChar c) →
    noSpace (l.flatMap (fun p => prettyTerm p.1 p.2)) = (printTerms true l).1 ∧
    noSpace (l.flatMap (fun p => cplexTerm p.1 p.2)) = (printTerms true l).1
  | [], _ => ⟨rfl, rfl⟩
  | p :: l, h => by
    obtain ⟨h1, h2⟩ := prettyTerms_eq l (fun p hp => h p (by simp [hp]))
    obtain ⟨h3, h4⟩ := prettyTerm_eq p.1 (h p (by simp))
    rw [printTerms_true_flag] at h1 h2 ⊢
    simp only [List.flatMap_cons, noSpace_append, h1, h2, h3, h4, and_self]

end Pluto
