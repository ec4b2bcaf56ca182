import Verif.Lemmas.PrintCst

/-! Lemmas on the rows of printed constraint systems. -/

namespace Pluto

theorem mapM_range {n : Nat} {f : Nat → Option (List Char)} {g : Nat → List Char} (h : ∀ j < n, f j = some (g j)) :
    (List.range n).mapM f = some ((List.range n).map g) := by
  induction n with
  | zero => rfl
  | succ n ih =>
    rw [List.range_succ, List.mapM_append, ih (fun j hj => h j (by omega))]
    simp [h n (by omega)]

theorem cstVar_fit {n : Nat} {names : Option (List (List Char))} (h : NamesFit 5 18 n names) :
    ∀ j < n, cstVar names j = some (knownAs names j) ∧ IsName (knownAs names j) := by
  intro j hj
  cases names with
  | some ns =>
    obtain ⟨h1, h2⟩ := h
    have hj' : j < ns.length := by omega
    obtain ⟨h3, h4⟩ := h2 _ (List.getElem_mem hj')
    have e : ns.getD j [] = ns[j] := by rw [List.getD_eq_getElem?_getD, List.getElem?_eq_getElem hj']; rfl
    simp only [cstVar, knownAs, e, List.getElem?_eq_getElem hj', Option.map_some]
    exact ⟨by rw [List.take_of_length_le h4], h3⟩
  | none =>
    have h : n ≤ 18 := h
    have e : (105 + j) % 256 = 105 + j := by omega
    simp only [cstVar, knownAs, e, if_neg (by omega : ¬ 105 + j = 0)]
    refine ⟨rfl, ?_⟩
    have : j < 18 := by omega
    interval_cases j <;> decide

theorem isName_numbered (j : Nat) : IsName ('c' :: '_' :: natDec j) := by
  refine ⟨by simp, ?_, by simp; decide⟩
  intro c hc
  rw [List.mem_cons, List.mem_cons] at hc
  rcases hc with rfl | rfl | hc
  · left; decide
  · right; rfl
  · rcases sumChar_isDec (natDec_isDec j c hc) with h | h | h | h
    · exact Or.inl h
    · exact Or.inr h
    · subst h; exact absurd (natDec_isDec j _ hc) (by decide)
    · subst h; exact absurd (natDec_isDec j _ hc) (by decide)

theorem cplexVar_fit {n : Nat} {names : Option (List (List Char))} (h : NamesFit 4 254 n names) :
    ∀ j < n, cplexVar names j = some (numberedAs names j) ∧ IsName (numberedAs names j) := by
  intro j hj
  cases names with
  | some ns =>
    obtain ⟨h1, h2⟩ := h
    have hj' : j < ns.length := by omega
    obtain ⟨h3, h4⟩ := h2 _ (List.getElem_mem hj')
    have e : ns.getD j [] = ns[j] := by rw [List.getD_eq_getElem?_getD, List.getElem?_eq_getElem hj']; rfl
    simp only [cplexVar, numberedAs, e, List.getElem?_eq_getElem hj', Option.bind_some]
    exact ⟨by rw [if_pos (by omega)], h3⟩
  | none =>
    have h : n ≤ 254 := h
    simp only [cplexVar, numberedAs]
    refine ⟨?_, isName_numbered j⟩
    have := (natDec_length j).2.2 (by omega)
    rw [List.take_of_length_le (by simp; omega)]
    rfl

/-- The terms of a row with the names given by `g`. -/
def rowTerms (n : Nat) (g : Nat → List Char) (val : List Int) : List (Int × List Char) := (val.take n).zip ((List.range n).map g)

theorem rowTerms_name {n : Nat} {g : Nat → List Char} (hg : ∀ j < n, IsName (g j)) {val : List Int} :
    ∀ p ∈ rowTerms n g val, IsName p.2 := by
  intro p hp
  have := (List.of_mem_zip hp).2
  rw [List.mem_map] at this
  obtain ⟨j, hj, he⟩ := this
  rw [← he]; exact hg j (by simpa using hj)

theorem rowTerms_sum {n : Nat} {g : Nat → List Char} {val : List Int} {k : Int} (hl : val.length = n + 1) (hk : val[n]? = some k)
    {σ : List Char → Int} {x : List Int} (hx : x.length = n) (hσ : Reads σ g x) :
    sumVal σ (rowTerms n g val) + k = aff val x := by
  have h := aff_take hx hk
  rw [List.take_of_length_le (by omega)] at h
  rw [h, rowTerms, sumVal_zip]
  congr 2
  apply List.ext_getElem (by simp [hx])
  intro j h1 h2
  have := hσ j h2
  rw [List.getD_eq_getElem?_getD, List.getElem?_eq_getElem h2] at this
  simpa using this

theorem relText_eq (eq : Bool) : relText eq = relChars eq ++ [' ', '0'] ++ ['\n'] := by cases eq <;> rfl

theorem read_zero (σ : List Char → Int) : readPlain σ (noSpace [' ', '0']) = some 0 := by
  have : noSpace [' ', '0'] = ['0'] := by decide
  rw [this]
  have := termVal_dec (atom := fun a => some (σ a)) 0
  have e : natDec 0 = ['0'] := by decide +kernel
  rw [e] at this
  unfold readPlain readSum
  simp [splitTop, this, restVal]

theorem relLine_of {σ : List Char → Int} {A B : List Char} (r : Row) {a b : Int} {x : List Int} (hA : ∀ c ∈ noSpace A, sumChar c)
    (hB : ∀ c ∈ noSpace B, sumChar c) (ha : readPlain σ (noSpace A) = some a) (hb : readPlain σ (noSpace B) = some b)
    (hab : a - b = aff r.val x) : RelLine σ (A ++ relChars r.eq ++ B) (r.Sat x) := by
  have h1 := sumChar_of_noSpace hA
  have h2 := sumChar_of_noSpace hB
  have h3 : ∀ c ∈ relChars r.eq, c ≠ '\n' ∧ c ≠ '#' := by cases r.eq <;> decide
  have h4 : ∀ c ∈ A ++ relChars r.eq ++ B, c ≠ '\n' ∧ c ≠ '#' := by
    intro c hc
    rw [List.mem_append, List.mem_append] at hc
    rcases hc with (hc | hc) | hc
    · exact h1 c hc
    · exact h3 c hc
    · exact h2 c hc
  refine ⟨fun h => (h4 _ h).1 rfl, fun h => (h4 _ h).2 rfl, ?_, _, lineHolds_of r.eq hA ha hb, ?_⟩
  · rw [List.mem_append, List.mem_append]
    left; right
    cases r.eq <;> decide
  · unfold Row.Sat
    rw [← hab]
    cases r.eq
    · simp
    · simp [sub_eq_zero]

theorem compactRow_line {n : Nat} {names : Option (List (List Char))} (h : NamesFit 5 18 n names) (r : Row) (hr : r.val.length = n + 1) :
    ∃ L, compactRow names (n + 1) r = some (L ++ ['\n']) ∧
      ∀ (σ : List Char → Int) (x : List Int), x.length = n → Reads σ (knownAs names) x → RelLine σ L (r.Sat x) := by
  have hk : r.val[n]? = some (r.val[n]) := List.getElem?_eq_getElem (by omega)
  set k := r.val[n]
  have hv := mapM_range (fun j hj => (cstVar_fit h j hj).1)
  set l := rowTerms n (knownAs names) r.val with hldef
  set t := compactTerms true l with ht
  refine ⟨t.1 ++ compactConst t.2 k ++ relChars r.eq ++ [' ', '0'], ?_, ?_⟩
  · unfold compactRow
    simp only [Nat.add_sub_cancel, hv, hk, Option.bind_eq_bind, Option.bind_some, relText_eq]
    simp [ht, hldef, rowTerms, List.append_assoc]
  · intro σ x hx hσ
    have hname := rowTerms_name (val := r.val) (fun j hj => (cstVar_fit h j hj).2)
    have hch : ∀ p ∈ l, ∀ c ∈ p.2, sumChar c := fun p hp => sumChar_name (hname p hp)
    have ht1 : t.1 = (printTerms false l).1 ∧ t.2 = !(printTerms false l).2 := by rw [ht, compactTerms_eq]; simp
    have hc1 := sumChar_printTerms false l hch
    have e : noSpace (t.1 ++ compactConst t.2 k) = (printTerms false l).1 ++ printConst (printTerms false l).2 k := by
      rw [noSpace_append, noSpace_compactConst, ht1.1, ht1.2, noSpace_sum hc1, Bool.not_not]
    apply relLine_of (a := aff r.val x) (b := 0)
    · rw [e]
      intro c hc
      rw [List.mem_append] at hc
      rcases hc with hc | hc
      · exact hc1 c hc
      · exact sumChar_printConst _ _ c hc
    · intro c hc
      have : noSpace [' ', '0'] = ['0'] := by decide
      rw [this, List.mem_singleton] at hc
      subst hc; left; decide
    · rw [e, readPlain, read_false (x := σ) k l (fun p hp => ⟨(unit_of_name (hname p hp)).1, rfl⟩)]
      rw [rowTerms_sum hr hk hx hσ]
    · exact read_zero σ
    · simp

theorem splitTop_nil : ∀ {s : List Char}, splitTop 0 s = ([], []) → s = []
  | [], _ => rfl
  | c :: s, h => by
    unfold splitTop at h
    split at h <;> simp at h

theorem readPlain_true {σ : List Char → Int} (k : Int) (l : List (Int × List Char)) (hl : ∀ p ∈ l, IsName p.2)
    (hne : (∃ p ∈ l, p.1 ≠ 0) ∨ k ≠ 0) : readPlain σ ((printTerms true l).1 ++ printConst true k) = some (sumVal σ l + k) := by
  obtain ⟨-, L, h1, h2⟩ := read_true (atom := fun a => some (σ a)) (x := σ) k l (fun p hp => ⟨(unit_of_name (hl p hp)).1, rfl⟩)
  unfold readPlain readSum
  rw [h1]
  cases L with
  | nil =>
    exfalso
    have := splitTop_nil h1
    rw [List.append_eq_nil_iff, printTerms_true_flag, List.flatMap_eq_nil_iff] at this
    rcases hne with ⟨p, hp, hp0⟩ | hk
    · have := this.1 p hp
      rw [printTerm_true hp0] at this
      cases this
    · rw [printConst_true hk] at this
      cases this.2
  | cons q L => simpa using h2

theorem prettyConst_eq (k : Int) (f : Bool) (h : f = false ∨ k ≠ 0) : noSpace (prettyConst f k) = printConst true k := by
  have hi : noSpace (intDec k) = intDec k := noSpace_sum (sumChar_intDec k)
  have hs : noSpace [' '] = [] := by decide
  have hp : ∀ s, noSpace ('+' :: s) = '+' :: noSpace s := fun s => by simp [noSpace]
  unfold prettyConst printConst
  by_cases h0 : k = 0
  · subst h0
    rcases h with rfl | h
    · simp; decide
    · exact absurd rfl h
  · by_cases h1 : k ≥ 1
    · have : k ≥ 0 := by omega
      simp [h0, h1, this, noSpace_append, hi, hs, hp]
    · have h2 : k ≤ -1 := by omega
      have h3 : ¬ k ≥ 0 := by omega
      simp [h0, h1, h2, h3, noSpace_append, hi, hs]

theorem read_plus_zero (σ : List Char → Int) : readPlain σ ['+', '0'] = some 0 := by
  have := termVal_dec (atom := fun a => some (σ a)) 0
  have e : natDec 0 = ['0'] := by decide +kernel
  rw [e] at this
  unfold readPlain readSum
  simp [splitTop, this, restVal]

theorem sumVal_zero (σ : List Char → Int) : ∀ l : List (Int × List Char), (∀ p ∈ l, p.1 = 0) → sumVal σ l = 0
  | [], _ => rfl
  | p :: l, h => by
    have := sumVal_zero σ l (fun p hp => h p (by simp [hp]))
    unfold sumVal at this ⊢
    rw [List.map_cons, List.sum_cons, this, h p (by simp)]
    simp

theorem prettyRow_line {n : Nat} {names : Option (List (List Char))} (h : NamesFit 5 18 n names) (r : Row) (hr : r.val.length = n + 1) :
    ∃ L, prettyRow names (n + 1) r = some (L ++ ['\n']) ∧
      ∀ (σ : List Char → Int) (x : List Int), x.length = n → Reads σ (knownAs names) x → RelLine σ L (r.Sat x) := by
  have hk : r.val[n]? = some (r.val[n]) := List.getElem?_eq_getElem (by omega)
  set k := r.val[n]
  have hv := mapM_range (fun j hj => (cstVar_fit h j hj).1)
  set l := rowTerms n (knownAs names) r.val with hldef
  set z := l.all (fun p => decide (p.1 = 0)) with hz
  refine ⟨l.flatMap (fun p => prettyTerm p.1 p.2) ++ prettyConst z k ++ relChars r.eq ++ [' ', '0'], ?_, ?_⟩
  · unfold prettyRow
    simp only [Nat.add_sub_cancel, hv, hk, Option.bind_eq_bind, Option.bind_some, relText_eq]
    simp [hz, hldef, rowTerms, List.append_assoc]
  · intro σ x hx hσ
    have hname := rowTerms_name (val := r.val) (fun j hj => (cstVar_fit h j hj).2)
    have hch : ∀ p ∈ l, ∀ c ∈ p.2, sumChar c := fun p hp => sumChar_name (hname p hp)
    have hsum := rowTerms_sum hr hk hx hσ
    have hc1 := sumChar_printTerms true l hch
    have hB : ∀ c ∈ noSpace [' ', '0'], sumChar c := by
      intro c hc
      have : noSpace [' ', '0'] = ['0'] := by decide
      rw [this, List.mem_singleton] at hc
      subst hc; left; decide
    by_cases hcase : z = true ∧ k = 0
    · obtain ⟨hz1, hk0⟩ := hcase
      have hall : ∀ p ∈ l, p.1 = 0 := by simpa [hz] using hz1
      have et : (printTerms true l).1 = [] := by
        rw [printTerms_true_flag, List.flatMap_eq_nil_iff]
        intro p hp
        rw [hall p hp]; rfl
      have e : noSpace (l.flatMap (fun p => prettyTerm p.1 p.2) ++ prettyConst z k) = ['+', '0'] := by
        rw [noSpace_append, (prettyTerms_eq l hch).1, et, hz1, hk0]
        decide +kernel
      apply relLine_of (a := 0) (b := 0) r _ hB _ (read_zero σ)
      · rw [← hsum, sumVal_zero σ l hall, hk0]; simp
      · rw [e]
        intro c hc
        simp only [List.mem_cons, List.not_mem_nil, or_false] at hc
        rcases hc with rfl | rfl
        · exact Or.inr (Or.inr (Or.inl rfl))
        · left; decide
      · rw [e]; exact read_plus_zero σ
    · have hk' : z = false ∨ k ≠ 0 := by
        by_cases h1 : z = true
        · right; exact fun h2 => hcase ⟨h1, h2⟩
        · left; simpa using h1
      have e : noSpace (l.flatMap (fun p => prettyTerm p.1 p.2) ++ prettyConst z k) = (printTerms true l).1 ++ printConst true k := by
        rw [noSpace_append, (prettyTerms_eq l hch).1, prettyConst_eq k z hk']
      apply relLine_of (a := aff r.val x) (b := 0) r _ hB _ (read_zero σ) (by simp)
      · rw [e]
        intro c hc
        rw [List.mem_append] at hc
        rcases hc with hc | hc
        · exact hc1 c hc
        · exact sumChar_printConst _ _ c hc
      · rw [e, readPlain_true k l hname ?_, hsum]
        rcases hk' with h1 | h1
        · left
          rw [hz, List.all_eq_false] at h1
          simpa using h1
        · exact Or.inr h1

theorem cplexCols_range : ∀ (fuel ncols j : Nat), ncols ≤ 255 → j ≤ ncols → ncols - j < fuel →
    cplexCols fuel ncols j = some (List.range' j (ncols - j))
  | 0, ncols, j, _, _, h => by omega
  | fuel + 1, ncols, j, h1, h2, h3 => by
    unfold cplexCols
    by_cases hj : j < ncols
    · have e : (j + 1) % 256 = j + 1 := by omega
      rw [if_pos hj, e, cplexCols_range fuel ncols (j + 1) h1 hj (by omega)]
      have : ncols - j = (ncols - (j + 1)) + 1 := by omega
      rw [this, List.range'_succ]
      rfl
    · have : ncols - j = 0 := by omega
      rw [if_neg hj, this]
      rfl

theorem cplexCols_forever : ∀ (fuel ncols j : Nat), 256 ≤ ncols → j < 256 → cplexCols fuel ncols j = none
  | 0, _, _, _, _ => rfl
  | fuel + 1, ncols, j, h1, h2 => by
    unfold cplexCols
    rw [if_pos (by omega), cplexCols_forever fuel ncols _ h1 (by omega)]
    rfl

theorem readPlain_intDec (σ : List Char → Int) (z : Int) : readPlain σ (intDec z) = some z := by
  have := read_false (atom := fun a => some (σ a)) (x := σ) z [] (by simp)
  have e : (printTerms false []).1 ++ printConst (printTerms false []).2 z = intDec z := by
    show [] ++ printConst false z = _
    rw [List.nil_append]
    unfold printConst
    by_cases h1 : z ≥ 1
    · simp [h1]
    · by_cases h2 : z ≤ -1
      · simp [h1, h2]
      · have : z = 0 := by omega
        subst this
        decide +kernel
  rw [e] at this
  simpa [readPlain, sumVal] using this

theorem cplexRow_text {n fuel : Nat} {names : Option (List (List Char))} (h : NamesFit 4 254 n names) (hn : n ≤ 254) (hf : n + 1 < fuel)
    (r : Row) (hr : r.val.length = n + 1) (hz : (∀ j < n, r.val.getD j 0 = 0) → 0 ≤ r.val.getD n 0 ∧ (r.eq = true → r.val.getD n 0 = 0)) :
    (∃ s, cplexRow fuel names (n + 1) r = some s ∧ noSpace s = [] ∧ ∀ x : List Int, x.length = n → r.Sat x) ∨
    ∃ L, cplexRow fuel names (n + 1) r = some (L ++ ['\n']) ∧
      ∀ (sp : List Char), noSpace sp = [] → ∀ (σ : List Char → Int) (x : List Int), x.length = n → Reads σ (numberedAs names) x →
        RelLine σ (sp ++ L) (r.Sat x) := by
  have hk : r.val[n]? = some (r.val[n]) := List.getElem?_eq_getElem (by omega)
  have hkd : r.val.getD n 0 = r.val[n] := by rw [List.getD_eq_getElem?_getD, hk]; rfl
  rw [hkd] at hz
  set k := r.val[n]
  have hv := mapM_range (fun j hj => (cplexVar_fit h j hj).1)
  set l := rowTerms n (numberedAs names) r.val with hldef
  have hname := rowTerms_name (val := r.val) (fun j hj => (cplexVar_fit h j hj).2)
  have hch : ∀ p ∈ l, ∀ c ∈ p.2, sumChar c := fun p hp => sumChar_name (hname p hp)
  have hcols := cplexCols_range fuel (n + 1) 0 (by omega) (by omega) (by omega)
  have hdrop : (List.range' 0 (n + 1 - 0)).dropLast = List.range n := by
    rw [← List.range_eq_range', Nat.sub_zero, List.range_succ, List.dropLast_concat]
  have hrow : cplexRow fuel names (n + 1) r =
      if l.all (fun p => decide (p.1 = 0)) then
        if k < 0 then none else some (l.flatMap (fun p => cplexTerm p.1 p.2))
      else some (l.flatMap (fun p => cplexTerm p.1 p.2) ++ (if r.eq then ['='] else ['>', '=']) ++ [' '] ++ intDec (-k) ++ ['\n']) := by
    unfold cplexRow
    simp only [hcols, hdrop, hv, hk, Nat.add_sub_cancel, Option.bind_eq_bind, Option.bind_some]
    rfl
  by_cases hall : l.all (fun p => decide (p.1 = 0)) = true
  · left
    have hall' : ∀ p ∈ l, p.1 = 0 := by simpa using hall
    have hzero : ∀ j < n, r.val.getD j 0 = 0 := by
      intro j hj
      have hj' : j < l.length := by simp [hldef, rowTerms, hr, hj]
      have := hall' _ (List.getElem_mem hj')
      rw [List.getD_eq_getElem?_getD, List.getElem?_eq_getElem (by omega), Option.getD_some]
      simpa [hldef, rowTerms] using this
    obtain ⟨hk1, hk2⟩ := hz hzero
    rw [hrow, if_pos hall, if_neg (by omega)]
    refine ⟨_, rfl, ?_, ?_⟩
    · rw [(prettyTerms_eq l hch).2, printTerms_true_flag, List.flatMap_eq_nil_iff]
      intro p hp
      rw [hall' p hp]; rfl
    · intro x hx
      have hd : dot (r.val.take n) x = 0 := by
        have : r.val.take n = List.replicate n 0 := by
          apply List.ext_getElem (by simp; omega)
          intro j h1 h2
          have hj : j < n := by simpa using h2
          have := hzero j hj
          rw [List.getD_eq_getElem?_getD, List.getElem?_eq_getElem (by omega), Option.getD_some] at this
          simpa using this
        rw [this]
        clear * -
        induction n generalizing x with
        | zero => simp
        | succ n ih => cases x with
          | nil => simp
          | cons a x => rw [List.replicate_succ, dot_cons, ih]; simp
      have := aff_take hx hk
      rw [List.take_of_length_le (by omega), hd] at this
      unfold Row.Sat
      rw [this]
      split
      · rename_i he; rw [hk2 he]; simp
      · simpa using hk1
  · right
    rw [hrow, if_neg hall]
    refine ⟨l.flatMap (fun p => cplexTerm p.1 p.2) ++ relChars r.eq ++ (' ' :: intDec (-k)), ?_, ?_⟩
    · simp only [relChars, List.append_assoc, List.cons_append, List.nil_append]
    · intro sp hsp σ x hx hσ
      have hsum := rowTerms_sum hr hk hx hσ
      have e : noSpace (sp ++ l.flatMap (fun p => cplexTerm p.1 p.2)) = (printTerms true l).1 := by
        rw [noSpace_append, hsp, (prettyTerms_eq l hch).2, List.nil_append]
      have e2 : noSpace (' ' :: intDec (-k)) = intDec (-k) := by
        have : noSpace (' ' :: intDec (-k)) = noSpace (intDec (-k)) := by simp [noSpace]
        rw [this, noSpace_sum (sumChar_intDec _)]
      have := relLine_of (σ := σ) (A := sp ++ l.flatMap (fun p => cplexTerm p.1 p.2)) (B := ' ' :: intDec (-k)) r
        (a := sumVal σ l) (b := -k) (x := x) (by rw [e]; exact sumChar_printTerms true l hch) (by rw [e2]; exact sumChar_intDec _)
        (by
          rw [e]
          have := readPlain_true (σ := σ) 0 l hname (by
            left
            simpa using hall)
          have e0 : printConst true 0 = [] := by decide
          simpa [e0] using this)
        (by rw [e2]; exact readPlain_intDec σ _) (by rw [← hsum]; ring)
      simpa [List.append_assoc] using this

end Pluto
