import Verif.Spec.Print
import Verif.Model.Print
import Verif.Lemmas.Affine
import Mathlib.Tactic.IntervalCases

/-! Lemmas about the printed texts and how they are read. -/

namespace Pluto

theorem isDec_digit {n : Nat} (h : n < 10) : isDec (Char.ofNat (48 + n)) = true ∧ (Char.ofNat (48 + n)).toNat = 48 + n := by
  interval_cases n <;> decide

theorem natDec_isDec (n : Nat) : ∀ c ∈ natDec n, isDec c = true := by
  induction n using natDec.induct with
  | case1 n h => unfold natDec; simp only [h, if_true]; intro c hc; simp at hc; subst hc; exact (isDec_digit h).1
  | case2 n h ih =>
    unfold natDec; simp only [h, if_false]
    intro c hc
    rw [List.mem_append] at hc
    rcases hc with hc | hc
    · exact ih c hc
    · simp at hc; subst hc; exact (isDec_digit (Nat.mod_lt _ (by omega))).1

theorem natDec_ne_nil (n : Nat) : natDec n ≠ [] := by
  unfold natDec; split <;> simp

theorem decVal_append (s : List Char) (c : Char) : decVal (s ++ [c]) = 10 * decVal s + ((c.toNat : Int) - 48) := by
  simp [decVal]

theorem decVal_natDec (n : Nat) : decVal (natDec n) = n := by
  induction n using natDec.induct with
  | case1 n h => unfold natDec; simp only [h, if_true]; simp [decVal, (isDec_digit h).2]
  | case2 n h ih =>
    unfold natDec; simp only [h, if_false]
    rw [decVal_append, ih, (isDec_digit (Nat.mod_lt n (by omega : 10 > 0))).2]
    push_cast
    omega

/-- No sign outside parentheses, and parentheses balanced (`d` open at the start). -/
def closedAt : Nat → List Char → Bool
  | d, [] => decide (d = 0)
  | d, c :: s => !decide (d = 0 ∧ (c = '+' ∨ c = '-')) && closedAt (if c = '(' then d + 1 else if c = ')' then d - 1 else d) s

theorem splitTop_append : ∀ (b : List Char) (d : Nat) (s : List Char), closedAt d b = true →
    splitTop d (b ++ s) = (b ++ (splitTop 0 s).1, (splitTop 0 s).2)
  | [], d, s, h => by
    have h : d = 0 := by simpa [closedAt] using h
    subst h; rfl
  | c :: b, d, s, h => by
    simp only [closedAt, Bool.and_eq_true, Bool.not_eq_true', decide_eq_false_iff_not] at h
    have ih := splitTop_append b _ s h.2
    rw [List.cons_append, splitTop, if_neg h.1]
    simp only [ih, List.cons_append]

/-- A text without signs and parentheses. -/
def plainChars (s : List Char) : Prop := ∀ c ∈ s, c ≠ '+' ∧ c ≠ '-' ∧ c ≠ '(' ∧ c ≠ ')'

theorem closedAt_plain : ∀ (s : List Char), plainChars s → closedAt 0 s = true
  | [], _ => rfl
  | c :: s, h => by
    obtain ⟨h1, h2, h3, h4⟩ := h c (by simp)
    have ih := closedAt_plain s (fun c hc => h c (by simp [hc]))
    simp [closedAt, h1, h2, h3, h4, ih]

theorem closedAt_append : ∀ (a b : List Char) (d : Nat), closedAt d a = true → closedAt 0 b = true → closedAt d (a ++ b) = true
  | [], b, d, h, hb => by
    have h : d = 0 := by simpa [closedAt] using h
    subst h; exact hb
  | c :: a, b, d, h, hb => by
    simp only [closedAt, Bool.and_eq_true] at h
    simp only [List.cons_append, closedAt, Bool.and_eq_true]
    exact ⟨h.1, closedAt_append a b _ h.2 hb⟩

theorem plain_of_isDec {c : Char} (h : isDec c = true) : c ≠ '+' ∧ c ≠ '-' ∧ c ≠ '(' ∧ c ≠ ')' ∧ c ≠ '/' := by
  refine ⟨?_, ?_, ?_, ?_, ?_⟩ <;> (rintro rfl; revert h; decide)

theorem plain_natDec (n : Nat) : plainChars (natDec n) := fun c hc => by
  obtain ⟨h1, h2, h3, h4, -⟩ := plain_of_isDec (natDec_isDec n c hc)
  exact ⟨h1, h2, h3, h4⟩

/-- A text that the reader takes as one unit. -/
structure UnitText (v : List Char) : Prop where
  closed : closedAt 0 v = true
  ne : v ≠ []
  head : ∀ c ∈ v.head?, isDec c = false

theorem takeWhile_dec {ds v : List Char} (hd : ∀ c ∈ ds, isDec c = true) (hv : ∀ c ∈ v.head?, isDec c = false) :
    (ds ++ v).takeWhile isDec = ds ∧ (ds ++ v).dropWhile isDec = v := by
  have h1 : v.takeWhile isDec = [] ∧ v.dropWhile isDec = v := by
    cases v with
    | nil => simp
    | cons c v => simp [hv c (by simp)]
  constructor
  · rw [List.takeWhile_append_of_pos hd, h1.1, List.append_nil]
  · rw [List.dropWhile_append_of_pos hd, h1.2]

theorem termVal_unit {atom : List Char → Option Int} {v : List Char} (hv : UnitText v) : termVal atom v = atom v := by
  obtain ⟨h1, h2⟩ := takeWhile_dec (ds := []) (by simp) hv.head
  unfold termVal
  rw [List.nil_append] at h1 h2
  simp only [h1, h2]
  cases v with
  | nil => exact absurd rfl hv.ne
  | cons c v => rfl

theorem termVal_mul {atom : List Char → Option Int} {v : List Char} (hv : UnitText v) (n : Nat) :
    termVal atom (natDec n ++ v) = (atom v).map (fun x => (n : Int) * x) := by
  obtain ⟨h1, h2⟩ := takeWhile_dec (natDec_isDec n) hv.head
  unfold termVal
  simp only [h1, h2, decVal_natDec]
  cases hd : natDec n with
  | nil => exact absurd hd (natDec_ne_nil n)
  | cons d ds =>
    cases v with
    | nil => exact absurd rfl hv.ne
    | cons c v => rfl

theorem termVal_dec {atom : List Char → Option Int} (n : Nat) : termVal atom (natDec n) = some (n : Int) := by
  obtain ⟨h1, h2⟩ := takeWhile_dec (v := []) (natDec_isDec n) (by simp)
  rw [List.append_nil] at h1 h2
  unfold termVal
  simp only [h1, h2, decVal_natDec]
  cases hd : natDec n with
  | nil => exact absurd hd (natDec_ne_nil n)
  | cons d ds => rfl

/-- The text of a term without its sign. -/
def termBody (c : Int) (v : List Char) : List Char := if c = 1 ∨ c = -1 then v else natDec c.natAbs ++ v

theorem printTerm_true {c : Int} (hc : c ≠ 0) (v : List Char) :
    printTerm true c v = (if c < 0 then '-' else '+') :: termBody c v := by
  unfold printTerm termBody intDec
  by_cases h1 : c = 1
  · subst h1; simp
  by_cases h2 : c = -1
  · subst h2; simp
  rcases lt_or_gt_of_ne hc with h | h
  · have : ¬ c > 0 := by omega
    simp [h1, h2, hc, h, this]
  · have : ¬ c < 0 := by omega
    simp [h1, h2, hc, h, this]

theorem printTerm_false {c : Int} (hc : c ≠ 0) (v : List Char) :
    printTerm false c v = (if c < 0 then ['-'] else []) ++ termBody c v := by
  unfold printTerm termBody intDec
  by_cases h1 : c = 1
  · subst h1; simp
  by_cases h2 : c = -1
  · subst h2; simp
  rcases lt_or_gt_of_ne hc with h | h
  · have : ¬ c > 0 := by omega
    simp [h1, h2, hc, h, this]
  · have : ¬ c < 0 := by omega
    simp [h1, h2, hc, h, this]

theorem printConst_true {c : Int} (hc : c ≠ 0) : printConst true c = (if c < 0 then '-' else '+') :: natDec c.natAbs := by
  unfold printConst intDec
  rcases lt_or_gt_of_ne hc with h | h
  · have h1 : ¬ c ≥ 1 := by omega
    have h2 : c ≤ -1 := by omega
    simp [h1, h2, h]
  · have h1 : c ≥ 1 := by omega
    have h2 : ¬ c < 0 := by omega
    simp [h1, h2]

theorem printConst_false {c : Int} (hc : c ≠ 0) : printConst false c = (if c < 0 then ['-'] else []) ++ natDec c.natAbs := by
  unfold printConst intDec
  rcases lt_or_gt_of_ne hc with h | h
  · have h1 : ¬ c ≥ 1 := by omega
    have h2 : c ≤ -1 := by omega
    simp [h1, h2, h]
  · have h1 : c ≥ 1 := by omega
    have h2 : ¬ c < 0 := by omega
    simp [h1, h2]

theorem termBody_closed {v : List Char} (hv : UnitText v) (c : Int) : closedAt 0 (termBody c v) = true ∧ termBody c v ≠ [] := by
  unfold termBody
  split
  · exact ⟨hv.closed, hv.ne⟩
  · exact ⟨closedAt_append _ _ _ (closedAt_plain _ (plain_natDec _)) hv.closed, by simp [natDec_ne_nil]⟩

theorem termBody_val {atom : List Char → Option Int} {v : List Char} (hv : UnitText v) {x : Int} (hx : atom v = some x) (c : Int) :
    termVal atom (termBody c v) = some (|c| * x) := by
  unfold termBody
  split
  · rename_i h
    rw [termVal_unit hv, hx]
    rcases h with rfl | rfl <;> simp
  · rw [termVal_mul hv, hx]
    simp [Int.natCast_natAbs]

theorem splitTop_sign (neg : Bool) {b s : List Char} (hb : closedAt 0 b = true) {l : List (Bool × List Char)} (hs : splitTop 0 s = ([], l)) :
    splitTop 0 ((if neg then '-' else '+') :: (b ++ s)) = ([], (neg, b) :: l) := by
  have h := splitTop_append b 0 s hb
  cases neg <;> simp [splitTop, h, hs]

/-- The sum of the printed terms, with `x` the value of each variable. -/
def sumVal (x : List Char → Int) (l : List (Int × List Char)) : Int := (l.map (fun p => p.1 * x p.2)).sum

theorem restVal_cons {atom : List Char → Option Int} {s : List Char} {l : List (Bool × List Char)} {c v w : Int} (hc : c ≠ 0)
    (h1 : termVal atom s = some (|c| * v)) (h2 : restVal atom l = some w) :
    restVal atom ((decide (c < 0), s) :: l) = some (c * v + w) := by
  simp only [restVal, h1, h2]
  rcases lt_or_gt_of_ne hc with h | h
  · rw [abs_of_neg h]; simp [h]
  · have : ¬ c < 0 := by omega
    rw [abs_of_pos h]; simp [this]

theorem read_true {atom : List Char → Option Int} {x : List Char → Int} (k : Int) : ∀ (l : List (Int × List Char)),
    (∀ p ∈ l, UnitText p.2 ∧ atom p.2 = some (x p.2)) →
    (printTerms true l).2 = true ∧
    ∃ L, splitTop 0 ((printTerms true l).1 ++ printConst true k) = ([], L) ∧ restVal atom L = some (sumVal x l + k)
  | [], _ => by
    refine ⟨rfl, ?_⟩
    by_cases hk : k = 0
    · subst hk; exact ⟨[], rfl, by simp [restVal, sumVal]⟩
    · refine ⟨[(decide (k < 0), natDec k.natAbs)], ?_, ?_⟩
      · have := splitTop_sign (decide (k < 0)) (closedAt_plain _ (plain_natDec k.natAbs)) (s := []) (l := []) rfl
        simpa [printTerms, printConst_true hk] using this
      · have h1 := termVal_dec (atom := atom) k.natAbs
        rw [Int.natCast_natAbs] at h1
        have := restVal_cons (atom := atom) (s := natDec k.natAbs) (l := []) (c := k) (v := 1) (w := 0) hk (by simpa using h1) rfl
        rw [this]; simp [sumVal]
  | (c, v) :: l, h => by
    obtain ⟨h1, h2⟩ := h (c, v) (by simp)
    obtain ⟨ih0, L, ih1, ih2⟩ := read_true k l (fun p hp => h p (by simp [hp]))
    by_cases hc : c = 0
    · subst hc
      refine ⟨by simpa [printTerms] using ih0, L, ?_, ?_⟩
      · simpa [printTerms, printTerm] using ih1
      · simpa [sumVal] using ih2
    · refine ⟨by simpa [printTerms] using ih0, (decide (c < 0), termBody c v) :: L, ?_, ?_⟩
      · have := splitTop_sign (decide (c < 0)) (termBody_closed h1 c).1 ih1
        simpa [printTerms, printTerm_true hc] using this
      · rw [restVal_cons hc (termBody_val h1 h2 c) ih2]
        simp [sumVal, add_assoc]

theorem readSum_start {atom : List Char → Option Int} {b s : List Char} {L : List (Bool × List Char)} {c v w : Int} (hc : c ≠ 0)
    (hb : closedAt 0 b = true) (hn : b ≠ []) (hv : termVal atom b = some (|c| * v)) (hs : splitTop 0 s = ([], L))
    (hL : restVal atom L = some w) :
    readSum atom ((if c < 0 then ['-'] else []) ++ b ++ s) = some (c * v + w) := by
  by_cases h : c < 0
  · have h1 := splitTop_sign true hb hs
    have h2 := restVal_cons hc hv hL
    simp only [if_true] at h1
    simp only [h, decide_true] at h2
    unfold readSum
    simp only [h, if_true, List.cons_append, List.nil_append, h1, h2]
  · have h1 := splitTop_append b 0 s hb
    rw [hs] at h1
    unfold readSum
    simp only [h, if_false, List.nil_append, h1, List.append_nil, hv, hL]
    have : 0 < c := by omega
    cases b with
    | nil => exact absurd rfl hn
    | cons d b => simp [hv, hL, abs_of_pos this]

theorem read_false {atom : List Char → Option Int} {x : List Char → Int} (k : Int) : ∀ (l : List (Int × List Char)),
    (∀ p ∈ l, UnitText p.2 ∧ atom p.2 = some (x p.2)) →
    readSum atom ((printTerms false l).1 ++ printConst (printTerms false l).2 k) = some (sumVal x l + k)
  | [], _ => by
    by_cases hk : k = 0
    · subst hk
      have : readSum atom ['0'] = some 0 := by
        have e : splitTop 0 ['0'] = (['0'], []) := by decide
        have t : termVal atom ['0'] = some 0 := by
          have := termVal_dec (atom := atom) 0
          have e0 : natDec 0 = ['0'] := by unfold natDec; rfl
          rw [e0] at this; simpa using this
        simp [readSum, e, t, restVal]
      simpa [printTerms, printConst, sumVal] using this
    · have h1 := termVal_dec (atom := atom) k.natAbs
      rw [Int.natCast_natAbs] at h1
      have := readSum_start (atom := atom) (b := natDec k.natAbs) (s := []) (L := []) (c := k) (v := 1) (w := 0) hk
        (closedAt_plain _ (plain_natDec _)) (natDec_ne_nil _) (by simpa using h1) rfl rfl
      simpa [printTerms, printConst_false hk, sumVal] using this
  | (c, v) :: l, h => by
    obtain ⟨h1, h2⟩ := h (c, v) (by simp)
    by_cases hc : c = 0
    · subst hc
      have ih := read_false k l (fun p hp => h p (by simp [hp]))
      simpa [printTerms, printTerm, sumVal] using ih
    · obtain ⟨ih0, L, ih1, ih2⟩ := read_true (atom := atom) (x := x) k l (fun p hp => h p (by simp [hp]))
      have := readSum_start hc (termBody_closed h1 c).1 (termBody_closed h1 c).2 (termBody_val h1 h2 c) ih1 ih2
      simp only [printTerms, printTerm_false hc, Bool.false_or, hc, ne_eq, not_false_eq_true, decide_true, ih0]
      rw [List.append_assoc, this]
      simp [sumVal, add_assoc]

theorem unit_of_name {v : List Char} (h : IsName v) : UnitText v ∧ plainChars v ∧ ∀ c ∈ v, c ≠ '/' := by
  have hp : ∀ c ∈ v, c ≠ '+' ∧ c ≠ '-' ∧ c ≠ '(' ∧ c ≠ ')' ∧ c ≠ '/' := by
    intro c hc
    have := h.2.1 c hc
    refine ⟨?_, ?_, ?_, ?_, ?_⟩ <;> (rintro rfl; revert this; decide)
  have hq : plainChars v := fun c hc => ⟨(hp c hc).1, (hp c hc).2.1, (hp c hc).2.2.1, (hp c hc).2.2.2.1⟩
  exact ⟨⟨closedAt_plain v hq, h.1, h.2.2⟩, hq, fun c hc => (hp c hc).2.2.2.2⟩

end Pluto
