import Verif.Lemmas.Print
import Verif.Lemmas.SatFold
import Verif.Lemmas.Recompute
import Mathlib.Tactic.Linarith

/-! Lemmas about printing into a buffer, tile names and the recognition of tile dimensions. -/

namespace Pluto

theorem sumVal_zip (x : List Char → Int) : ∀ (a : List Int) (ns : List (List Char)), sumVal x (a.zip ns) = dot a (ns.map x)
  | [], ns => by simp [sumVal]
  | a, [] => by simp [sumVal]
  | c :: a, v :: ns => by
    have := sumVal_zip x a ns
    simp only [sumVal, List.zip_cons_cons, List.map_cons, List.sum_cons, dot_cons] at this ⊢
    rw [this]; simp

theorem natDec_length (n : Nat) : (n < 10 → (natDec n).length = 1) ∧ (n < 100 → (natDec n).length ≤ 2) ∧
    (n < 1000 → (natDec n).length ≤ 3) := by
  have h1 : ∀ m : Nat, m < 10 → (natDec m).length = 1 := fun m h => by unfold natDec; simp [h]
  have h2 : ∀ m : Nat, m < 100 → (natDec m).length ≤ 2 := fun m h => by
    by_cases h' : m < 10
    · rw [h1 m h']; omega
    · unfold natDec; simp only [h', if_false, List.length_append, h1 (m / 10) (by omega)]; simp
  refine ⟨h1 n, h2 n, fun h => ?_⟩
  by_cases h' : n < 10
  · rw [h1 n h']; omega
  · have := h2 (n / 10) (by omega)
    unfold natDec; simp only [h', if_false, List.length_append]; simp; omega

theorem bufCat_ok {n : Nat} {out s : List Char} (h : out.length + s.length + 1 ≤ n) : bufCat n out s = some (out ++ s) := by
  simp [bufCat, h]

theorem bufPrint_ok {n k : Nat} {out s : List Char} (hk : s.length + 1 ≤ k) (h : out.length + s.length + 1 ≤ n) :
    bufPrint n out k s = some (out ++ s) := by
  unfold bufPrint
  rw [List.take_of_length_le (by omega), bufCat_ok h]

theorem sprintTerm_ok {n : Nat} {out : List Char} {first : Bool} {c : Int} {v : List Char} (hv : (c = 1 ∨ c = -1) → v.length ≤ 4)
    (h : out.length + (printTerm first c v).length + 1 ≤ n) : sprintTerm n out first c v = some (out ++ printTerm first c v) := by
  unfold sprintTerm printTerm at *
  by_cases h1 : c = 1
  · have hl := hv (.inl h1)
    simp only [h1, if_true] at h ⊢
    cases first
    · simp only [Bool.false_eq_true, if_false, List.nil_append] at h ⊢
      exact bufPrint_ok (by omega) h
    · simp only [if_true, List.length_append, List.length_cons, List.length_nil] at h ⊢
      rw [bufCat_ok (by simp; omega)]
      simp only [Option.bind_eq_bind, Option.bind_some]
      rw [bufPrint_ok (by omega) (by simp; omega)]
      simp
  by_cases h2 : c = -1
  · have hl := hv (.inr h2)
    subst h2
    exact bufPrint_ok (by simp; omega) h
  by_cases h3 : c = 0
  · subst h3; simp
  simp only [h1, h2, h3, if_false, ne_eq, not_false_eq_true, if_true] at h ⊢
  by_cases h4 : c ≥ 1
  · have h5 : c > 0 := by omega
    simp only [h4, h5, if_true] at h ⊢
    exact bufPrint_ok (by omega) h
  · have h5 : ¬ c > 0 := by omega
    simp only [h4, h5, if_false] at h ⊢
    exact bufPrint_ok (by omega) h

theorem sprintTerms_ok {n : Nat} : ∀ (l : List (Int × List Char)) (out : List Char) (first : Bool),
    (∀ p ∈ l, (p.1 = 1 ∨ p.1 = -1) → p.2.length ≤ 4) → out.length + (printTerms first l).1.length + 1 ≤ n →
    sprintTerms n out first l = some (out ++ (printTerms first l).1, (printTerms first l).2)
  | [], out, first, _, _ => by simp [sprintTerms, printTerms]
  | (c, v) :: l, out, first, h, hn => by
    simp only [printTerms, List.length_append] at hn
    simp only [sprintTerms, printTerms]
    rw [sprintTerm_ok (c := c) (v := v) (h (c, v) (by simp)) (by omega)]
    simp only [Option.bind_eq_bind, Option.bind_some]
    rw [sprintTerms_ok l _ _ (fun p hp => h p (by simp [hp])) (by rw [List.length_append]; omega)]
    simp

theorem sprintConst_ok {n : Nat} {out : List Char} {first : Bool} {k : Int} (h1 : -9 ≤ k) (h2 : k ≤ 99)
    (h : out.length + (printConst first k).length + 1 ≤ n) : sprintConst n out first k = some (out ++ printConst first k) := by
  have hd : (intDec k).length ≤ 2 := by
    unfold intDec
    split
    · have := (natDec_length k.natAbs).1 (by omega); simp [this]
    · exact (natDec_length k.natAbs).2.1 (by omega)
  unfold sprintConst printConst at *
  by_cases h3 : k ≥ 1
  · simp only [h3, if_true] at h ⊢
    cases first
    · simp only [Bool.false_eq_true, if_false, List.nil_append] at h ⊢
      exact bufPrint_ok (by omega) h
    · simp only [if_true, List.length_append, List.length_cons, List.length_nil] at h ⊢
      rw [bufCat_ok (by simp; omega)]
      simp only [Option.bind_eq_bind, Option.bind_some]
      rw [bufPrint_ok (by omega) (by simp; omega)]
      simp
  · by_cases h4 : k ≤ -1
    · simp only [h3, h4, if_false, if_true] at h ⊢
      exact bufPrint_ok (by omega) h
    · simp only [h3, h4, if_false] at h ⊢
      cases first
      · simp only [Bool.false_eq_true, if_false] at h ⊢
        exact bufCat_ok h
      · simp

/-! Quotients. -/

theorem readAtom_name (σ : List Char → Int) {v : List Char} (h : IsName v) : readAtom σ v = some (σ v) := by
  obtain ⟨hu, -, hs⟩ := unit_of_name h
  obtain ⟨c, t, rfl⟩ := List.exists_cons_of_ne_nil h.1
  have hc : isDec c = false := h.2.2 c (by simp)
  unfold readAtom
  simp only
  have hd : ∀ x ∈ (c :: t).reverse.dropWhile isDec, x ≠ '/' := fun x hx => hs x (by
    have := (List.dropWhile_suffix isDec).subset hx
    simpa [or_comm] using this)
  generalize (c :: t).reverse.dropWhile isDec = w at hd
  cases w with
  | nil => rfl
  | cons d w =>
    have : d ≠ '/' := hd d (by simp)
    split
    · rename_i heq; simp at heq; exact absurd heq.1 this
    · rename_i heq; simp at heq; exact absurd heq.1 this
    · rfl

theorem reverse_dec (n : Nat) (v : List Char) : (v ++ '/' :: natDec n).reverse.takeWhile isDec = (natDec n).reverse ∧
    (v ++ '/' :: natDec n).reverse.dropWhile isDec = '/' :: v.reverse := by
  have e : (v ++ '/' :: natDec n).reverse = (natDec n).reverse ++ '/' :: v.reverse := by simp
  rw [e]
  exact takeWhile_dec (fun c hc => natDec_isDec n c (by simpa using hc)) (by simp; decide)

theorem readAtom_div (σ : List Char → Int) {v : List Char} (h : IsName v) (T : Nat) :
    readAtom σ (v ++ '/' :: natDec T) = some (σ v / T) := by
  obtain ⟨-, hp, -⟩ := unit_of_name h
  unfold readAtom
  obtain ⟨h1, h2⟩ := reverse_dec T v
  simp only [h1, h2, List.reverse_reverse, decVal_natDec]
  have hr : ∀ x ∈ v.reverse, x ≠ ')' := fun x hx => (hp x (by simpa using hx)).2.2.2
  cases hv : v.reverse with
  | nil =>
    have : v = [] := by simpa using hv
    exact absurd this h.1
  | cons d w =>
    have hd : d ≠ ')' := hr d (by simp [hv])
    split
    · rename_i heq; simp at heq; exact absurd heq.1 hd
    · rename_i heq
      simp only [List.cons.injEq, true_and] at heq
      rw [← heq, ← hv, List.reverse_reverse]
    · rename_i heq; simp at heq

theorem readAtom_paren (σ : List Char → Int) (g : List Char) (T : Nat) :
    readAtom σ ('(' :: g ++ [')', '/'] ++ natDec T) = (readPlain σ g).map (fun v => v / (T : Int)) := by
  have e : '(' :: g ++ [')', '/'] ++ natDec T = ('(' :: (g ++ [')'])) ++ '/' :: natDec T := by simp
  unfold readAtom
  rw [e]
  obtain ⟨h1, h2⟩ := reverse_dec T ('(' :: (g ++ [')']))
  simp only [h1, h2, List.reverse_reverse, decVal_natDec]
  simp

theorem closedAt_one : ∀ (s t : List Char), (∀ c ∈ s, c ≠ '(' ∧ c ≠ ')') → closedAt 1 (s ++ ')' :: t) = closedAt 0 t
  | [], t, _ => by simp [closedAt]
  | c :: s, t, h => by
    obtain ⟨h3, h4⟩ := h c (by simp)
    have ih := closedAt_one s t (fun c hc => h c (by simp [hc]))
    simp [closedAt, h3, h4, ih]

theorem unit_div {v : List Char} (h : IsName v) (T : Nat) : UnitText (v ++ '/' :: natDec T) := by
  obtain ⟨hu, hp, -⟩ := unit_of_name h
  refine ⟨closedAt_append _ _ _ hu.closed ?_, by simp, ?_⟩
  · have := closedAt_plain _ (plain_natDec T)
    simp [closedAt, this]
  · obtain ⟨c, t, rfl⟩ := List.exists_cons_of_ne_nil h.1
    exact hu.head

theorem unit_paren {g : List Char} (h : ∀ c ∈ g, c ≠ '(' ∧ c ≠ ')') (T : Nat) : UnitText ('(' :: g ++ [')', '/'] ++ natDec T) := by
  refine ⟨?_, by simp, by simp; decide⟩
  have e : '(' :: g ++ [')', '/'] ++ natDec T = '(' :: (g ++ ')' :: '/' :: natDec T) := by simp
  rw [e]
  have := closedAt_plain _ (plain_natDec T)
  simp [closedAt, closedAt_one g _ h, this]

theorem printTerm_parens {first : Bool} {c : Int} {v : List Char} (h : plainChars v) :
    ∀ x ∈ printTerm first c v, x ≠ '(' ∧ x ≠ ')' := by
  by_cases hc : c = 0
  · subst hc; simp [printTerm]
  have hb : ∀ x ∈ termBody c v, x ≠ '(' ∧ x ≠ ')' := by
    intro x hx
    unfold termBody at hx
    split at hx
    · exact (h x hx).2.2
    · rw [List.mem_append] at hx
      rcases hx with hx | hx
      · exact (plain_natDec _ x hx).2.2
      · exact (h x hx).2.2
  cases first
  · rw [printTerm_false hc]
    intro x hx
    rw [List.mem_append] at hx
    rcases hx with hx | hx
    · split at hx <;> simp at hx
      subst hx; decide
    · exact hb x hx
  · rw [printTerm_true hc]
    intro x hx
    rw [List.mem_cons] at hx
    rcases hx with hx | hx
    · subst hx; split <;> decide
    · exact hb x hx

theorem printTerms_parens : ∀ (l : List (Int × List Char)) (first : Bool), (∀ p ∈ l, p.1 ≠ 0 → plainChars p.2) →
    ∀ x ∈ (printTerms first l).1, x ≠ '(' ∧ x ≠ ')'
  | [], _, _ => by simp [printTerms]
  | (c, v) :: l, first, h => by
    intro x hx
    simp only [printTerms, List.mem_append] at hx
    rcases hx with hx | hx
    · by_cases hc : c = 0
      · subst hc; simp [printTerm] at hx
      · exact printTerm_parens (h (c, v) (by simp) hc) x hx
    · exact printTerms_parens l _ (fun p hp => h p (by simp [hp])) x hx

theorem printTerms_length : ∀ (l : List (Int × List Char)) (first : Bool),
    (∀ p ∈ l, p.1 ≠ 0 → p.2.length ≤ 4 ∧ p.1.natAbs < 1000) → (printTerms first l).1.length ≤ 8 * l.length
  | [], _, _ => by simp [printTerms]
  | (c, v) :: l, first, h => by
    have ih := printTerms_length l (first || decide (c ≠ 0)) (fun p hp => h p (by simp [hp]))
    have : (printTerm first c v).length ≤ 8 := by
      by_cases hc : c = 0
      · subst hc; simp [printTerm]
      obtain ⟨h1, h2⟩ := h (c, v) (by simp) hc
      simp only at h1 h2
      have hb : (termBody c v).length ≤ 7 := by
        unfold termBody
        split
        · omega
        · have := (natDec_length c.natAbs).2.2 h2
          simp; omega
      cases first
      · rw [printTerm_false hc, List.length_append]
        split <;> simp <;> omega
      · rw [printTerm_true hc, List.length_cons]; omega
    simp only [printTerms, List.length_append, List.length_cons]
    omega

/-! Recognising tile dimensions. -/

theorem superRows_mem (pos n : Nat) (rows : List Row) :
    (∀ ub, (superRows pos n rows).1 = some ub → ∃ r ∈ rows, r.val = ub ∧ 1 ≤ ub.getD pos 0 ∧ ub.getD (n - 1) 0 = ub.getD pos 0 - 1) ∧
    (∀ lb, (superRows pos n rows).2 = some lb → ∃ r ∈ rows, r.val = lb ∧ lb.getD pos 0 ≤ -1 ∧ lb.getD (n - 1) 0 = 0) := by
  unfold superRows
  induction rows using List.reverseRecOn with
  | nil => simp
  | append_singleton rows r ih =>
    simp only [List.foldl_append, List.foldl_cons, List.foldl_nil]
    constructor
    · intro ub hub
      split at hub
      · rename_i h
        cases hub
        exact ⟨r, by simp, rfl, by omega, h.2⟩
      · obtain ⟨r', h1, h2⟩ := ih.1 ub hub
        exact ⟨r', by simp [h1], h2⟩
    · intro lb hlb
      split at hlb
      · rename_i h
        cases hlb
        exact ⟨r, by simp, rfl, by omega, h.2⟩
      · obtain ⟨r', h1, h2⟩ := ih.2 lb hlb
        exact ⟨r', by simp [h1], h2⟩

theorem dot_set_zero : ∀ (a : List Int) (x : List Int) (pos : Nat),
    dot a x = dot (a.set pos 0) x + a.getD pos 0 * x.getD pos 0
  | [], x, pos => by simp
  | a :: as, [], pos => by simp
  | a :: as, y :: x, 0 => by simp; ring
  | a :: as, y :: x, pos + 1 => by
    have := dot_set_zero as x pos
    simp [this]; ring

theorem row_ge {r : Row} {x : List Int} (h : r.Sat x) : 0 ≤ aff r.val x := by
  unfold Row.Sat at h
  split at h
  · rw [h]
  · exact h

theorem take_concat_getD {l : List Int} {n : Nat} (h : l.length = n) (hn : 1 ≤ n) : l = l.take (n - 1) ++ [l.getD (n - 1) 0] := by
  have h1 : n - 1 < l.length := by omega
  have := List.take_append_getElem h1
  rw [List.getD_eq_getElem?_getD, List.getElem?_eq_getElem h1, Option.getD_some, this, List.take_of_length_le (by omega)]

theorem supernode_sound {dom : Cst} (hw : dom.WF) {pos : Nat} {T : Int} {f : List Int}
    (h : checkSupernode dom pos = some (some (T, f))) : IsTileDim dom pos T f ∧ pos < dom.ncols - 1 ∧ f.getD (dom.ncols - 1) 0 = 0 := by
  obtain ⟨hn, hr⟩ := hw
  unfold checkSupernode at h
  split at h
  · cases h
  rename_i hpos
  obtain ⟨hu, hl⟩ := superRows_mem pos dom.ncols dom.rows
  generalize hsr : superRows pos dom.ncols dom.rows = sr at h hu hl
  obtain ⟨ub, lb⟩ := sr
  cases ub with
  | none => simp at h
  | some ub =>
  cases lb with
  | none => simp at h
  | some lb =>
  simp only at h
  split at h
  · rename_i heq
    simp only [Option.some.injEq, Prod.mk.injEq] at h
    obtain ⟨rfl, rfl⟩ := h
    obtain ⟨ru, hru, rfl, hu1, hu2⟩ := hu ub rfl
    obtain ⟨rl, hrl, rfl, hl1, hl2⟩ := hl lb rfl
    have hlu := hr ru hru
    have hll := hr rl hrl
    have hp : pos < dom.ncols := by
      by_contra hc
      exact hpos ⟨by omega, List.ne_nil_of_mem hru⟩
    have hp' : pos < dom.ncols - 1 := by
      by_contra hc
      have : pos = dom.ncols - 1 := by omega
      subst this; omega
    have hset : (rl.val.set pos 0).getD pos 0 = 0 := by simp [List.getD_eq_getElem?_getD, List.getElem?_set]; split <;> simp
    have hconst : (rl.val.set pos 0).getD (dom.ncols - 1) 0 = 0 := by
      rw [List.getD_eq_getElem?_getD, List.getElem?_set_ne (by omega), ← List.getD_eq_getElem?_getD]; exact hl2
    refine ⟨⟨hu1, by simp [hll], hset, fun x hx hs => ?_⟩, hp', hconst⟩
    have g1 := row_ge (hs ru hru)
    have g2 := row_ge (hs rl hrl)
    have hxl : (rl.val.take (dom.ncols - 1)).length = x.length := by simp; omega
    have hxu : (ru.val.take (dom.ncols - 1)).length = x.length := by simp; omega
    have e1 : aff ru.val x = dot (ru.val.take (dom.ncols - 1)) x + ru.val.getD (dom.ncols - 1) 0 := by
      unfold aff
      conv_lhs => rw [take_concat_getD hlu hn]
      rw [dot_append _ _ _ _ hxu]; simp
    have e2 : aff rl.val x = dot (rl.val.take (dom.ncols - 1)) x := by
      unfold aff
      conv_lhs => rw [take_concat_getD hll hn]
      rw [dot_append _ _ _ _ hxl, hl2]; simp
    have e3 : ru.val.getD pos 0 = - rl.val.getD pos 0 := by
      have := congrArg (fun l => l.getD pos 0) heq
      simp only [List.getD_eq_getElem?_getD, List.getElem?_map, List.getElem?_take, hp', if_true] at this ⊢
      have h1 : pos < ru.val.length := by omega
      have h2 : pos < rl.val.length := by omega
      simpa [h1, h2] using this
    have e4 : aff rl.val x = aff (rl.val.set pos 0) x + rl.val.getD pos 0 * x.getD pos 0 := by
      unfold aff
      rw [dot_set_zero rl.val (x ++ [1]) pos]
      congr 2
      rw [List.getD_eq_getElem?_getD, List.getElem?_append_left (by omega), ← List.getD_eq_getElem?_getD]
    rw [heq, dot_map_neg, ← e2] at e1
    rw [e4] at e1 g2
    rw [hu2] at e1
    have ht : ru.val.getD pos 0 = -rl.val.getD pos 0 := e3
    generalize ru.val.getD pos 0 = T at *
    generalize rl.val.getD pos 0 = c at *
    generalize aff (rl.val.set pos 0) x = F at *
    generalize x.getD pos 0 = z at *
    obtain rfl : c = -T := by omega
    symm
    rw [Int.ediv_eq_iff_of_pos (by omega)]
    constructor <;> nlinarith
  · cases h

end Pluto
