import Verif.Lemmas.Print2

/-! Lemmas about the printed hyperplanes. -/

namespace Pluto

theorem varNames_eq {vars : List (List Char)} {n : Nat} (h : n ≤ vars.length) :
    (List.range n).mapM (varName vars) = some (vars.take n) := by
  have : ∀ m, m ≤ n → (List.range m).mapM (varName vars) = some (vars.take m) := by
    intro m
    induction m with
    | zero => intro _; simp
    | succ m ih =>
      intro hm
      rw [List.range_succ, List.mapM_append, ih (by omega)]
      have h1 : m < vars.length := by omega
      simp [varName, h1]
  exact this n le_rfl

theorem isName_default (j : Nat) : IsName ('x' :: natDec (j + 1)) := by
  refine ⟨by simp, ?_, by simp; decide⟩
  intro c hc
  left
  rw [List.mem_cons] at hc
  rcases hc with rfl | hc
  · decide
  · have := natDec_isDec _ c hc
    unfold isDec at this
    simp only [decide_eq_true_eq] at this
    unfold Char.isAlphanum Char.isDigit
    simp only [Bool.or_eq_true, Bool.and_eq_true, decide_eq_true_eq]
    right
    obtain ⟨h1, h2⟩ := this
    constructor
    · show (48 : UInt32) ≤ c.val
      exact UInt32.le_iff_toNat_le.mpr h1
    · show c.val ≤ (57 : UInt32)
      exact UInt32.le_iff_toNat_le.mpr h2

theorem dot_congr_support : ∀ (a : List Int) (x y : List Int), x.length = y.length →
    (∀ k, a.getD k 0 ≠ 0 → x.getD k 0 = y.getD k 0) → dot a x = dot a y
  | [], x, y, _, _ => by simp
  | a :: as, [], [], _, _ => by simp
  | a :: as, x :: xs, y :: ys, hl, h => by
    have ih := dot_congr_support as xs ys (by simpa using hl) (fun k hk => by simpa using h (k + 1) (by simpa using hk))
    have h0 := h 0
    simp only [List.getD_cons_zero] at h0
    simp only [dot_cons, ih]
    by_cases ha : a = 0
    · simp [ha]
    · rw [h0 ha]

theorem aff_take {func x : List Int} {n : Nat} (hx : x.length = n) {k : Int} (hk : func[n]? = some k) :
    aff (func.take (n + 1)) x = dot (func.take n) x + k := by
  obtain ⟨hn, rfl⟩ := List.getElem?_eq_some_iff.mp hk
  unfold aff
  rw [← List.take_append_getElem hn, dot_append _ _ _ _ (by simp; omega)]
  simp

theorem mem_zip_getD {a : List Int} {ns : List (List Char)} {p : Int × List Char} (h : p ∈ a.zip ns) :
    ∃ k : Nat, a[k]? = some p.1 ∧ ns[k]? = some p.2 := by
  obtain ⟨k, hk⟩ := List.mem_iff_getElem?.mp h
  exact ⟨k, by rw [List.getElem?_zip_eq_some] at hk; exact hk⟩

/-- The text of a sum with exactly one term, with coefficient 1. -/
theorem printTerms_single : ∀ (l : List (Int × List Char)) (k : Nat) (v : List Char), l[k]? = some (1, v) →
    (∀ m p, l[m]? = some p → m ≠ k → p.1 = 0) → ∀ first, printTerms first l = ((if first then ['+'] else []) ++ v, true)
  | [], k, v, h, _, _ => by simp at h
  | p :: l, 0, v, h, hz, first => by
    simp only [List.getElem?_cons_zero, Option.some.injEq] at h
    subst h
    have hz' : ∀ (l : List (Int × List Char)), (∀ p ∈ l, p.1 = 0) → ∀ f, printTerms f l = ([], f) := by
      intro l
      induction l with
      | nil => intro _ f; rfl
      | cons p l ih =>
        intro h f
        have := h p (by simp)
        obtain ⟨c, w⟩ := p
        simp only at this; subst this
        simp [printTerms, printTerm, ih (fun p hp => h p (by simp [hp]))]
    have := hz' l (fun p hp => by
      obtain ⟨m, hm⟩ := List.mem_iff_getElem?.mp hp
      exact hz (m + 1) p (by simpa using hm) (by omega)) true
    simp [printTerms, printTerm, this]
  | p :: l, k + 1, v, h, hz, first => by
    have h0 := hz 0 p (by simp) (by omega)
    obtain ⟨c, w⟩ := p
    simp only at h0; subst h0
    have ih := printTerms_single l k v (by simpa using h) (fun m p hm hk => hz (m + 1) p (by simpa using hm) (by omega)) first
    simp [printTerms, printTerm, ih]

theorem isSkewed_single {f : List Int} {k : Nat} (hz : ∀ m, m ≠ k → f.getD m 0 = 0) : isSkewed f = false := by
  unfold isSkewed
  simp only [decide_eq_false_iff_not, not_lt]
  induction f generalizing k with
  | nil => simp
  | cons a f ih =>
    cases k with
    | zero =>
      have : ∀ v ∈ f, v = 0 := fun v hv => by
        obtain ⟨m, hm⟩ := List.mem_iff_getElem?.mp hv
        have := hz (m + 1) (by omega)
        simpa [List.getD_eq_getElem?_getD, hm] using this
      have e : f.filter (fun v => decide (v ≠ 0)) = [] := by
        rw [List.filter_eq_nil_iff]; intro v hv; simp [this v hv]
      rw [List.filter_cons, e]
      split <;> simp
    | succ k =>
      have h0 := hz 0 (by omega)
      simp only [List.getD_cons_zero] at h0
      have := ih (k := k) (fun m hm => by simpa using hz (m + 1) (by omega))
      rw [List.filter_cons]
      simpa [h0] using this

theorem isSkewed_two {f : List Int} {k m : Nat} (hkm : k < m) (hk : f.getD k 0 ≠ 0) (hm : f.getD m 0 ≠ 0) : isSkewed f = true := by
  unfold isSkewed
  simp only [decide_eq_true_eq]
  have hml : m < f.length := by
    by_contra hc
    exact hm (by simp [List.getD_eq_getElem?_getD, List.getElem?_eq_none (by omega : f.length ≤ m)])
  rw [← List.take_append_drop m f, List.filter_append, List.length_append]
  have h1 : 0 < ((f.take m).filter (fun v => decide (v ≠ 0))).length := by
    rw [List.length_pos_iff_exists_mem]
    refine ⟨f.getD k 0, List.mem_filter.mpr ⟨?_, by simpa using hk⟩⟩
    have hkl : k < f.length := by omega
    rw [List.getD_eq_getElem?_getD, List.getElem?_eq_getElem hkl, Option.getD_some]
    exact List.mem_iff_getElem?.mpr ⟨k, by rw [List.getElem?_take, if_pos hkm, List.getElem?_eq_getElem hkl]⟩
  have h2 : 0 < ((f.drop m).filter (fun v => decide (v ≠ 0))).length := by
    rw [List.length_pos_iff_exists_mem]
    refine ⟨f.getD m 0, List.mem_filter.mpr ⟨?_, by simpa using hm⟩⟩
    rw [List.getD_eq_getElem?_getD, List.getElem?_eq_getElem hml, Option.getD_some]
    exact List.mem_iff_getElem?.mpr ⟨0, by simp [hml]⟩
  omega

/-- State of the loop over the dimensions. -/
structure NameInv (σ : List Char → Int) (x : List Int) (names : List (List Char)) (m : Nat) (vars : List (List Char)) : Prop where
  len : vars.length = names.length
  read : ∀ (k : Nat) (v : List Char), vars[k]? = some v → UnitText v ∧ readAtom σ v = some (x.getD k 0)
  same : ∀ k, m ≤ k → vars[k]? = names[k]?

theorem tileName_step {σ : List Char → Int} {x : List Int} {names : List (List Char)} {st : Stmt} {j : Nat} {vars : List (List Char)}
    (hw : st.domain.WF) (hn : ∀ v ∈ names, IsName v) (hlen : names.length + 1 = st.domain.ncols) (hx : x.length = names.length)
    (hσ : ∀ (k : Nat) (v : List Char), names[k]? = some v → σ v = x.getD k 0) (hj : j < names.length) (hs : st.domain.Sat x)
    (hp : ∀ T f, checkSupernode st.domain j = some (some (T, f)) → Printable names j f) (hi : NameInv σ x names j vars) :
    ∃ vars', tileName st names.length vars j = some vars' ∧ NameInv σ x names (j + 1) vars' := by
  have hskip : NameInv σ x names (j + 1) vars := ⟨hi.len, hi.read, fun k hk => hi.same k (by omega)⟩
  unfold tileName
  have hne : ∃ r, checkSupernode st.domain j = some r := by
    unfold checkSupernode
    rw [if_neg (by omega)]
    split
    · split <;> exact ⟨_, rfl⟩
    · exact ⟨_, rfl⟩
  obtain ⟨r, hr⟩ := hne
  rw [hr]
  simp only [Option.bind_eq_bind, Option.bind_some]
  cases r with
  | none => exact ⟨vars, rfl, hskip⟩
  | some Tf =>
    obtain ⟨T, f⟩ := Tf
    obtain ⟨⟨hT, hfl, hf0, hval⟩, hj', hfc⟩ := supernode_sound hw hr
    have P := hp T f hr
    have hN : names.length = st.domain.ncols - 1 := by omega
    set N := names.length with hNdef
    have hfN : f[N]? = some 0 := by
      have h1 : N < f.length := by omega
      rw [List.getElem?_eq_getElem h1]
      rw [← hN, List.getD_eq_getElem?_getD, List.getElem?_eq_getElem h1, Option.getD_some] at hfc
      rw [hfc]
    -- terms with non-zero coefficients carry their original names
    have hnz : ∀ (k : Nat) (c : Int) (v : List Char), (f.take N)[k]? = some c → vars[k]? = some v → c ≠ 0 →
        names[k]? = some v ∧ f.getD k 0 = c := by
      intro k c v hc hv h0
      have hc' : f[k]? = some c := by
        rw [List.getElem?_take] at hc; split at hc
        · exact hc
        · cases hc
      have hfk : f.getD k 0 = c := by simp [List.getD_eq_getElem?_getD, hc']
      have hkj : j ≤ k := by
        by_contra hlt
        exact h0 (by rw [← hfk]; exact P.later k (by omega))
      exact ⟨by rw [← hi.same k hkj]; exact hv, hfk⟩
    set l := (f.take N).zip vars with hl
    have hlN : l.length ≤ N := by rw [hl, List.length_zip]; simp
    have hlz : ∀ q ∈ l, q.1 ≠ 0 → IsName q.2 ∧ q.2.length ≤ 4 ∧ q.1.natAbs < 1000 := by
      intro q hq h0
      obtain ⟨k, h1, h2⟩ := mem_zip_getD hq
      obtain ⟨h3, h4⟩ := hnz k q.1 q.2 h1 h2 h0
      have h5 := P.short k (by rw [h4]; exact h0)
      rw [h4, List.getD_eq_getElem?_getD, h3, Option.getD_some] at h5
      exact ⟨hn _ (List.mem_of_getElem? h3), h5⟩
    have hlen1 := printTerms_length l false (fun q hq h0 => (hlz q hq h0).2)
    have hcl : (printConst (printTerms false l).2 0).length ≤ 1 := by
      unfold printConst; simp; split <;> simp
    have hs1 : sprintTerms (9 * N + 2) [] false l = some ((printTerms false l).1, (printTerms false l).2) := by
      rw [sprintTerms_ok l [] false ?_ ?_]
      · simp
      · intro q hq hc
        exact (hlz q hq (by rcases hc with h | h <;> omega)).2.1
      · simp; omega
    have hs2 : sprintAff f N vars = some ((printTerms false l).1 ++ printConst (printTerms false l).2 0) := by
      unfold sprintAff
      rw [varNames_eq (by rw [hi.len])]
      have ht : vars.take N = vars := List.take_of_length_le (by rw [hi.len])
      simp only [Option.bind_eq_bind, Option.bind_some, hfN, ht]
      rw [← hl, hs1]
      simp only [Option.bind_some]
      exact sprintConst_ok (by omega) (by omega) (by simp; omega)
    simp only [hs2, Option.bind_some, Option.pure_def]
    set s := (printTerms false l).1 ++ printConst (printTerms false l).2 0 with hsdef
    refine ⟨_, rfl, ?_⟩
    have hTn : intDec T = natDec T.natAbs := by unfold intDec; rw [if_neg (by omega)]
    have hTc : ((T.natAbs : Nat) : Int) = T := by omega
    have hread : UnitText (tileText f T s) ∧ readAtom σ (tileText f T s) = some (x.getD j 0) := by
      rw [hval x (by omega) hs]
      rcases P.shape with ⟨k, hk1, hk2⟩ | ⟨k, m, hkm, hk, hm⟩
      · -- a single variable
        have hkl : k < f.length := by
          by_contra hc
          rw [List.getD_eq_getElem?_getD, List.getElem?_eq_none (by omega)] at hk1
          simp at hk1
        have hfk : f[k]? = some 1 := by
          rw [List.getElem?_eq_getElem hkl]
          rw [List.getD_eq_getElem?_getD, List.getElem?_eq_getElem hkl, Option.getD_some] at hk1
          rw [hk1]
        have hkN : k < N := by
          rcases Nat.lt_or_ge k N with h | h
          · exact h
          · have : k = N := by omega
            subst this; rw [hfN] at hfk; simp at hfk
        have hkv : ∃ v, vars[k]? = some v := ⟨_, List.getElem?_eq_getElem (by rw [hi.len]; omega)⟩
        obtain ⟨v, hv⟩ := hkv
        have hft : (f.take N)[k]? = some 1 := by rw [List.getElem?_take, if_pos hkN]; exact hfk
        obtain ⟨hnm, -⟩ := hnz k 1 v hft hv (by omega)
        have hname := hn v (List.mem_of_getElem? hnm)
        have hpt := printTerms_single l k v (by rw [hl, List.getElem?_zip_eq_some]; exact ⟨hft, hv⟩) (by
          intro m p hp hmk
          rw [hl, List.getElem?_zip_eq_some] at hp
          have h1 := hp.1
          rw [List.getElem?_take] at h1
          split at h1
          · have := hk2 m hmk
            rw [List.getD_eq_getElem?_getD, h1] at this
            simpa using this
          · cases h1) false
        have hsv : s = v := by rw [hsdef, hpt]; simp [printConst]
        have htt : tileText f T s = v ++ '/' :: natDec T.natAbs := by
          unfold tileText; rw [isSkewed_single hk2]; simp [hsv, hTn]
        rw [htt]
        refine ⟨unit_div hname _, ?_⟩
        rw [readAtom_div σ hname, hTc, hσ k v hnm]
        congr 2
        -- the value of the function is that of the variable
        have : aff f x = dot f (x ++ [1]) := rfl
        rw [this, dot_set_zero f (x ++ [1]) k, hk1]
        have hz : dot (f.set k 0) (x ++ [1]) = 0 := dot_all_zero _ _ (fun c hc => by
          obtain ⟨m, hm⟩ := List.mem_iff_getElem?.mp hc
          by_cases hmk : m = k
          · subst hmk; rw [List.getElem?_set_self hkl] at hm; simpa using hm.symm
          · rw [List.getElem?_set_ne (by omega)] at hm
            have := hk2 m hmk
            rw [List.getD_eq_getElem?_getD, hm] at this
            simpa using this)
        rw [hz, zero_add, one_mul]
        simp only [List.getD_eq_getElem?_getD]
        rw [List.getElem?_append_left (by omega)]
      · have htt : tileText f T s = '(' :: s ++ [')', '/'] ++ natDec T.natAbs := by
          unfold tileText; rw [isSkewed_two hkm hk hm]; simp [hTn]
        rw [htt]
        have hpar : ∀ c ∈ s, c ≠ '(' ∧ c ≠ ')' := by
          intro c hc
          rw [hsdef, List.mem_append] at hc
          rcases hc with hc | hc
          · exact printTerms_parens l false (fun q hq h0 => (unit_of_name (hlz q hq h0).1).2.1) c hc
          · unfold printConst at hc
            simp at hc
            obtain ⟨-, rfl⟩ := hc
            decide
        refine ⟨unit_paren hpar _, ?_⟩
        have hrd : readPlain σ s = some (aff f x) := by
          unfold readPlain
          have := read_false (atom := fun a => some (σ a)) (x := σ) 0 l (fun q hq => ⟨?_, rfl⟩)
          · rw [hsdef, this]
            rw [hl, sumVal_zip]
            congr 1
            have hft : aff f x = dot (f.take N) x + 0 := by
              rw [← aff_take hx hfN, List.take_of_length_le (by omega)]
            rw [hft]
            congr 1
            apply dot_congr_support
            · rw [List.length_map, hi.len, hx]
            · intro k hk
              have : ∃ c, (f.take N)[k]? = some c ∧ c ≠ 0 := by
                rw [List.getD_eq_getElem?_getD] at hk
                cases hc : (f.take N)[k]? with
                | none =>
                  rw [hc] at hk; simp at hk
                | some c => rw [hc] at hk; exact ⟨c, rfl, by simpa using hk⟩
              obtain ⟨c, hc, h0⟩ := this
              have hkN : k < N := by
                have := (List.getElem?_eq_some_iff.mp hc).1
                simp at this; omega
              have hv : vars[k]? = some (vars[k]'(by rw [hi.len]; exact hkN)) := List.getElem?_eq_getElem _
              obtain ⟨h1, -⟩ := hnz k c _ hc hv h0
              rw [List.getD_eq_getElem?_getD, List.getElem?_map, hv]
              simp only [Option.map_some, Option.getD_some]
              exact hσ k _ h1
          · obtain ⟨k, -, h2⟩ := mem_zip_getD hq
            exact (hi.read k q.2 h2).1
        rw [readAtom_paren, hrd, hTc]
        rfl
    refine ⟨by simp [hi.len], fun k v hv => ?_, fun k hk => ?_⟩
    · by_cases hkj : k = j
      · subst hkj
        rw [List.getElem?_set_self (by rw [hi.len]; exact hj)] at hv
        cases hv
        exact hread
      · rw [List.getElem?_set_ne (by omega)] at hv
        exact hi.read k v hv
    · rw [List.getElem?_set_ne (by omega)]
      exact hi.same k (by omega)

end Pluto
