import Verif.Spec.FcgBuild
import Verif.Props.Legality
import Verif.Lemmas.CstEdit
import Verif.Lemmas.AutoFind

/-! The systems behind the fusion conflict graph. -/

namespace Pluto

theorem unit_rowSat (w i : Nat) (e : Bool) (k c : Int) (x : List ℚ) (hi : i < x.length) (hx : x.length + 1 = w) :
    Row.Sat ⟨e, unitRow w i k c⟩ x ↔ if e then (k : ℚ) * x.getD i 0 + c = 0 else 0 ≤ (k : ℚ) * x.getD i 0 + c := by
  rw [Row.Sat]
  simp only [aff_unit w i k c x hi hx]

theorem modeRows_sat (w : Nat) (m : Nat → Bool × Int) (x : List ℚ) (hx : x.length + 1 = w) :
    (∀ r ∈ modeRows w m, r.Sat x) ↔
      ∀ i < x.length, if (m i).1 then x.getD i 0 + (m i).2 = 0 else 0 ≤ x.getD i 0 + (m i).2 := by
  unfold modeRows
  simp only [List.forall_mem_map, List.mem_range]
  have e : w - 1 = x.length := by omega
  rw [e]
  refine forall₂_congr fun i hi => ?_
  have := unit_rowSat w i (m i).1 1 (m i).2 x hi hx
  unfold unitRow at this
  rw [e] at this
  simpa [zrow] using this

theorem modeRows_len (w : Nat) (m : Nat → Bool × Int) : ∀ r ∈ modeRows w m, r.val.length = w := by
  unfold modeRows
  simp [zrow]

theorem fold_rows {f : Cst → Nat → Cst} {P : Nat → Prop} {w : Nat} {x : List ℚ} (l : List Nat)
    (hf : ∀ c : Cst, c.ncols = w → ∀ i ∈ l, (f c i).ncols = w ∧ ((f c i).Sat x ↔ c.Sat x ∧ P i)) :
    ∀ c : Cst, c.ncols = w → (l.foldl f c).ncols = w ∧ ((l.foldl f c).Sat x ↔ c.Sat x ∧ ∀ i ∈ l, P i) := by
  induction l with
  | nil => simp
  | cons i l ih =>
    intro c hc
    rw [List.foldl_cons]
    obtain ⟨a, b⟩ := hf c hc i (by simp)
    obtain ⟨h1, h2⟩ := ih (fun c hc j hj => hf c hc j (by simp [hj])) _ a
    refine ⟨h1, ?_⟩
    rw [h2, b]
    simp [and_assoc]

theorem coeffBound_satQ (o : SearchOpts) (p : Prog) (x : List ℚ) (hx : x.length + 1 = cstWidth p.nvar p.npar p.stmts.length) :
    (coeffBoundConstraints o p).Sat x ↔ (∀ i < x.length, 0 ≤ x.getD i 0) ∧
      ∀ b, Cap o p b → ∀ i < x.length, p.npar + 1 ≤ i → x.getD i 0 ≤ b := by
  set w := cstWidth p.nvar p.npar p.stmts.length with hw
  obtain ⟨h1, h2⟩ := fold_rows (f := fun c i => addLb c i 0) (P := fun i => 0 ≤ x.getD i 0) (w := w) (x := x) (List.range (w - 1))
    (fun c hc i hi => by
      refine ⟨hc, ?_⟩
      have hi' := List.mem_range.mp hi
      unfold addLb Cst.Sat
      simp only [List.mem_append, List.mem_singleton, or_imp, forall_and, forall_eq]
      rw [hc, unit_rowSat w i false _ _ x (by omega) hx]
      simp) ⟨w, []⟩ rfl
  have h2' : ((List.range (w - 1)).foldl (fun c i => addLb c i 0) ⟨w, []⟩).Sat x ↔ ∀ i < x.length, 0 ≤ x.getD i 0 := by
    rw [h2]
    have : ∀ i, i ∈ List.range (w - 1) ↔ i < x.length := fun i => by rw [List.mem_range]; omega
    simp only [this]
    simp [Cst.Sat]
  have hub : ∀ b : Int, ((List.range' (p.npar + 1) (w - 1 - (p.npar + 1))).foldl (fun c i => addUb c i b)
      ((List.range (w - 1)).foldl (fun c i => addLb c i 0) ⟨w, []⟩)).Sat x ↔
      (∀ i < x.length, 0 ≤ x.getD i 0) ∧ ∀ i < x.length, p.npar + 1 ≤ i → x.getD i 0 ≤ b := by
    intro b
    have := (fold_rows (f := fun c i => addUb c i b) (P := fun i => x.getD i 0 ≤ b) (w := w) (x := x)
      (List.range' (p.npar + 1) (w - 1 - (p.npar + 1))) (fun c hc i hi => by
        refine ⟨hc, ?_⟩
        have hi' := List.mem_range'_1.mp hi
        unfold addUb Cst.Sat
        simp only [List.mem_append, List.mem_singleton, or_imp, forall_and, forall_eq]
        rw [hc, unit_rowSat w i false _ _ x (by omega) hx]
        refine and_congr_right fun _ => ?_
        simp only [Bool.false_eq_true, if_false]
        push_cast
        constructor <;> intro h <;> linarith) _ h1).2
    rw [this, h2']
    refine and_congr_right fun _ => ?_
    constructor
    · intro h i hi hi'
      exact h i (by rw [List.mem_range'_1]; omega)
    · intro h i hi
      rw [List.mem_range'_1] at hi
      exact h i (by omega) (by omega)
  unfold coeffBoundConstraints
  simp only
  rw [← hw]
  unfold Cap
  by_cases hu : o.coeffBound ≠ -1
  · rw [if_pos hu, hub]
    refine and_congr_right fun _ => ⟨?_, ?_⟩
    · rintro h b (⟨_, rfl⟩ | ⟨e, _⟩)
      · exact h
      · exact absurd e hu
    · intro h; exact h _ (Or.inl ⟨hu, rfl⟩)
  · rw [if_neg hu]
    have hu' : o.coeffBound = -1 := not_not.mp hu
    by_cases hd : largestConstInDomains p ≥ 10
    · rw [if_pos hd, hub]
      refine and_congr_right fun _ => ⟨?_, ?_⟩
      · rintro h b (⟨e, _⟩ | ⟨_, _, rfl⟩)
        · exact absurd hu' e
        · exact h
      · intro h; exact h _ (Or.inr ⟨hu', hd, rfl⟩)
    · rw [if_neg hd, h2']
      refine ⟨fun h => ⟨h, ?_⟩, fun h => h.1⟩
      rintro b (⟨e, _⟩ | ⟨_, e, _⟩)
      · exact absurd hu' e
      · exact absurd e hd

/-! ### Values of a level with one loop per statement -/

theorem ldot_single (r x : List ℚ) (j : Nat) (hl : r.length = x.length)
    (h : ∀ j' < r.length, j' ≠ j → r.getD j' 0 = 0) : ldot r x = r.getD j 0 * x.getD j 0 := by
  induction r generalizing x j with
  | nil => simp
  | cons a r ih =>
    cases x with
    | nil => simp at hl
    | cons y x =>
      simp only [List.length_cons, Nat.add_right_cancel_iff] at hl
      cases j with
      | zero =>
        have := ih x r.length hl (fun j' hj' _ => by
          have := h (j' + 1) (by simpa using hj') (by omega)
          simpa using this)
        rw [ldot_cons, this]
        simp
      | succ j =>
        have h0 := h 0 (by simp) (by omega)
        have := ih x j hl (fun j' hj' hne => by
          have := h (j' + 1) (by simpa using hj') (by omega)
          simpa using this)
        simp only [List.getD_cons_zero, List.getD_cons_succ] at h0 ⊢
        rw [ldot_cons, h0, this]
        simp

theorem off_end {nvar npar n i : Nat} (hi : i < n) : stmtOffset nvar npar i + nvar + 1 ≤ npar + 1 + n * (nvar + 1) := by
  have : (i + 1) * (nvar + 1) ≤ n * (nvar + 1) := Nat.mul_le_mul_right _ hi
  unfold stmtOffset
  rw [Nat.add_mul] at this
  omega

theorem off_lt {nvar npar i j : Nat} (h : i < j) : stmtOffset nvar npar i + nvar + 1 ≤ stmtOffset nvar npar j := off_end h

theorem off_inj {nvar npar i j a b : Nat} (ha : a ≤ nvar) (hb : b ≤ nvar)
    (h : stmtOffset nvar npar i + a = stmtOffset nvar npar j + b) : i = j ∧ a = b := by
  rcases Nat.lt_trichotomy i j with hlt | rfl | hlt
  · have := off_lt (nvar := nvar) (npar := npar) hlt; omega
  · exact ⟨rfl, by omega⟩
  · have := off_lt (nvar := nvar) (npar := npar) hlt; omega

theorem hypValue_single {nvar npar n : Nat} {sol : List ℚ} {i k : Nat} (hs : sol.length = npar + 1 + n * (nvar + 1)) (hi : i < n)
    (hz : ∀ k' < nvar, k' ≠ k → sol.getD (stmtOffset nvar npar i + k') 0 = 0) (hk : k < nvar) (x : List ℚ) (hx : x.length = nvar) :
    hypValue nvar npar sol i x =
      sol.getD (stmtOffset nvar npar i + k) 0 * x.getD k 0 + sol.getD (stmtOffset nvar npar i + nvar) 0 := by
  have he := off_end (nvar := nvar) (npar := npar) hi
  unfold hypValue
  change ldot ((sol.drop (stmtOffset nvar npar i)).take (nvar + 1)) (x ++ [1]) = _
  have hl : ((sol.drop (stmtOffset nvar npar i)).take (nvar + 1)).length = nvar + 1 := by
    rw [List.length_take, List.length_drop]; omega
  have hg : ∀ m, m ≤ nvar → ((sol.drop (stmtOffset nvar npar i)).take (nvar + 1)).getD m 0 = sol.getD (stmtOffset nvar npar i + m) 0 := by
    intro m hm
    simp only [List.getD_eq_getElem?_getD]
    rw [List.getElem?_take_of_lt (by omega), List.getElem?_drop]
  have hg' : ∀ m, m < nvar → (((sol.drop (stmtOffset nvar npar i)).take (nvar + 1)).take nvar).getD m 0 = sol.getD (stmtOffset nvar npar i + m) 0 := by
    intro m hm
    rw [← hg m (by omega)]
    simp only [List.getD_eq_getElem?_getD]
    rw [List.getElem?_take_of_lt hm]
  rw [ldot_take_snoc _ _ nvar hl hx, hg nvar le_rfl,
    ldot_single _ x k (by rw [List.length_take, hl, hx]; omega) (by
      intro j' hj' hne
      rw [List.length_take, hl] at hj'
      rw [hg' j' (by omega)]
      exact hz j' (by omega) hne),
    hg' k hk]

theorem boundValue_split {npar : Nat} {sol : List ℚ} (hs : npar + 1 ≤ sol.length) (q : List ℚ) (hq : q.length = npar) :
    boundValue npar sol q = ldot (sol.take npar) q + sol.getD npar 0 := by
  unfold boundValue
  rw [ldot_take_snoc _ _ npar (by rw [List.length_take]; omega) hq, List.take_take, Nat.min_eq_left (by omega)]
  simp only [List.getD_eq_getElem?_getD]
  rw [List.getElem?_take_of_lt (by omega)]

/-- Only the coefficients of loop `k` of statement `i` and loop `l` of statement `j` and the two shifts are not 0. -/
def Supp (p : Prog) (sol : List ℚ) (i j k l : Nat) : Prop :=
  ∀ idx, p.npar + 1 ≤ idx → idx ≠ stmtOffset p.nvar p.npar i + k → idx ≠ stmtOffset p.nvar p.npar i + p.nvar →
    idx ≠ stmtOffset p.nvar p.npar j + l → idx ≠ stmtOffset p.nvar p.npar j + p.nvar → sol.getD idx 0 = 0

theorem Supp.swap {p : Prog} {sol : List ℚ} {i j k l : Nat} (h : Supp p sol i j k l) : Supp p sol j i l k :=
  fun idx h0 h1 h2 h3 h4 => h idx h0 h3 h4 h1 h2

theorem loop_orig {p : Prog} (hp : p.Padded) {i k : Nat} {st : Stmt} (hi : p.stmts[i]? = some st) (hk : k < (stmtBlock p i).count) :
    st.isOrig.getD k true = true ∧ k < p.nvar := by
  obtain ⟨h1, _, h3, _⟩ := hp st (List.mem_of_getElem? hi)
  have hc : (stmtBlock p i).count = st.dimOrig := by simp [stmtBlock, hi]
  rw [hc] at hk
  refine ⟨?_, by omega⟩
  rw [h3, List.getD_eq_getElem?_getD, List.getElem?_append_left (by simpa using hk)]
  simp [hk]

theorem count_lt {p : Prog} (hp : p.Padded) {i k : Nat} (hk : k < (stmtBlock p i).count) : k < p.nvar ∧ i < p.stmts.length := by
  cases h : p.stmts[i]? with
  | none => simp [stmtBlock, h] at hk
  | some st => exact ⟨(loop_orig hp h hk).2, (List.getElem?_eq_some_iff.mp h).1⟩

theorem Supp.pad {p : Prog} {sol : List ℚ} {i j k l : Nat} (h : Supp p sol i j k l) (hp : p.Padded)
    (hk : k < (stmtBlock p i).count) (hl : l < (stmtBlock p j).count) : PadZero p sol := by
  intro s st hs k' hk' ho
  have hkn := (count_lt hp hk).1
  have hln := (count_lt hp hl).1
  refine h (stmtOffset p.nvar p.npar s + k') (by unfold stmtOffset; omega) ?_ ?_ ?_ ?_
  · intro e
    obtain ⟨rfl, rfl⟩ := off_inj (by omega) (by omega) e
    rw [(loop_orig hp hs hk).1] at ho
    cases ho
  · intro e
    obtain ⟨_, e⟩ := off_inj (by omega) le_rfl e
    omega
  · intro e
    obtain ⟨rfl, rfl⟩ := off_inj (by omega) (by omega) e
    rw [(loop_orig hp hs hl).1] at ho
    cases ho
  · intro e
    obtain ⟨_, e⟩ := off_inj (by omega) le_rfl e
    omega

theorem Supp.val {p : Prog} {sol : List ℚ} {i j k l : Nat} (h : Supp p sol i j k l) (hp : p.Padded)
    (hk : k < (stmtBlock p i).count) (hl : l < (stmtBlock p j).count) (hij : i = j → k = l) (hs : SolLen p sol) (x : List ℚ)
    (hx : x.length = p.nvar) :
    hypValue p.nvar p.npar sol i x =
      sol.getD (stmtOffset p.nvar p.npar i + k) 0 * x.getD k 0 + sol.getD (stmtOffset p.nvar p.npar i + p.nvar) 0 := by
  have hkn := count_lt hp hk
  have hln := count_lt hp hl
  refine hypValue_single hs hkn.2 ?_ hkn.1 x hx
  intro k' hk' hne
  refine h (stmtOffset p.nvar p.npar i + k') (by unfold stmtOffset; omega) ?_ ?_ ?_ ?_
  · omega
  · omega
  · intro e
    obtain ⟨rfl, rfl⟩ := off_inj (by omega) (by omega) e
    exact hne (hij rfl).symm
  · intro e
    obtain ⟨_, e⟩ := off_inj (by omega) le_rfl e
    omega

/-- The system of a dependence says that the level respects it. -/
theorem dep_level {o : SearchOpts} {p : Prog} {sol : List ℚ} {v : LoopLevel} {d : Dep} (hd : DepOK p d) (hs : SolLen p sol)
    (hz : PadZero p sol) (hne : ∃ s t q : List ℚ, DepInst d.dpoly p.nvar p.nvar p.npar s t q)
    (hneb : ∃ s t q : List ℚ, DepInst d.bpoly p.nvar p.nvar p.npar s t q)
    (h1 : ∀ x : List ℚ, x.length = p.nvar → hypValue p.nvar p.npar sol d.src x = v.time d.src x)
    (h2 : ∀ x : List ℚ, x.length = p.nvar → hypValue p.nvar p.npar sol d.dest x = v.time d.dest x) :
    (depCst o.nodepbound p d).Sat sol ↔
      v.Weak p d ∧ (o.nodepbound = false → v.Bounded p (sol.take p.npar) (sol.getD p.npar 0) d) := by
  rw [C07_dep_exact o.nodepbound p d sol hd hs hz hne hneb]
  have hlen : p.npar + 1 ≤ sol.length := by rw [hs]; omega
  unfold LoopLevel.Weak LoopLevel.Bounded
  refine and_congr (imp_congr_right fun _ => ?_) (imp_congr_right fun _ => ?_)
  · refine forall_congr' fun s => forall_congr' fun t => forall_congr' fun q => imp_congr_right fun hi => ?_
    rw [h1 s hi.hs, h2 t hi.ht]
    exact sub_nonneg
  · refine forall_congr' fun s => forall_congr' fun t => forall_congr' fun q => imp_congr_right fun hi => ?_
    rw [h1 s hi.hs, h2 t hi.ht, boundValue_split hlen q hi.hp]

/-- The coefficient vector of a level of two statements. -/
def levelVec (p : Prog) (u : List ℚ) (w : ℚ) (i j : Nat) (v : LoopLevel) : List ℚ :=
  (List.range (p.npar + 1 + p.stmts.length * (p.nvar + 1))).map (fun idx =>
    if idx < p.npar then u.getD idx 0 else if idx = p.npar then w
    else if idx = stmtOffset p.nvar p.npar i + v.loop i then v.scale i
    else if idx = stmtOffset p.nvar p.npar i + p.nvar then v.shift i
    else if idx = stmtOffset p.nvar p.npar j + v.loop j then v.scale j
    else if idx = stmtOffset p.nvar p.npar j + p.nvar then v.shift j else 0)

theorem levelVec_len (p : Prog) (u : List ℚ) (w : ℚ) (i j : Nat) (v : LoopLevel) : SolLen p (levelVec p u w i j v) := by
  simp [SolLen, levelVec]

theorem levelVec_get (p : Prog) (u : List ℚ) (w : ℚ) (i j : Nat) (v : LoopLevel) (idx : Nat)
    (h : idx < p.npar + 1 + p.stmts.length * (p.nvar + 1)) : (levelVec p u w i j v).getD idx 0 =
    if idx < p.npar then u.getD idx 0 else if idx = p.npar then w
    else if idx = stmtOffset p.nvar p.npar i + v.loop i then v.scale i
    else if idx = stmtOffset p.nvar p.npar i + p.nvar then v.shift i
    else if idx = stmtOffset p.nvar p.npar j + v.loop j then v.scale j
    else if idx = stmtOffset p.nvar p.npar j + p.nvar then v.shift j else 0 := by
  unfold levelVec
  rw [List.getD_eq_getElem?_getD, List.getElem?_map, List.getElem?_range h, Option.map_some, Option.getD_some]

theorem levelVec_supp (p : Prog) (u : List ℚ) (w : ℚ) (i j : Nat) (v : LoopLevel) :
    Supp p (levelVec p u w i j v) i j (v.loop i) (v.loop j) := by
  intro idx h0 h1 h2 h3 h4
  by_cases h : idx < p.npar + 1 + p.stmts.length * (p.nvar + 1)
  · rw [levelVec_get _ _ _ _ _ _ _ h, if_neg (by omega), if_neg (by omega), if_neg h1, if_neg h2, if_neg h3, if_neg h4]
  · rw [List.getD_eq_getElem?_getD, List.getElem?_eq_none (by rw [levelVec_len]; omega), Option.getD_none]

theorem levelVec_bound (p : Prog) (u : List ℚ) (w : ℚ) (i j : Nat) (v : LoopLevel) (hu : u.length = p.npar) :
    (levelVec p u w i j v).take p.npar = u ∧ (levelVec p u w i j v).getD p.npar 0 = w := by
  constructor
  · apply List.ext_getElem
    · rw [List.length_take, levelVec_len, hu]; omega
    · intro m h1 h2
      have hm : m < p.npar := by omega
      rw [List.getElem_take]
      simp [levelVec, hm, h2]
  · rw [levelVec_get _ _ _ _ _ _ _ (by omega), if_neg (by omega), if_pos rfl]

theorem levelVec_i (p : Prog) (u : List ℚ) (w : ℚ) (i j : Nat) (v : LoopLevel) (hi : i < p.stmts.length) (hk : v.loop i < p.nvar) :
    (levelVec p u w i j v).getD (stmtOffset p.nvar p.npar i + v.loop i) 0 = v.scale i ∧
    (levelVec p u w i j v).getD (stmtOffset p.nvar p.npar i + p.nvar) 0 = v.shift i := by
  have := off_end (nvar := p.nvar) (npar := p.npar) hi
  have hlow : p.npar + 1 ≤ stmtOffset p.nvar p.npar i := by unfold stmtOffset; omega
  constructor
  · rw [levelVec_get _ _ _ _ _ _ _ (by omega), if_neg (by omega), if_neg (by omega), if_pos rfl]
  · rw [levelVec_get _ _ _ _ _ _ _ (by omega), if_neg (by omega), if_neg (by omega), if_neg (by omega), if_pos rfl]

theorem levelVec_j (p : Prog) (u : List ℚ) (w : ℚ) (i j : Nat) (v : LoopLevel) (hi : j < p.stmts.length) (hk : v.loop j < p.nvar)
    (hki : v.loop i < p.nvar) :
    (levelVec p u w i j v).getD (stmtOffset p.nvar p.npar j + v.loop j) 0 = v.scale j ∧
    (levelVec p u w i j v).getD (stmtOffset p.nvar p.npar j + p.nvar) 0 = v.shift j := by
  by_cases e : j = i
  · subst e; exact levelVec_i p u w j j v hi hk
  have := off_end (nvar := p.nvar) (npar := p.npar) hi
  have hlow : p.npar + 1 ≤ stmtOffset p.nvar p.npar j := by unfold stmtOffset; omega
  constructor
  · rw [levelVec_get _ _ _ _ _ _ _ (by omega), if_neg (by omega), if_neg (by omega), if_neg, if_neg, if_pos rfl]
    · exact fun h => e (off_inj (by omega) (by omega) h).1
    · exact fun h => e (off_inj (by omega) (by omega) h).1
  · rw [levelVec_get _ _ _ _ _ _ _ (by omega), if_neg (by omega), if_neg (by omega), if_neg, if_neg, if_neg (by omega), if_pos rfl]
    · exact fun h => e (off_inj (by omega) (by omega) h).1
    · exact fun h => e (off_inj (by omega) (by omega) h).1

end Pluto
