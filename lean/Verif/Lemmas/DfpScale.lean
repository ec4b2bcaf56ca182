import Verif.Lemmas.DfpColour
import Verif.Lemmas.Cone
import Verif.Lemmas.Diamond
import Verif.Lemmas.LexScale

/-! Scaling and shifting of the loops that were given a colour. -/

namespace Pluto

/-- A fold of steps that append rows. -/
theorem append_fold {β : Type*} (w : Nat) (f : Cst → β → Cst) (R : β → List Row) (l : List β)
    (hf : ∀ b ∈ l, ∀ c : Cst, c.ncols = w → f c b = { c with rows := c.rows ++ R b }) :
    ∀ c : Cst, c.ncols = w → l.foldl f c = { c with rows := c.rows ++ l.flatMap R } := by
  induction l with
  | nil => intro c _; simp
  | cons b l ih =>
    intro c hc
    rw [List.foldl_cons, hf b List.mem_cons_self c hc, ih (fun b hb => hf b (List.mem_cons_of_mem _ hb)) ⟨c.ncols, c.rows ++ R b⟩ hc]
    simp

/-- Rows added for statement `j`. -/
def colourRows (p : Prog) (w : Nat) (colour : List Nat) (c : Nat) (x : Stmt × Nat) : List Row :=
  if x.1.dimOrig < c then
    (List.range x.1.dimOrig).flatMap (fun k => [⟨false, unitRow w (stmtOffset p.nvar p.npar x.2 + k) 1 0⟩])
  else
    (List.range p.nvar).flatMap (fun k =>
      [if x.1.isOrig.getD k false && colourOf colour (fcgOffset p x.2 + k) == c then
        ⟨false, unitRow w (stmtOffset p.nvar p.npar x.2 + k) 1 (-1)⟩
      else ⟨true, unitRow w (stmtOffset p.nvar p.npar x.2 + k) 1 0⟩])

theorem colourCst_eq (p : Prog) (colour : List Nat) (c : Nat) (cst : Cst) :
    colourCst p colour c cst = { cst with rows := cst.rows ++ p.stmts.zipIdx.flatMap (colourRows p cst.ncols colour c) } := by
  unfold colourCst
  refine append_fold cst.ncols _ _ _ ?_ cst rfl
  intro x _ c1 h1
  unfold colourStmtCst colourRows
  split_ifs
  · refine append_fold cst.ncols _ _ _ ?_ c1 h1
    intro k _ c2 h2
    simp [addLb, h2]
  · refine append_fold cst.ncols _ _ _ ?_ c1 h1
    intro k _ c2 h2
    split_ifs <;> simp [addLb, setVar, h2]

theorem colourCst_wid {p : Prog} {colour : List Nat} {c w : Nat} {cst : Cst} (h : Wid w cst) : Wid w (colourCst p colour c cst) := by
  rw [colourCst_eq]
  refine ⟨h.1, ?_⟩
  intro r hr
  rcases List.mem_append.mp hr with hr | hr
  · exact h.2 r hr
  · obtain ⟨x, _, hx⟩ := List.mem_flatMap.mp hr
    unfold colourRows at hx
    rw [← h.1]
    split_ifs at hx
    · obtain ⟨k, _, hk⟩ := List.mem_flatMap.mp hx
      rw [List.mem_singleton] at hk
      rw [hk]; exact unitRow_len _ _ _ _
    · obtain ⟨k, _, hk⟩ := List.mem_flatMap.mp hx
      rw [List.mem_singleton] at hk
      rw [hk]
      split_ifs <;> exact unitRow_len _ _ _ _

/-- A solution scales the loops of the current colour and has no part in the others. -/
theorem colourCst_sat {p : Prog} {colour : List Nat} {c : Nat} {cst : Cst} {sol : List ℚ} (hl : SolLen p sol)
    (hw : cst.ncols = cstWidth p.nvar p.npar p.stmts.length) (h : (colourCst p colour c cst).Sat sol) :
    ∀ (i : Nat) (st : Stmt), p.stmts[i]? = some st → c ≤ st.dimOrig → ∀ j < p.nvar,
      if st.isOrig.getD j false = true ∧ colourOf colour (fcgOffset p i + j) = c then
        1 ≤ sol.getD (stmtOffset p.nvar p.npar i + j) 0
      else sol.getD (stmtOffset p.nvar p.npar i + j) 0 = 0 := by
  intro i st hst hc j hj
  have hi := (List.getElem?_eq_some_iff.mp hst).1
  have hb := stmtOffset_bound p.nvar p.npar p.stmts.length i hi
  have hsl : sol.length + 1 = cst.ncols := by rw [hw]; exact solLen_width hl
  have hmem : (st, i) ∈ p.stmts.zipIdx := by
    rw [List.mem_zipIdx_iff_getElem?]
    exact hst
  have hrow : ∀ r ∈ colourRows p cst.ncols colour c (st, i), r.Sat sol := by
    intro r hr
    refine h r ?_
    rw [colourCst_eq]
    exact List.mem_append_right _ (List.mem_flatMap.mpr ⟨_, hmem, hr⟩)
  have hin := hrow (if st.isOrig.getD j false && colourOf colour (fcgOffset p i + j) == c then
        ⟨false, unitRow cst.ncols (stmtOffset p.nvar p.npar i + j) 1 (-1)⟩
      else ⟨true, unitRow cst.ncols (stmtOffset p.nvar p.npar i + j) 1 0⟩) (by
    unfold colourRows
    rw [if_neg (show ¬ st.dimOrig < c by omega)]
    exact List.mem_flatMap.mpr ⟨j, List.mem_range.mpr hj, List.mem_singleton.mpr rfl⟩)
  simp only [Bool.and_eq_true, beq_iff_eq] at hin
  split_ifs at hin ⊢ with he
  · rw [Row.Sat] at hin
    simp only [Bool.false_eq_true, if_false] at hin
    rw [aff_unitRow_rat _ _ _ _ _ (by omega) hsl] at hin
    push_cast at hin
    linarith
  · rw [Row.Sat] at hin
    simp only [if_true] at hin
    rw [aff_unitRow_rat _ _ _ _ _ (by omega) hsl] at hin
    push_cast at hin
    linarith

/-- Every loop coloured before level `c` has a row of its own. -/
def RowsFor (k : Prog) (c : Nat) (colour : List Nat) (p : Prog) : Prop :=
  ∀ i < k.stmts.length, ∀ j < loopsOf k i, 1 ≤ colourOf colour (fcgOffset k i + j) → colourOf colour (fcgOffset k i + j) < c →
    ∃ r ∈ rowsAt p i, LoopRow k.nvar r j

theorem RowsFor.grow {k : Prog} {c : Nat} {x : List Nat} {p p' : Prog} (h : RowsFor k c x p)
    (hr : ∀ i, rowsAt p i ⊆ rowsAt p' i) : RowsFor k c x p' := by
  intro i hi j hj h1 h2
  obtain ⟨r, hr1, hr2⟩ := h i hi j hj h1 h2
  exact ⟨r, hr i hr1, hr2⟩

theorem RowsFor.kept {k : Prog} {c : Nat} {x y : List Nat} {p : Prog} (h : RowsFor k c x p) (hk : Kept c x y) : RowsFor k c y p := by
  intro i hi j hj h1 h2
  rcases hk (fcgOffset k i + j) with e | ⟨_, e⟩
  · rw [e] at h1 h2
    exact h i hi j hj h1 h2
  · omega

section
variable {k : Prog} {L : Libs} {o : SearchOpts} {a a' : Auto} {colour : List Nat} {c : Nat}
  {lex : Lex} (hL : LexScales k lex) (hk : SkelOK k) (hk0 : k.stmts ≠ [])

theorem skel_stmts_ne {p k : Prog} (h : skel p = k) (h0 : k.stmts ≠ []) : p.stmts ≠ [] := by
  intro e
  rw [← h] at h0
  exact h0 (by simp [skel, e])

/-- What a hyperplane found by scaling and shifting looks like. -/
structure Scaled (k : Prog) (colour : List Nat) (c : Nat) (p p' : Prog) : Prop where
  inv : Inv True k p'
  rows : ∀ i, rowsAt p i ⊆ rowsAt p' i
  live : ∀ d, Live p' d ↔ Live p d
  found : ∀ i < k.stmts.length, ∃ r ∈ rowsAt p' i, c ≤ loopsOf k i → ∀ j < k.nvar,
    if j < loopsOf k i ∧ colourOf colour (fcgOffset k i + j) = c then 0 < coef r j else coef r j = 0

include hL hk hk0 in
theorem found_scaled {p : Prog} {b : Auto} {sol : List Int} {o' : SearchOpts} (hi : Inv True k p) (hb : CInv True k b)
    (h : lex b (addCst (colourCst p colour c (coeffBoundConstraints o p))
      (permutabilityConstraints o'.rar o'.nodepbound b.p)) = some (some sol)) :
    Scaled k colour c b.p (addHyperplane b.p sol) := by
  have hi1 := hb.inv
  have hgn := hb.gn
  have hge := hb.edges
  have hcov := hb.cover trivial
  generalize hp1 : b.p = p1 at *
  have hn : p1.nvar = p.nvar := (sk_nvar hi1.sk).symm.trans (sk_nvar hi.sk)
  have hm : p1.npar = p.npar := (sk_npar hi1.sk).symm.trans (sk_npar hi.sk)
  have hlen : p1.stmts.length = p.stmts.length := (sk_len hi1.sk).symm.trans (sk_len hi.sk)
  have hw1 : Wid (cstWidth p1.nvar p1.npar p1.stmts.length) (colourCst p colour c (coeffBoundConstraints o p)) := by
    rw [hn, hm, hlen]
    exact colourCst_wid (coeffBound_wid o p)
  have hperm := perm_wf o'.rar o'.nodepbound p1 (fun d hd => ⟨(hk.dep hi1.sk hd).src, (hk.dep hi1.sk hd).dest⟩)
  have hw2 : Wid (cstWidth p1.nvar p1.npar p1.stmts.length) (permutabilityConstraints o'.rar o'.nodepbound p1) :=
    ⟨hperm.2, fun r hr => by rw [← hperm.2]; exact hperm.1.2 r hr⟩
  have hall := hw1.add hw2
  have hne : (addCst (colourCst p colour c (coeffBoundConstraints o p))
      (permutabilityConstraints o'.rar o'.nodepbound p1)).rows ≠ [] := by
    intro e
    have e1 := (List.append_eq_nil_iff.mp e).1
    rw [colourCst_eq] at e1
    have e2 := (List.append_eq_nil_iff.mp e1).1
    have hc := coeffBound_wid o p
    unfold coeffBoundConstraints at e2
    have lbne : ∀ (l : List Nat) (c : Cst), (l ≠ [] ∨ c.rows ≠ []) → (l.foldl (fun c i => addLb c i 0) c).rows ≠ [] := by
      intro l
      induction l with
      | nil => intro c h; simpa using h
      | cons x l ih =>
        intro c _
        rw [List.foldl_cons]
        exact ih _ (.inr (by simp [addLb]))
    have ubne : ∀ (b : Int) (l : List Nat) (c : Cst), c.rows ≠ [] → (l.foldl (fun c i => addUb c i b) c).rows ≠ [] := by
      intro b l
      induction l with
      | nil => intro c h; exact h
      | cons x l ih =>
        intro c _
        rw [List.foldl_cons]
        exact ih _ (by simp [addUb])
    have h0 := lbne (List.range (cstWidth p.nvar p.npar p.stmts.length - 1)) ⟨cstWidth p.nvar p.npar p.stmts.length, []⟩
      (.inl (by
        intro e
        have := congrArg List.length e
        simp [cstWidth] at this))
    simp only at e2
    split_ifs at e2
    · exact ubne _ _ _ h0 e2
    · exact ubne _ _ _ h0 e2
    · exact h0 e2
  obtain ⟨f1, f2, x, f, g1, g2, f3, g4, g5⟩ := hL b _ sol hge (by rw [hp1]; exact hgn) (by rw [hp1]; exact skel_stmts_ne hi1.sk hk0) (by rw [hp1]; exact hk.origOK hi1.sk)
    (hall.wf (by unfold cstWidth; omega)) hne (by rw [hp1]; exact hall.1) h
  rw [hp1] at f1 f2 g1 g2 g4 g5
  have hap := addHyperplane_appended p1 sol
  have hpermsat : (permutabilityConstraints o'.rar o'.nodepbound p1).Sat x := fun r hr => f3 r (by simp [addCst, hr])
  have hcolsat : (colourCst p colour c (coeffBoundConstraints o p)).Sat x := fun r hr => f3 r (by simp [addCst, hr])
  refine ⟨?_, rowsAt_appended hap, live_appended hap, ?_⟩
  · refine hi1.append hk hap ?_ ?_
    · intro i st hs
      have hlt := (List.getElem?_eq_some_iff.mp hs).1
      refine ⟨(C39_row_value p1 sol f1 i hlt (List.replicate p1.nvar 0) (List.replicate p1.npar 0)
        (by simp) (by simp)).1, fun j hj1 hj2 => ?_⟩
      refine (C39_row_zero p1 sol f1 f2 i st hs j).1 hj2 ?_
      rw [(hk.stmt hi1.sk (List.mem_of_getElem? hs)).2.2, List.getD_eq_getElem?_getD,
        List.getElem?_append_right (by simpa using hj1), List.getElem?_replicate, if_pos (by simp; omega)]
      rfl
    · intro _ d hd hr hs s t q hinst
      rw [hk.inst hi1.sk hd, sk_nvar hi1.sk, sk_npar hi1.sk] at hinst
      have hok := hk.dep hi1.sk hd
      have hedge : b.g.Edge d.src d.dest := hcov d ⟨hd, hr, hs, s, t, q, by rw [hk.inst hi1.sk hd, sk_nvar hi1.sk, sk_npar hi1.sk]; exact hinst⟩
      have hdep := (permutability_sat o'.rar o'.nodepbound p1 x (fun d hd => ⟨(hk.dep hi1.sk hd).src, (hk.dep hi1.sk hd).dest⟩)).mp hpermsat d hd
        (by simp [hr]) hs
      have := scaled_legal hok hr f1 g1 g2 hdep g4 (g5 _ hok.src _ hok.dest (.single (.inl hedge))) s t q hinst
      rw [(C39_row_value p1 sol f1 d.src hok.src s q hinst.hs hinst.hp).2,
        (C39_row_value p1 sol f1 d.dest hok.dest t q hinst.ht hinst.hp).2]
      omega
  · intro i hi0
    have hi1' : i < p1.stmts.length := by rw [← sk_len hi1.sk]; exact hi0
    have hi' : i < p.stmts.length := by rw [← sk_len hi.sk]; exact hi0
    refine ⟨_, rowsAt_last hap hi1', fun hc j hj => ?_⟩
    have hl0 : loopsOf k i = p.stmts[i].dimOrig := by
      rw [← loopsOf_skel hi.sk]
      simp [loopsOf, List.getElem?_eq_getElem hi']
    have hf1 : SolLen p x := by
      unfold SolLen at g1 ⊢
      rw [← hn, ← hm, ← hlen]
      exact g1
    obtain ⟨k1, k2⟩ := g4 i hi1'
    have k2 := k2 j (by rw [← sk_nvar hi1.sk]; omega)
    have hjn : j < p1.nvar := by rw [← sk_nvar hi1.sk]; exact hj
    rw [hyperplaneRow_coef sol f1 i hi1' j hjn]
    have hkey := colourCst_sat hf1 (coeffBound_wid o p).1 hcolsat i _ (List.getElem?_eq_getElem hi') (by rw [← hl0]; exact hc) j
      (by rw [← sk_nvar hi.sk]; exact hj)
    have horig : p.stmts[i].isOrig.getD j false = true ↔ j < loopsOf k i := by
      rw [(hk.stmt hi.sk (List.getElem_mem hi')).2.2, hl0, List.getD_eq_getElem?_getD]
      by_cases hjl : j < p.stmts[i].dimOrig
      · rw [List.getElem?_append_left (by simpa using hjl), List.getElem?_replicate, if_pos hjl]
        simp [hjl]
      · rw [List.getElem?_append_right (by simpa using hjl), List.getElem?_replicate]
        split_ifs <;> simp [hjl]
    simp only [horig, fcgOffset_skel hi.sk] at hkey
    rw [← hn, ← hm] at hkey
    unfold stmtOffset at hkey ⊢
    split_ifs at hkey ⊢ with he
    · have : (0 : ℚ) < (sol.getD (p1.npar + 1 + i * (p1.nvar + 1) + j) 0 : Int) := by
        rw [k2]
        exact mul_pos (by linarith) (by linarith)
      exact_mod_cast this
    · rw [hkey, mul_zero] at k2
      exact_mod_cast k2

include hL hk hk0 in
theorem scaleShift_spec (hE : EmptyOracle L.isEmpty) {delayedCut : Bool} (hc : CInv True k a)
    (h : scaleShift o delayedCut L lex a colour c = some a') :
    AInv True k a' ∧ (∀ i, rowsAt a.p i ⊆ rowsAt a'.p i) ∧
    ∀ i < k.stmts.length, ∃ r ∈ rowsAt a'.p i, c ≤ loopsOf k i → ∀ j < k.nvar,
      if j < loopsOf k i ∧ colourOf colour (fcgOffset k i + j) = c then 0 < coef r j else coef r j = 0 := by
  have fin : ∀ (b : Auto) (sol : List Int), CInv True k b → (∀ i, rowsAt a.p i ⊆ rowsAt b.p i) →
      lex b (addCst (colourCst a.p colour c (coeffBoundConstraints o a.p))
        (permutabilityConstraints o.rar o.nodepbound b.p)) = some (some sol) →
      AInv True k { b with p := addHyperplane b.p sol } ∧ (∀ i, rowsAt a.p i ⊆ rowsAt (addHyperplane b.p sol) i) ∧
      ∀ i < k.stmts.length, ∃ r ∈ rowsAt (addHyperplane b.p sol) i, c ≤ loopsOf k i → ∀ j < k.nvar,
        if j < loopsOf k i ∧ colourOf colour (fcgOffset k i + j) = c then 0 < coef r j else coef r j = 0 := by
    intro b sol hb hr hs
    have sc := found_scaled hL hk hk0 hc.inv hb hs
    refine ⟨⟨sc.inv, ?_, ?_, hb.edges⟩, fun i => List.Subset.trans (hr i) (sc.rows i), sc.found⟩
    · show b.g.n = _
      rw [hb.gn, (addHyperplane_appended b.p sol).len]
    · intro hX d hd
      exact hb.cover hX d ((sc.live d).mp hd)
  unfold scaleShift at h
  simp only [Option.bind_eq_bind] at h
  obtain ⟨r, h1, h⟩ := Option.bind_eq_some_iff.mp h
  cases r with
  | some sol =>
    simp only [Option.pure_def, Option.some.injEq] at h
    rw [← h]
    exact fin a sol hc (fun _ => List.Subset.refl _) h1
  | none =>
    simp only at h
    split_ifs at h
    obtain ⟨b, h2, h⟩ := Option.bind_eq_some_iff.mp h
    obtain ⟨r2, h3, h⟩ := Option.bind_eq_some_iff.mp h
    cases r2 with
    | none => cases h
    | some sol =>
      simp only [Option.pure_def, Option.some.injEq] at h
      rw [← h]
      exact fin b sol (cutSmart_spec hE hk hc h2)
        (cutSmart_keeps hE hk (rows_moves hE hk (rowsAt a.p)) hc (fun _ => List.Subset.refl _) h2) h3

end

/-- The state between the levels: colours below `c` are used up. -/
structure Between (k : Prog) (c : Nat) (d : Dfp) : Prop where
  inv : CInv True k d.a
  fcg : FcgOK k d.fcg
  coloured : d.coloured + 1 = c
  colours : (∀ i < k.stmts.length, 0 < loopsOf k i) →
    Coloured k (c - 1) (fun _ => True) d.colour ∧ RowsFor k c d.colour d.a.p

section
variable {k : Prog} {L : Libs} {o : SearchOpts} {delayedCut : Bool} {fcgOf : Auto → List Nat → Nat → Graph} {fuse : Fuse}
  {lex : Lex} (hE : EmptyOracle L.isEmpty) (hL : LexScales k lex) (hk : SkelOK k) (hk0 : k.stmts ≠ [])
  (hF : ∀ a colour c, skel a.p = k → FcgOK k (fcgOf a colour c))
include hE hL hk hk0 hF

theorem level_spec {c : Nat} {d d' : Dfp} (hd : Between k c d) (h : Dfp.level o delayedCut L lex fcgOf fuse c d = some d') :
    Between k (c + 1) d' := by
  have hc0 : c ≠ 0 := by have := hd.coloured; omega
  unfold Dfp.level at h
  simp only [Option.bind_eq_bind] at h
  obtain ⟨d1, h1, h⟩ := Option.bind_eq_some_iff.mp h
  obtain ⟨a2, h2, h⟩ := Option.bind_eq_some_iff.mp h
  obtain ⟨⟨p3, n3⟩, h3, h⟩ := Option.bind_eq_some_iff.mp h
  obtain ⟨a4, h4, h⟩ := Option.bind_eq_some_iff.mp h
  simp only [Option.pure_def, Option.some.injEq] at h
  have st := colourFcg_step hE hk hF _ _ _ hd.inv h1
  obtain ⟨ai, ar, af⟩ := scaleShift_spec hL hk hk0 hE st.grow.inv h2
  have hupd : Inv True k p3 ∧ p3 = { a2.p with deps := p3.deps } := by
    unfold satUpdateLast at h3
    rw [Option.bind_eq_bind, Option.bind_eq_some_iff] at h3
    obtain ⟨st0, hs, h3⟩ := h3
    have hl := (ai.inv.rows st0 (List.mem_of_getElem? hs)).1
    split_ifs at h3
    obtain ⟨x1, x2, _⟩ := ai.inv.update hE hk (by omega) h3
    exact ⟨x1, x2⟩
  have hst : p3.stmts = a2.p.stmts := by rw [hupd.2]
  have hrows : ∀ i, rowsAt p3 i = rowsAt a2.p i := by
    intro i
    unfold rowsAt
    rw [hst]
  have hai : AInv True k ({ a2 with p := p3, g := ddgUpdate a2.g p3 } : Auto) := by
    refine ⟨hupd.1, ?_, ?_, edges_update hupd.1.sk⟩
    · show a2.g.n = p3.stmts.length
      rw [hst]; exact ai.gn
    · intro _
      apply update_edge
      · rw [hst]; exact ai.gn
      · intro e he
        exact ⟨(hk.dep hupd.1.sk he).src, (hk.dep hupd.1.sk he).dest⟩
  have ha4 : a4.p = p3 := (scc_facts h4).1
  rw [← h]
  refine ⟨computeScc_spec hai h4, st.fcg hd.fcg, ?_, ?_⟩
  · show d1.coloured + 1 + 1 = c + 1
    rw [st.coloured, hd.coloured]
  · intro hpos
    obtain ⟨hx, hr⟩ := hd.colours hpos
    have hstart : Coloured k c (fun i => d.a.scc i < ((0 : Nat) : Int)) d.colour := by
      refine ⟨hx.len, fun v => ?_, hx.inj, ?_, ?_, ?_⟩
      · have := hx.le v; omega
      · intro i hi c' g1 g2 g3
        by_cases e : c' = c - 1
        · subst e
          exact hx.cur i hi trivial g3
        · exact hx.old i hi c' g1 (by omega) g3
      · intro i hi hS
        exfalso
        have := (hd.inv.range i (by rw [← sk_len hd.inv.inv.sk]; exact hi)).1
        push_cast at hS
        omega
      · intro i hi _ v _
        have := hx.le v
        omega
    rw [List.range_eq_range'] at h1
    obtain ⟨y1, y2⟩ := colourFcg_colours hk hpos hc0 hE hF _ _ _ _ hd.inv hd.fcg hd.coloured hstart h1
    simp only [Nat.zero_add] at y1
    refine ⟨⟨y1.len, y1.le, y1.inj, y1.old, ?_, fun i _ hS => absurd trivial hS⟩, ?_⟩
    · intro i hi _ hl
      exact y1.cur i hi (hd.inv.range i (by rw [← sk_len hd.inv.inv.sk]; exact hi)).2 hl
    · intro i hi j hj g1 g2
      show ∃ r ∈ rowsAt a4.p i, _
      rw [ha4, hrows]
      by_cases e : colourOf d1.colour (fcgOffset k i + j) = c
      · obtain ⟨r, hr1, hr2⟩ := af i hi
        have hblock : ∀ j' < loopsOf k i, (stmtBlock k i).Has (fcgOffset k i + j') := by
          intro j' hj'
          rw [stmtBlock_has, fcgOffset_succ]
          omega
        have hle : loopsOf k i ≤ k.nvar := by
          have := (hk.stmts _ (List.getElem_mem hi)).2.1
          simpa [loopsOf, List.getElem?_eq_getElem hi] using this
        have hcl : c ≤ loopsOf k i := by
          -- the colours up to `c` are all used in this block: otherwise statement i has no loop of colour c
          by_contra hlt
          -- pigeonhole: the colours 1..loopsOf k i and c are all different
          have hsur : ∀ c' ∈ Finset.Icc 1 (loopsOf k i), ∃ j' ∈ Finset.range (loopsOf k i),
              colourOf d1.colour (fcgOffset k i + j') = c' := by
            intro c' hc'
            rw [Finset.mem_Icc] at hc'
            obtain ⟨v, hv1, hv2⟩ := y1.old i hi c' hc'.1 (by omega) hc'.2
            rw [stmtBlock_has, fcgOffset_succ] at hv1
            refine ⟨v - fcgOffset k i, Finset.mem_range.mpr (by omega), ?_⟩
            rw [show fcgOffset k i + (v - fcgOffset k i) = v by omega, hv2]
          have hsub : Finset.Icc 1 (loopsOf k i) ⊆ ((Finset.range (loopsOf k i)).erase j).image
              (fun j' => colourOf d1.colour (fcgOffset k i + j')) := by
            intro c' hc'
            obtain ⟨j', hj', he'⟩ := hsur c' hc'
            rw [Finset.mem_Icc] at hc'
            refine Finset.mem_image.mpr ⟨j', Finset.mem_erase.mpr ⟨?_, hj'⟩, he'⟩
            intro hjj
            rw [hjj, e] at he'
            omega
          have hcard := (Finset.card_le_card hsub).trans Finset.card_image_le
          rw [Finset.card_erase_of_mem (Finset.mem_range.mpr hj), Finset.card_range, Nat.card_Icc] at hcard
          omega
        refine ⟨r, hr1, ?_, ?_⟩
        · have := hr2 hcl j (by omega)
          rwa [if_pos ⟨hj, e⟩] at this
        · intro j' hj' hne
          have := hr2 hcl j' hj'
          rw [if_neg] at this
          · exact this
          · rintro ⟨hjl, he'⟩
            have := y1.inj i hi _ _ (hblock j' hjl) (hblock j hj) (he'.trans e.symm) (by omega)
            omega
      · obtain ⟨r, hr1, hr2⟩ := ((hr.kept y2).grow (st.grow.rows)).grow ar i hi j hj g1 (by
          show colourOf d1.colour (fcgOffset k i + j) < c
          have : colourOf d1.colour (fcgOffset k i + j) < c + 1 := g2
          omega)
        exact ⟨r, hr1, hr2⟩

theorem levels_spec (n : Nat) : ∀ (c : Nat) (d d' : Dfp), Between k c d →
    Dfp.levels o delayedCut L lex fcgOf fuse n c d = some d' → Between k (c + n) d' := by
  induction n with
  | zero =>
    intro c d d' hd h
    simp only [Dfp.levels, Option.some.injEq] at h
    rw [← h]; exact hd
  | succ n ih =>
    intro c d d' hd h
    simp only [Dfp.levels, Option.bind_eq_bind] at h
    obtain ⟨d1, h1, h2⟩ := Option.bind_eq_some_iff.mp h
    have := ih (c + 1) d1 d' (level_spec hE hL hk hk0 hF hd h1) h2
    rw [show c + (n + 1) = c + 1 + n by omega]
    exact this

end

/-- When as many levels were found as any statement has loops, every loop of every statement has a row of
its own. -/
theorem all_loops {k : Prog} (hk : SkelOK k) {d : Dfp} (hd : Between k (k.nvar + 1) d)
    (hpos : ∀ i < k.stmts.length, 0 < loopsOf k i) :
    ∀ i < k.stmts.length, ∀ j < loopsOf k i, ∃ r ∈ rowsAt d.a.p i, LoopRow k.nvar r j := by
  obtain ⟨hx, hr⟩ := hd.colours hpos
  simp only [Nat.add_sub_cancel] at hx
  intro i hi j hj
  have hle : loopsOf k i ≤ k.nvar := by
    have := (hk.stmts _ (List.getElem_mem hi)).2.1
    simpa [loopsOf, List.getElem?_eq_getElem hi] using this
  refine hr i hi j hj ?_ (by have := hx.le (fcgOffset k i + j); omega)
  by_contra h0
  have h0' : colourOf d.colour (fcgOffset k i + j) = 0 := by omega
  have hsub : Finset.Icc 1 (loopsOf k i) ⊆ ((Finset.range (loopsOf k i)).erase j).image
      (fun j' => colourOf d.colour (fcgOffset k i + j')) := by
    intro c' hc'
    rw [Finset.mem_Icc] at hc'
    have hex : ∃ v, (stmtBlock k i).Has v ∧ colourOf d.colour v = c' := by
      by_cases e : c' = k.nvar
      · subst e
        exact hx.cur i hi trivial hc'.2
      · exact hx.old i hi c' hc'.1 (by omega) hc'.2
    obtain ⟨v, hv1, hv2⟩ := hex
    rw [stmtBlock_has, fcgOffset_succ] at hv1
    have e : fcgOffset k i + (v - fcgOffset k i) = v := by omega
    refine Finset.mem_image.mpr ⟨v - fcgOffset k i, Finset.mem_erase.mpr ⟨?_, Finset.mem_range.mpr (by omega)⟩, ?_⟩
    · intro hjj
      rw [hjj] at e
      rw [e] at h0'
      omega
    · simp only [e, hv2]
  have hcard := (Finset.card_le_card hsub).trans Finset.card_image_le
  rw [Finset.card_erase_of_mem (Finset.mem_range.mpr hj), Finset.card_range, Nat.card_Icc] at hcard
  omega

end Pluto
