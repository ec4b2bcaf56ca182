import Verif.Model.Skew
import Verif.Lemmas.DfpOut

/-! `introduce_skew`. -/

namespace Pluto

/-! ### The system that is solved -/

/-- `c'` has the rows of `c` and more. -/
def CstExt (c c' : Cst) : Prop := c'.ncols = c.ncols ∧ ∃ E, c'.rows = c.rows ++ E ∧ ∀ r ∈ E, r.val.length = c.ncols

theorem CstExt.refl (c : Cst) : CstExt c c := ⟨rfl, [], by simp, nofun⟩

theorem CstExt.trans {a b c : Cst} (h1 : CstExt a b) (h2 : CstExt b c) : CstExt a c := by
  obtain ⟨n1, E1, e1, l1⟩ := h1
  obtain ⟨n2, E2, e2, l2⟩ := h2
  refine ⟨n2.trans n1, E1 ++ E2, by rw [e2, e1, List.append_assoc], ?_⟩
  intro r hr
  rcases List.mem_append.mp hr with h | h
  · exact l1 r h
  · rw [l2 r h, n1]

theorem CstExt.addLb (c : Cst) (v : Nat) (x : Int) : CstExt c (addLb c v x) :=
  ⟨rfl, _, rfl, fun r hr => by rw [List.mem_singleton.mp hr]; exact unitRow_len _ _ _ _⟩

theorem CstExt.setVar (c : Cst) (v : Nat) (x : Int) : CstExt c (setVar c v x) :=
  ⟨rfl, _, rfl, fun r hr => by rw [List.mem_singleton.mp hr]; exact unitRow_len _ _ _ _⟩

theorem CstExt.fold {β : Type*} {f : Cst → β → Cst} (hf : ∀ c b, CstExt c (f c b)) (l : List β) : ∀ c, CstExt c (l.foldl f c) := by
  induction l with
  | nil => exact fun c => .refl c
  | cons b l ih => exact fun c => (hf c b).trans (ih _)

theorem skewStmtCst_ext {a : Auto} {src : List Bool} {outer k level : Nat} {c c' : Cst} {x : Stmt × Nat}
    (h : skewStmtCst a src outer k level c x = some c') : CstExt c c' ∧ c'.rows ≠ [] := by
  have hne : ∀ (c : Cst) v y, (addLb c v y).rows ≠ [] := fun c v y e => by
    have := congrArg List.length e
    simp [addLb] at this
  unfold skewStmtCst at h
  simp only at h
  split_ifs at h
  · simp only [Option.some.injEq] at h
    rw [← h]
    exact ⟨(CstExt.fold (fun c b => .addLb c _ _) _ c).trans (.addLb _ _ _), hne _ _ _⟩
  · rw [Option.bind_eq_bind, Option.bind_eq_some_iff] at h
    obtain ⟨row, _, h⟩ := h
    simp only [Option.pure_def, Option.some.injEq] at h
    rw [← h]
    refine ⟨(CstExt.fold (fun c b => ?_) _ c).trans (.addLb _ _ _), hne _ _ _⟩
    split_ifs
    · exact .addLb c _ _
    · exact .setVar c _ _

theorem skewCst_ext {a : Auto} {src skew : List Bool} {k level : Nat} {c c' : Cst} (h : skewCst a src skew k level c = some c') :
    CstExt c c' ∧ (a.p.stmts ≠ [] → c'.rows ≠ []) := by
  unfold skewCst at h
  simp only at h
  have key : ∀ (l : List (Stmt × Nat)) (c : Cst),
      l.foldlM (skewStmtCst a src ((skew.findIdx? id).getD a.p.nvar) k level) c = some c' →
      CstExt c c' ∧ (l ≠ [] → c'.rows ≠ []) := by
    intro l
    induction l with
    | nil =>
      intro c h
      simp only [List.foldlM_nil, Option.pure_def, Option.some.injEq] at h
      rw [h]; exact ⟨.refl _, fun h => absurd rfl h⟩
    | cons x l ih =>
      intro c h
      rw [List.foldlM_cons, Option.bind_eq_bind, Option.bind_eq_some_iff] at h
      obtain ⟨c1, h1, h⟩ := h
      obtain ⟨e1, n1⟩ := skewStmtCst_ext h1
      obtain ⟨e2, _⟩ := ih c1 h
      refine ⟨e1.trans e2, fun _ e => ?_⟩
      obtain ⟨_, E, e2, _⟩ := e2
      rw [e2] at e
      exact n1 (List.append_eq_nil_iff.mp e).1
  obtain ⟨g1, g2⟩ := key _ _ h
  refine ⟨g1, fun hn => g2 ?_⟩
  intro e
  exact hn (List.zipIdx_eq_nil_iff.mp e)

/-- The dependences whose constraints are collected. -/
def ccDeps (p : Prog) (cc : Nat → Int) (c : Int) : List Dep :=
  p.deps.filter (fun d => !d.satisfied && decide (cc d.src = c) && decide (cc d.src = cc d.dest))

theorem ccPermCst_some {nb : Bool} {p : Prog} {cc : Nat → Int} {c : Int} {P : Cst} (h : ccPermCst nb p cc c = some P) :
    P.ncols = cstWidth p.nvar p.npar p.stmts.length ∧ ccDeps p cc c ≠ [] ∧
    P.rows = (ccDeps p cc c).flatMap (fun d => (depCst nb p d).rows) := by
  unfold ccPermCst at h
  change (match ccDeps p cc c with | [] => _ | _ => _) = _ at h
  generalize ccDeps p cc c = l at h
  have key : ∀ (l : List Dep) (C : Cst), l.foldl (fun cst d => addCst cst (depCst nb p d)) C =
      ⟨C.ncols, C.rows ++ l.flatMap (fun d => (depCst nb p d).rows)⟩ := by
    intro l
    induction l with
    | nil => intro C; simp
    | cons d l ih => intro C; rw [List.foldl_cons, ih]; simp [addCst]
  cases l with
  | nil => cases h
  | cons d l =>
    simp only [Option.some.injEq] at h
    rw [← h, key]
    exact ⟨rfl, by simp, by simp⟩

/-! ### The invariant of the loop -/

/-- What holds between calls: `p0` is the program at the start, `pp` the one the constraints are taken from (only its
flags differ), `C` says that all statements are in one connected component. -/
structure SkewInv (k p0 pp : Prog) (C : Prop) (p : Prog) : Prop where
  inv : Inv False k p
  hp : p.hProps = p0.hProps
  rows : ∀ i l, p0.hProps[l]? ≠ some .loop → p.row i l = p0.row i l
  comp : C → ∀ d ∈ pp.deps, d.rar = false → d.satisfied = false → ∀ l, p0.hProps[l]? = some .loop →
    (∃ l0, p0.hProps[l0]? = some .loop ∧ ∀ s t q, p.comp d l s t q = p0.comp d l0 s t q) ∨
    (∀ s t q, k.Inst d s t q → 0 ≤ p.comp d l s t q)

section
variable {k p0 pp p : Prog} {C : Prop}

theorem row_stmts {p p' : Prog} (h : p'.stmts = p.stmts) (i l : Nat) : p'.row i l = p.row i l := by
  unfold Prog.row; rw [h]

theorem comp_rows {p p' : Prog} {d : Dep} {l l' : Nat} (h1 : p'.row d.src l' = p.row d.src l) (h2 : p'.row d.dest l' = p.row d.dest l)
    (s t q : List Int) : p'.comp d l' s t q = p.comp d l s t q := by
  unfold Prog.comp Prog.phi; rw [h1, h2]

theorem SkewInv.flags (h : SkewInv k p0 pp C p) {p' : Prog} (hi : Inv False k p') (hs : p'.stmts = p.stmts) (hh : p'.hProps = p.hProps) :
    SkewInv k p0 pp C p' := by
  refine ⟨hi, hh.trans h.hp, fun i l hl => by rw [row_stmts hs]; exact h.rows i l hl, ?_⟩
  intro hC d hd hr hu l hl
  have e : ∀ s t q, p'.comp d l s t q = p.comp d l s t q := comp_rows (row_stmts hs _ _) (row_stmts hs _ _)
  simp only [e]
  exact h.comp hC d hd hr hu l hl

theorem row_setLevel (p : Prog) (level : Nat) (sol : List Int) (i l : Nat) (hi : i < p.stmts.length)
    (hlen : ∀ st ∈ p.stmts, level < st.trans.length) :
    (setLevel p level sol).row i l = if l = level then hyperplaneRow p.nvar p.npar sol i else p.row i l := by
  unfold Prog.row setLevel
  simp only [List.getElem?_mapIdx, List.getElem?_eq_getElem hi, Option.map_some, Option.bind_some, List.getElem?_set]
  have := hlen _ (List.getElem_mem hi)
  by_cases e : l = level
  · subst e; simp [this]
  · rw [if_neg (Ne.symm e), if_neg e]

theorem row_out (p : Prog) (i l : Nat) (hi : ¬ i < p.stmts.length) : p.row i l = [] := by
  unfold Prog.row
  rw [List.getElem?_eq_none (by omega)]; rfl

theorem setLevel_len (p : Prog) (level : Nat) (sol : List Int) : (setLevel p level sol).stmts.length = p.stmts.length := by
  simp [setLevel]

theorem SkewInv.setLevel (hk : SkelOK k) (h : SkewInv k p0 pp C p) {level : Nat} {sol : List Int} (hl : p0.hProps[level]? = some .loop)
    (hpp : skel pp = k) (hs : SolLen p sol) (hz : PadZero p sol)
    (hv : C → ∀ d ∈ pp.deps, d.rar = false → d.satisfied = false → ∀ s t q, k.Inst d s t q →
      0 ≤ hypValue p.nvar p.npar sol d.dest t - hypValue p.nvar p.npar sol d.src s) :
    SkewInv k p0 pp C (setLevel p level sol) := by
  have hlev : level < p.hProps.length := by rw [h.hp]; exact (List.getElem?_eq_some_iff.mp hl).1
  have hlen : ∀ st ∈ p.stmts, level < st.trans.length := fun st hst => by rw [(h.inv.rows st hst).1]; exact hlev
  refine ⟨⟨?_, ?_, nofun⟩, h.hp, ?_, ?_⟩
  · rw [← h.inv.sk]
    unfold skel Pluto.setLevel
    simp only [Prog.mk.injEq, true_and, and_true]
    apply List.ext_getElem?
    intro i
    simp only [List.getElem?_map, List.getElem?_mapIdx, Option.map_map]
    rfl
  · intro st' hst'
    obtain ⟨i, hi, rfl⟩ := List.mem_mapIdx.mp hst'
    have hst := List.getElem_mem hi
    obtain ⟨r1, r2⟩ := h.inv.rows _ hst
    refine ⟨by simp only [List.length_set]; exact r1, ?_⟩
    intro r hr
    rcases List.mem_or_eq_of_mem_set hr with hr | rfl
    · exact r2 r hr
    · refine ⟨(C39_row_value p sol hs i hi (List.replicate p.nvar 0) (List.replicate p.npar 0) (by simp) (by simp)).1, fun j hj1 hj2 => ?_⟩
      refine (C39_row_zero p sol hs hz i _ (List.getElem?_eq_getElem hi) j).1 hj2 ?_
      rw [(hk.stmt h.inv.sk hst).2.2, List.getD_eq_getElem?_getD,
        List.getElem?_append_right (by simpa using hj1), List.getElem?_replicate, if_pos (by simp at hj1 ⊢; change j < p.nvar at hj2; omega)]
      rfl
  · intro i l hne
    by_cases hi : i < p.stmts.length
    · rw [row_setLevel p level sol i l hi hlen, if_neg (by rintro rfl; exact hne hl)]
      exact h.rows i l hne
    · rw [row_out _ _ _ (by rw [setLevel_len]; exact hi), ← h.rows i l hne, row_out _ _ _ hi]
  · intro hC d hd hr hu l hll
    have hok := hk.dep hpp hd
    have hlen' : pp.stmts.length = p.stmts.length := (sk_len hpp).symm.trans (sk_len h.inv.sk)
    have h1 : d.src < p.stmts.length := hlen' ▸ hok.src
    have h2 : d.dest < p.stmts.length := hlen' ▸ hok.dest
    by_cases e : l = level
    · right
      intro s t q hinst
      have := hv hC d hd hr hu s t q hinst
      have hd1 := hk.dim (p := k) (by rw [← hpp]; simp [skel, skelStmt, skelDep, Function.comp_def]) (i := d.src) (by rw [sk_len h.inv.sk]; exact h1)
      have hd2 := hk.dim (p := k) (by rw [← hpp]; simp [skel, skelStmt, skelDep, Function.comp_def]) (i := d.dest) (by rw [sk_len h.inv.sk]; exact h2)
      have g1 := hinst.hs
      have g2 := hinst.ht
      have g3 := hinst.hp
      rw [hd1, sk_nvar h.inv.sk] at g1
      rw [hd2, sk_nvar h.inv.sk] at g2
      rw [sk_npar h.inv.sk] at g3
      unfold Prog.comp Prog.phi
      rw [row_setLevel p level sol _ l h1 hlen, row_setLevel p level sol _ l h2 hlen, if_pos e, if_pos e,
        (C39_row_value p sol hs _ h1 s q g1 g3).2, (C39_row_value p sol hs _ h2 t q g2 g3).2]
      exact this
    · have e' : ∀ s t q, (Pluto.setLevel p level sol).comp d l s t q = p.comp d l s t q :=
        comp_rows (by rw [row_setLevel p level sol _ l h1 hlen, if_neg e]) (by rw [row_setLevel p level sol _ l h2 hlen, if_neg e])
      simp only [e']
      exact h.comp hC d hd hr hu l hll

theorem swapRows_get {t : List (List Int)} {i j : Nat} (hi : i < t.length) (hj : j < t.length) (hij : i ≠ j) (l : Nat) :
    (swapRows t i j)[l]? = if l = i then t[j]? else if l = j then t[i]? else t[l]? := by
  unfold swapRows
  simp only [List.getElem?_set, List.length_set, List.getD_eq_getElem?_getD, List.getElem?_eq_getElem hi, List.getElem?_eq_getElem hj, Option.getD_some]
  by_cases e1 : l = i
  · subst e1; rw [if_neg (Ne.symm hij)]; simp [hi]
  · by_cases e2 : l = j
    · subst e2; simp [hj, e1]
    · simp [e1, e2, Ne.symm e1, Ne.symm e2]

theorem row_swap {p p' : Prog} {cc : Nat → Int} {c : Int} {l1 l2 : Nat} (h : swapTrans p cc c l1 l2 = some p')
    (hlen : ∀ st ∈ p.stmts, st.trans.length = p.hProps.length) (i l : Nat) :
    p'.row i l = if cc i = c then (if l = l1 then p.row i l2 else if l = l2 then p.row i l1 else p.row i l) else p.row i l := by
  unfold swapTrans at h
  split_ifs at h with hc
  simp only [Option.some.injEq] at h
  rw [← h]
  by_cases hi : i < p.stmts.length
  · have e := hlen _ (List.getElem_mem hi)
    have h1 := (List.getElem?_eq_some_iff.mp hc.2.1).1
    have h2 := (List.getElem?_eq_some_iff.mp hc.2.2).1
    unfold Prog.row
    simp only [List.getElem?_mapIdx, List.getElem?_eq_getElem hi, Option.map_some, Option.bind_some]
    split_ifs with hcc e1 e2
    · simp only
      rw [swapRows_get (by omega) (by omega) (by omega), if_pos e1]
    · simp only
      rw [swapRows_get (by omega) (by omega) (by omega), if_neg e1, if_pos e2]
    · simp only
      rw [swapRows_get (by omega) (by omega) (by omega), if_neg e1, if_neg e2]
    · rfl
  · simp only [row_out p _ _ hi, ite_self]
    exact row_out _ _ _ (by simpa using hi)

theorem SkewInv.swap (hk : SkelOK k) (h : SkewInv k p0 pp C p) (hpp : skel pp = k) {p' : Prog} {cc : Nat → Int} {c : Int} {l1 l2 : Nat}
    (hcc : C → ∀ i < p.stmts.length, cc i = c) (hsw : swapTrans p cc c l1 l2 = some p') : SkewInv k p0 pp C p' := by
  have hrow := row_swap hsw (fun st hst => (h.inv.rows st hst).1)
  unfold swapTrans at hsw
  split_ifs at hsw with hc
  simp only [Option.some.injEq] at hsw
  obtain ⟨hc0, hc1, hc2⟩ := hc
  rw [h.hp] at hc1 hc2
  refine ⟨⟨?_, ?_, nofun⟩, ?_, ?_, ?_⟩
  · rw [← h.inv.sk, ← hsw]
    unfold skel
    simp only [Prog.mk.injEq, true_and, and_true]
    apply List.ext_getElem?
    intro i
    simp only [List.getElem?_map, List.getElem?_mapIdx, Option.map_map]
    cases p.stmts[i]? with
    | none => rfl
    | some st =>
      simp only [Option.map_some, Function.comp]
      split_ifs <;> rfl
  · rw [← hsw]
    intro st' hst'
    obtain ⟨i, hi, rfl⟩ := List.mem_mapIdx.mp hst'
    have hst := List.getElem_mem hi
    obtain ⟨r1, r2⟩ := h.inv.rows _ hst
    split_ifs with e
    · refine ⟨by simpa [swapRows] using r1, ?_⟩
      have b1 := (List.getElem?_eq_some_iff.mp hc1).1
      have b2 := (List.getElem?_eq_some_iff.mp hc2).1
      rw [← h.hp] at b1 b2
      intro r hr
      obtain ⟨l, hl⟩ := List.mem_iff_getElem?.mp hr
      simp only at hl
      rw [swapRows_get (by omega) (by omega) (by omega)] at hl
      split_ifs at hl <;> exact r2 r (List.mem_of_getElem? hl)
    · exact ⟨r1, r2⟩
  · rw [← hsw]; exact h.hp
  · intro i l hl
    rw [hrow]
    have e1 : l ≠ l1 := by rintro rfl; exact hl hc1
    have e2 : l ≠ l2 := by rintro rfl; exact hl hc2
    rw [if_neg e1, if_neg e2, ite_self]
    exact h.rows i l hl
  · intro hC d hd hr hu l hl
    have hok := hk.dep hpp hd
    have hlen' : pp.stmts.length = p.stmts.length := (sk_len hpp).symm.trans (sk_len h.inv.sk)
    have h1 := hcc hC d.src (hlen' ▸ hok.src)
    have h2 := hcc hC d.dest (hlen' ▸ hok.dest)
    have key : ∀ m, p0.hProps[m]? = some .loop → (∀ i, cc i = c → p'.row i l = p.row i m) →
        (∃ l0, p0.hProps[l0]? = some .loop ∧ ∀ s t q, p'.comp d l s t q = p0.comp d l0 s t q) ∨
        (∀ s t q, k.Inst d s t q → 0 ≤ p'.comp d l s t q) := by
      intro m hm he
      have e : ∀ s t q, p'.comp d l s t q = p.comp d m s t q := comp_rows (he _ h1) (he _ h2)
      simp only [e]
      exact h.comp hC d hd hr hu m hm
    by_cases e1 : l = l1
    · exact key l2 hc2 (fun i hi => by rw [hrow, if_pos hi, if_pos e1])
    · by_cases e2 : l = l2
      · exact key l1 hc1 (fun i hi => by rw [hrow, if_pos hi, if_neg e1, if_pos e2])
      · exact key l hl (fun i hi => by rw [hrow, if_pos hi, if_neg e1, if_neg e2])

end

/-! ### The loops -/

theorem dirs_inv {X : Prop} {k p p' : Prog} {isEmpty : Cst → Bool} (hi : Inv X k p) (h : computeDepDirections isEmpty p = some p') :
    Inv X k p' ∧ p'.stmts = p.stmts ∧ p'.hProps = p.hProps ∧
      List.Forall₂ (fun d d' : Dep => d' = { d with dirvec := d'.dirvec }) p.deps p'.deps := by
  obtain ⟨e, hf⟩ := computeDepDirections_spec p p' h
  have hf' : List.Forall₂ (fun d d' : Dep => d' = { d with dirvec := d'.dirvec }) p.deps p'.deps := hf.imp (fun _ _ h => h.1)
  refine ⟨?_, by rw [e], by rw [e], hf'⟩
  have hm : p'.deps.map skelDep = p.deps.map skelDep := by
    clear e hf hi h
    generalize p'.deps = l' at hf'
    generalize p.deps = l at hf'
    induction hf' with
    | nil => rfl
    | cons h _ ih => rw [List.map_cons, List.map_cons, ih, h]; rfl
  refine ⟨?_, by rw [e]; exact hi.rows, ?_⟩
  · rw [← hi.sk, e]
    simp only [skel, hm]
  · intro hX d' hd' hr s t q hinst
    obtain ⟨j, hj, rfl⟩ := List.getElem_of_mem hd'
    have hj0 : j < p.deps.length := by rw [hf'.length_eq]; exact hj
    have hd := (List.forall₂_iff_get.mp hf').2 j hj0 hj
    simp only [List.get_eq_getElem] at hd
    have e2 : ∀ l s t q, p'.comp p'.deps[j] l s t q = p.comp p.deps[j] l s t q := by
      intro l s t q
      rw [hd]
      refine comp_rows (p := p) (d := p.deps[j]) ?_ ?_ s t q <;> exact row_stmts (by rw [e]) _ _
    have e3 : p'.hProps = p.hProps := by rw [e]
    unfold Prog.LexPos Prog.AllNonneg
    simp only [e2, e3]
    rw [hd] at hr hinst
    rw [hd]
    refine hi.legal hX p.deps[j] (List.getElem_mem hj0) hr s t q ?_
    have hdim : ∀ i, p'.dim i = p.dim i := by intro i; rw [e]; rfl
    have hnp : p'.npar = p.npar := by rw [e]
    unfold Prog.Inst at hinst ⊢
    rw [hdim, hdim, hnp] at hinst
    exact hinst

theorem nextSkewLevel_spec (skew : List Bool) (hs : List HypType) : ∀ l n r, nextSkewLevel skew hs l n = some r →
    l ≤ r ∧ hs[r - l]? = some .loop := by
  induction hs with
  | nil => intro l n r h; cases h
  | cons x hs ih =>
    intro l n r h
    have step : ∀ n', nextSkewLevel skew hs (l + 1) n' = some r → l ≤ r ∧ (x :: hs)[r - l]? = some .loop := by
      intro n' h
      obtain ⟨h1, h2⟩ := ih _ _ _ h
      have e : r - l = r - (l + 1) + 1 := by omega
      rw [e, List.getElem?_cons_succ]
      exact ⟨by omega, h2⟩
    unfold nextSkewLevel at h
    split_ifs at h with h1 h2
    · simp only [Option.some.injEq] at h
      subst h
      simp [h1]
    · exact step _ h
    · exact step _ h

section
variable {k p0 pp : Prog} {C : Prop} {o : SearchOpts} {L : Libs} {cc : Nat → Int} {c : Int} {perm : Cst} {kk : Nat}

/-- What happens to a program that satisfies the invariant, or nothing happens. -/
def SkewStep (k p0 pp : Prog) (C : Prop) (s s' : Skew) : Prop :=
  SkewInv k p0 pp C s'.a.p ∧ s'.a.g = s.a.g ∧ (s'.a = s.a ∧ s'.done = s.done ∨ s'.done = true)

theorem Skew.apply_spec (hE : EmptyOracle L.isEmpty) (hk : SkelOK k) (hpp : skel pp = k) {s s' : Skew} {level : Nat} {src : List Bool} {sol : List Int}
    (h : SkewInv k p0 pp C s.a.p) (hl : p0.hProps[level]? = some .loop) (hs : SolLen s.a.p sol) (hz : PadZero s.a.p sol)
    (hv : C → ∀ d ∈ pp.deps, d.rar = false → d.satisfied = false → ∀ x t q, k.Inst d x t q →
      0 ≤ hypValue s.a.p.nvar s.a.p.npar sol d.dest t - hypValue s.a.p.nvar s.a.p.npar sol d.src x)
    (hcc : C → ∀ i < k.stmts.length, cc i = c)
    (ha : s.apply L.isEmpty cc c kk level src sol = some s') : SkewInv k p0 pp C s'.a.p ∧ s'.a.g = s.a.g ∧ s'.done = true := by
  have h1 := h.setLevel hk hl hpp hs hz hv
  have fin : ∀ p1, SkewInv k p0 pp C p1 → (do
      let (p, _) ← depSatUpdate L.isEmpty p1 level
      let p ← computeDepDirections L.isEmpty p
      return ({ s with a := { s.a with p := p }, done := true } : Skew)) = some s' → SkewInv k p0 pp C s'.a.p ∧ s'.a.g = s.a.g ∧ s'.done = true := by
    intro p1 hp1 hh
    rw [Option.bind_eq_bind, Option.bind_eq_some_iff] at hh
    obtain ⟨⟨p2, n⟩, h2, hh⟩ := hh
    simp only [Option.bind_eq_bind] at hh
    obtain ⟨p3, h3, hh⟩ := Option.bind_eq_some_iff.mp hh
    simp only [Option.pure_def, Option.some.injEq] at hh
    have hlev : level < p1.hProps.length := by rw [hp1.hp]; exact (List.getElem?_eq_some_iff.mp hl).1
    obtain ⟨i2, e2, _⟩ := hp1.inv.update hE hk hlev h2
    obtain ⟨i3, s3, q3, _⟩ := dirs_inv i2 h3
    rw [← hh]
    refine ⟨hp1.flags i3 (s3.trans ?_) (q3.trans ?_), rfl, rfl⟩ <;> rw [e2]
  unfold Skew.apply at ha
  simp only at ha
  split_ifs at ha with hpar
  · rw [Option.bind_eq_bind, Option.bind_eq_some_iff] at ha
    obtain ⟨l, _, ha⟩ := ha
    rw [Option.bind_eq_bind, Option.bind_eq_some_iff] at ha
    obtain ⟨p1, hp1, ha⟩ := ha
    refine fin p1 (h1.swap hk hpp ?_ hp1) ha
    intro hC i hi
    refine hcc hC i ?_
    rw [sk_len h1.inv.sk]; exact hi
  · exact fin _ h1 ha

theorem skel_padZero {R : Type*} [CommRing R] {p p' : Prog} (h : skel p = skel p') {sol : List R} (hz : PadZero p sol) : PadZero p' sol := by
  intro i st hst j hj ho
  have e := congrArg (fun q : Prog => q.stmts[i]?) h
  simp only [skel, List.getElem?_map, hst, Option.map_some] at e
  obtain ⟨st0, h0, e0⟩ := Option.map_eq_some_iff.mp e
  have hn : p.nvar = p'.nvar := by have := congrArg Prog.nvar h; exact this
  have hm : p.npar = p'.npar := by have := congrArg Prog.npar h; exact this
  have ei : st0.isOrig = st.isOrig := by have := congrArg Stmt.isOrig e0; exact this
  rw [← hm, ← hn]
  exact hz i st0 h0 j (by rw [hn]; exact hj) (by rw [ei]; exact ho)

theorem skewLevels_spec {lex : Lex} (hE : EmptyOracle L.isEmpty) (hL : LexScales k lex) (hk : SkelOK k) (hpp : skel pp = k)
    {G : Graph} (hG : EdgesOf k G) (hGn : G.n = k.stmts.length) (hGc : C → ∀ i < G.n, ∀ j < G.n, G.Connected i j)
    (hperm : ccPermCst o.nodepbound pp cc c = some perm) (hcc : C → ∀ i < k.stmts.length, cc i = c) (f : Nat) :
    ∀ (level : Nat) (skew src : List Bool) (s s' : Skew), s.a.g = G → SkewInv k p0 pp C s.a.p →
      skewLevels o L lex cc c perm kk f level skew src s = some s' → SkewStep k p0 pp C s s' := by
  induction f with
  | zero =>
    intro level skew src s s' hsg hi h
    simp only [skewLevels, Option.some.injEq] at h
    rw [← h]; exact ⟨hi, rfl, .inl ⟨rfl, rfl⟩⟩
  | succ f ih =>
    intro level skew src s s' hsg hi h
    have same : some s = some s' → SkewStep k p0 pp C s s' := by
      intro h
      simp only [Option.some.injEq] at h
      rw [← h]; exact ⟨hi, rfl, .inl ⟨rfl, rfl⟩⟩
    unfold skewLevels at h
    split_ifs at h
    · exact same h
    · exact ih _ _ _ _ _ hsg hi h
    · split at h
      · exact same h
      · rename_i l hl
        obtain ⟨_, hl⟩ := nextSkewLevel_spec _ _ _ _ _ hl
        rw [Nat.sub_zero, hi.hp] at hl
        rw [Option.bind_eq_bind, Option.bind_eq_some_iff] at h
        obtain ⟨cst, hcst, h⟩ := h
        rw [Option.bind_eq_bind, Option.bind_eq_some_iff] at h
        obtain ⟨r, hr, h⟩ := h
        split at h
        · exact same h
        · rename_i sol
          rw [Option.bind_eq_bind, Option.bind_eq_some_iff] at h
          obtain ⟨s1, hs1, h⟩ := h
          -- the solution
          obtain ⟨q1, q2, q3⟩ := ccPermCst_some hperm
          obtain ⟨⟨x1, E, x2, x3⟩, x4⟩ := skewCst_ext hcst
          have hn : s.a.p.nvar = pp.nvar := (sk_nvar hi.inv.sk).symm.trans (sk_nvar hpp)
          have hm : s.a.p.npar = pp.npar := (sk_npar hi.inv.sk).symm.trans (sk_npar hpp)
          have hlen : s.a.p.stmts.length = pp.stmts.length := (sk_len hi.inv.sk).symm.trans (sk_len hpp)
          obtain ⟨d0, hd0⟩ := List.exists_mem_of_ne_nil _ q2
          have hok0 := hk.dep hpp (List.mem_of_mem_filter hd0)
          have hne : s.a.p.stmts ≠ [] := by
            intro e
            rw [e, List.length_nil] at hlen
            have := hok0.src
            omega
          have hwf : cst.WF := by
            refine ⟨by rw [x1, q1]; unfold cstWidth; omega, ?_⟩
            intro r hr
            rw [x2, q3] at hr
            rcases List.mem_append.mp hr with hr | hr
            · obtain ⟨d, hd, hr⟩ := List.mem_flatMap.mp hr
              have hok := hk.dep hpp (List.mem_of_mem_filter hd)
              have hd2 := depCst_wf o.nodepbound pp d hok.src hok.dest
              rw [hd2.1.2 r hr, hd2.2, x1, q1]
            · rw [x3 r hr, x1]
          obtain ⟨f1, f2, y, g, y1, y2, f3, y4, y5⟩ := hL s.a cst sol (by rw [hsg]; exact hG) (by rw [hsg, hGn]; exact sk_len hi.inv.sk) hne
            (hk.origOK hi.inv.sk) hwf (x4 hne) (by rw [x1, q1, hn, hm, hlen]; rfl) hr
          have hval : C → ∀ d ∈ pp.deps, d.rar = false → d.satisfied = false → ∀ x t q, k.Inst d x t q →
              0 ≤ hypValue s.a.p.nvar s.a.p.npar sol d.dest t - hypValue s.a.p.nvar s.a.p.npar sol d.src x := by
            intro hC d hd hrar hu x t q hinst
            have hok := hk.dep hpp hd
            have hin : d ∈ ccDeps pp cc c := by
              refine List.mem_filter.mpr ⟨hd, ?_⟩
              have c1 := hcc hC d.src (by rw [sk_len hpp]; exact hok.src)
              have c2 := hcc hC d.dest (by rw [sk_len hpp]; exact hok.dest)
              simp [hu, c1, c2]
            rw [hn, hm]
            refine scaled_legal (nodepbound := o.nodepbound) (p := pp) (f := g) (x := y) hok hrar ?_ ?_ (skel_padZero (hi.inv.sk.trans hpp.symm) y2) ?_ ?_ ?_ x t q ?_
            · unfold SolLen at f1 ⊢
              rw [← hn, ← hm, ← hlen]; exact f1
            · unfold SolLen at y1 ⊢
              rw [← hn, ← hm, ← hlen]; exact y1
            · intro r hr
              refine f3 r ?_
              rw [x2, q3]
              exact List.mem_append_left _ (List.mem_flatMap.mpr ⟨d, hin, hr⟩)
            · rw [← hn, ← hm, ← hlen]; exact y4
            · refine y5 _ (by rw [hlen]; exact hok.src) _ (by rw [hlen]; exact hok.dest) ?_
              rw [hsg]
              exact hGc hC _ (by rw [hGn, sk_len hpp]; exact hok.src) _ (by rw [hGn, sk_len hpp]; exact hok.dest)
            · have := hinst
              rw [← hpp] at this
              have h3 : pp.Inst d x t q := by
                unfold Prog.Inst at this ⊢
                have hdim : ∀ i, (skel pp).dim i = pp.dim i := by
                  intro i
                  simp [Prog.dim, skel, skelStmt, Function.comp_def]
                rw [hdim, hdim] at this
                exact this
              rw [hk.inst hpp hd, sk_nvar hpp, sk_npar hpp] at h3
              exact h3
          obtain ⟨j1, j0, j2⟩ := s.apply_spec hE hk hpp hi hl f1 f2 hval hcc hs1
          split_ifs at h
          · simp only [Option.some.injEq] at h
            rw [← h]; exact ⟨j1, j0, .inr j2⟩
          · rw [Option.bind_eq_bind, Option.bind_eq_some_iff] at h
            obtain ⟨⟨skew', tpd⟩, _, h⟩ := h
            simp only at h
            rw [Option.bind_eq_bind, Option.bind_eq_some_iff] at h
            obtain ⟨src', _, h⟩ := h
            obtain ⟨g1, g0, g2⟩ := ih _ _ _ _ _ (by exact j0.trans hsg) (by exact j1) h
            refine ⟨g1, g0.trans j0, .inr ?_⟩
            rcases g2 with ⟨_, g2⟩ | g2
            · exact g2.trans j2
            · exact g2

theorem skewScc_spec {lex : Lex} (hE : EmptyOracle L.isEmpty) (hL : LexScales k lex) (hk : SkelOK k) (hpp : skel pp = k)
    {G : Graph} (hG : EdgesOf k G) (hGn : G.n = k.stmts.length) (hGc : C → ∀ i < G.n, ∀ j < G.n, G.Connected i j)
    {c0 : Int} (hcc : C → ∀ i < k.stmts.length, cc i = c0) {cuts : Nat} {s s' : Skew} (hsg : s.a.g = G) (hi : SkewInv k p0 pp C s.a.p)
    (h : skewScc o L lex cc (fun c => ccPermCst o.nodepbound pp cc c) cuts s kk = some s') : SkewStep k p0 pp C s s' := by
  unfold skewScc at h
  simp only at h
  split at h
  · simp only [Option.some.injEq] at h
    rw [← h]; exact ⟨hi, rfl, .inl ⟨rfl, rfl⟩⟩
  · rename_i perm hperm
    rw [Option.bind_eq_bind, Option.bind_eq_some_iff] at h
    obtain ⟨⟨skew', tpd⟩, _, h⟩ := h
    simp only at h
    rw [Option.bind_eq_bind, Option.bind_eq_some_iff] at h
    obtain ⟨src', _, h⟩ := h
    refine skewLevels_spec (s := { s with tpd := tpd }) hE hL hk hpp hG hGn hGc hperm ?_ _ _ _ _ _ hsg hi h
    intro hC i hi'
    obtain ⟨_, q2, _⟩ := ccPermCst_some hperm
    obtain ⟨d, hd⟩ := List.exists_mem_of_ne_nil _ q2
    have hd' := List.mem_filter.mp hd
    have := (hk.dep hpp hd'.1).src
    have h2 := hd'.2
    simp only [Bool.and_eq_true, decide_eq_true_eq] at h2
    rw [hcc hC i hi', ← h2.1.2, hcc hC d.src (by rw [sk_len hpp]; exact this)]

theorem skewAll_spec {lex : Lex} (hE : EmptyOracle L.isEmpty) (hL : LexScales k lex) (hk : SkelOK k) (hpp : skel pp = k)
    {G : Graph} (hG : EdgesOf k G) (hGn : G.n = k.stmts.length) (hGc : C → ∀ i < G.n, ∀ j < G.n, G.Connected i j)
    {c0 : Int} (hcc : C → ∀ i < k.stmts.length, cc i = c0) {cuts : Nat} (l : List Nat) : ∀ (s s' : Skew), s.a.g = G → SkewInv k p0 pp C s.a.p →
      l.foldlM (skewScc o L lex cc (fun c => ccPermCst o.nodepbound pp cc c) cuts) s = some s' → SkewStep k p0 pp C s s' := by
  induction l with
  | nil =>
    intro s s' hsg hi h
    simp only [List.foldlM_nil, Option.pure_def, Option.some.injEq] at h
    rw [← h]; exact ⟨hi, rfl, .inl ⟨rfl, rfl⟩⟩
  | cons x l ih =>
    intro s s' hsg hi h
    rw [List.foldlM_cons, Option.bind_eq_bind, Option.bind_eq_some_iff] at h
    obtain ⟨s1, h1, h⟩ := h
    obtain ⟨g1, g0, g2⟩ := skewScc_spec hE hL hk hpp hG hGn hGc hcc hsg hi h1
    obtain ⟨g3, g0', g4⟩ := ih s1 s' (g0.trans hsg) g1 h
    refine ⟨g3, g0'.trans g0, ?_⟩
    rcases g4 with ⟨e1, e2⟩ | e
    · rcases g2 with ⟨e3, e4⟩ | e3
      · exact .inl ⟨e1.trans e3, e2.trans e4⟩
      · exact .inr (e2.trans e3)
    · exact .inr e

end

/-- All statements get the number of one connected component. -/
theorem cc_all {g : Graph} {s0 : DfsState} {cc : Nat → Int} {m : Nat} (h : ddgComputeCc g s0 = some (cc, m))
    (hc : ∀ i < g.n, ∀ j < g.n, g.Connected i j) : ∀ i < g.n, cc i = cc 0 := by
  obtain ⟨cc', m', h1, h2⟩ := C16_consecutive_partial g s0 (fun i j k h1 h2 h3 _ => hc i (by omega) j (by omega))
  rw [h, Option.some.injEq, Prod.mk.injEq] at h1
  rw [h1.1]
  intro i hi
  exact (h2 i 0 hi (by omega)).mpr (hc i hi 0 (by omega))

theorem takeWhile_len {α : Type*} (P : α → Bool) (l : List α) : (∀ i < (l.takeWhile P).length, ∀ x, l[i]? = some x → P x = true) ∧
    ∀ x, l[(l.takeWhile P).length]? = some x → P x = false := by
  induction l with
  | nil => simp
  | cons a l ih =>
    by_cases h : P a
    · rw [List.takeWhile_cons_of_pos h]
      refine ⟨?_, fun x hx => ih.2 x (by simpa using hx)⟩
      intro i hi x hx
      cases i with
      | zero => simp at hx; rw [← hx]; exact h
      | succ i => exact ih.1 i (by simpa using hi) x (by simpa using hx)
    · rw [List.takeWhile_cons_of_neg h]
      refine ⟨by simp, ?_⟩
      intro x hx
      simp at hx
      rw [← hx]; simpa using h

/-- Everything about a call. -/
theorem introduceSkew_spec {X : Prop} {k : Prog} {o : SearchOpts} {L : Libs} {lex : Lex} (hE : EmptyOracle L.isEmpty) (hL : LexScales k lex) (hk : SkelOK k)
    {a a' : Auto} {b : Bool} (hi : Inv X k a.p) (hg : a.g.n = a.p.stmts.length) (h : introduceSkew o L lex a = some (a', b)) :
    a'.g.n = a'.p.stmts.length ∧
    (b = false → Inv X k a'.p ∧ a'.p.stmts = a.p.stmts) ∧ Inv False k a'.p ∧ a'.p.hProps = a.p.hProps ∧
    (∀ i l, a.p.hProps[l]? ≠ some .loop → a'.p.row i l = a.p.row i l) ∧
    (∀ n, (∀ l < n, a.p.hProps[l]? ≠ some .loop) → a.p.hProps[n]? = some .loop → AllTied a.p n →
      ∀ d ∈ a.p.deps, d.rar = false → ¬ LeadSat a.p n d → ∀ l, a.p.hProps[l]? = some .loop →
        (∃ l0, a.p.hProps[l0]? = some .loop ∧ ∀ s t q, a'.p.comp d l s t q = a.p.comp d l0 s t q) ∨
        (∀ s t q, a.p.Inst d s t q → 0 ≤ a'.p.comp d l s t q)) := by
  have weak : ∀ {p}, Inv X k p → Inv False k p := fun h => ⟨h.sk, h.rows, nofun⟩
  -- nothing but flags changes
  have keep : ∀ a' : Auto, a'.g.n = a'.p.stmts.length → Inv X k a'.p → a'.p.stmts = a.p.stmts → a'.p.hProps = a.p.hProps → a'.g.n = a'.p.stmts.length ∧
    (b = false → Inv X k a'.p ∧ a'.p.stmts = a.p.stmts) ∧ Inv False k a'.p ∧ a'.p.hProps = a.p.hProps ∧
    (∀ i l, a.p.hProps[l]? ≠ some .loop → a'.p.row i l = a.p.row i l) ∧
    (∀ n, (∀ l < n, a.p.hProps[l]? ≠ some .loop) → a.p.hProps[n]? = some .loop → AllTied a.p n →
      ∀ d ∈ a.p.deps, d.rar = false → ¬ LeadSat a.p n d → ∀ l, a.p.hProps[l]? = some .loop →
        (∃ l0, a.p.hProps[l0]? = some .loop ∧ ∀ s t q, a'.p.comp d l s t q = a.p.comp d l0 s t q) ∨
        (∀ s t q, a.p.Inst d s t q → 0 ≤ a'.p.comp d l s t q)) := by
    intro a' g1 g2 g3 g4
    refine ⟨g1, fun _ => ⟨g2, g3⟩, weak g2, g4, fun i l _ => row_stmts g3 i l, ?_⟩
    intro n _ _ _ d _ _ _ l hl
    exact .inl ⟨l, hl, comp_rows (row_stmts g3 _ _) (row_stmts g3 _ _)⟩
  unfold introduceSkew at h
  split_ifs at h with h0
  · simp only [Option.some.injEq, Prod.mk.injEq] at h
    rw [← h.1]
    exact keep a hg hi rfl rfl
  · simp only [Option.bind_eq_bind] at h
    obtain ⟨p1, h1, h⟩ := Option.bind_eq_some_iff.mp h
    obtain ⟨i1, s1, q1, f1⟩ := dirs_inv hi h1
    have i1' : Inv X k (depSatReset p1) := reset_inv (a := { a with p := p1 }) i1
    obtain ⟨p2, h2, h⟩ := Option.bind_eq_some_iff.mp h
    have hcuts : ((depSatReset p1).hProps.takeWhile (fun h => decide (h ≠ .loop))).length ≤ (depSatReset p1).hProps.length :=
      (List.takeWhile_prefix _).length_le
    obtain ⟨i2, e2⟩ := satUpdates_inv hE hk i1' _ p2 hcuts h2
    obtain ⟨e2', f2⟩ := satUpdates_spec hE p1 (i1.transOK hk) (fun d hd => hk.fits i1.sk hd) _ p2 h2
    have s2 : p2.stmts = a.p.stmts := by rw [e2']; exact s1
    have q2 : p2.hProps = a.p.hProps := by rw [e2']; exact q1
    split_ifs at h with hc
    · simp only [Option.pure_def, Option.some.injEq, Prod.mk.injEq] at h
      rw [← h.1]
      refine keep _ ?_ i2 s2 q2
      show p1.stmts.length = p2.stmts.length
      rw [s1, s2]
    · obtain ⟨bb, h3, h⟩ := Option.bind_eq_some_iff.mp h
      obtain ⟨⟨cc, m⟩, h4, h⟩ := Option.bind_eq_some_iff.mp h
      simp only at h
      obtain ⟨⟨p5, m5⟩, h5, h⟩ := Option.bind_eq_some_iff.mp h
      simp only at h
      obtain ⟨s', h6, h⟩ := Option.bind_eq_some_iff.mp h
      simp only [Option.pure_def, Option.some.injEq, Prod.mk.injEq] at h
      obtain ⟨ha, hb⟩ := h
      have hcl : ((depSatReset p1).hProps.takeWhile (fun h => decide (h ≠ .loop))).length < p2.hProps.length := by
        have : (depSatReset p1).hProps.length = p2.hProps.length := by rw [q2]; exact congrArg List.length q1
        omega
      obtain ⟨i5, e5, _⟩ := i2.update hE hk hcl h5
      have s5 : p5.stmts = a.p.stmts := by rw [e5]; exact s2
      have q5 : p5.hProps = a.p.hProps := by rw [e5]; exact q2
      have hinit : SkewInv k a.p p2 (AllTied a.p ((depSatReset p1).hProps.takeWhile (fun h => decide (h ≠ .loop))).length) p5 := by
        refine ⟨weak i5, q5, fun i l _ => row_stmts s5 i l, ?_⟩
        intro _ d _ _ _ l hl
        exact .inl ⟨l, hl, comp_rows (row_stmts s5 _ _) (row_stmts s5 _ _)⟩
      have hprops : (depSatReset p1).hProps = a.p.hProps := q1
      rw [hprops] at hinit f2 h6
      generalize hcc : (a.p.hProps.takeWhile (fun h => decide (h ≠ .loop))).length = cuts at hinit f2 h6
      -- dependences before and after the updates
      have hdeps : ∀ j (h : j < a.p.deps.length), ∃ h' : j < p2.deps.length,
          (p2.deps[j]).src = a.p.deps[j].src ∧ (p2.deps[j]).dest = a.p.deps[j].dest ∧ (p2.deps[j]).rar = a.p.deps[j].rar ∧
          (p2.deps[j]).dpoly = a.p.deps[j].dpoly ∧ ((p2.deps[j]).satisfied = true ↔ LeadSat a.p cuts a.p.deps[j]) := by
        intro j hj
        have l1 := f1.length_eq
        have l2 := f2.length_eq
        have x1 := (List.forall₂_iff_get.mp f1).2 j hj (by omega)
        have x2 := (List.forall₂_iff_get.mp f2).2 j (by omega) (by omega)
        simp only [List.get_eq_getElem] at x1 x2
        refine ⟨by omega, ?_⟩
        have y := x2.eq
        rw [x1] at y
        refine ⟨by rw [y], by rw [y], by rw [y], by rw [y], ?_⟩
        rw [x2.sat, x1]
        unfold LeadSat
        refine exists_congr fun l => and_congr_right fun _ => ?_
        unfold Sep
        have hdim : ∀ i, p1.dim i = a.p.dim i := by intro i; unfold Prog.dim; rw [s1]
        have hnp : p1.npar = a.p.npar := (sk_npar i1.sk).symm.trans (sk_npar hi.sk)
        have e1 : ∀ s t q, p1.Inst { a.p.deps[j] with dirvec := (p1.deps[j]).dirvec } s t q ↔ a.p.Inst a.p.deps[j] s t q := by
          intro s t q
          unfold Prog.Inst
          rw [hdim, hdim, hnp]
        have e2 : ∀ s t q, p1.comp { a.p.deps[j] with dirvec := (p1.deps[j]).dirvec } l s t q = a.p.comp a.p.deps[j] l s t q :=
          comp_rows (p := a.p) (d := a.p.deps[j]) (row_stmts s1 _ _) (row_stmts s1 _ _)
        simp only [e1, e2]
      have hgn : (ddgUpdate (ddgCreate (depSatReset p1)) p2).n = a.p.stmts.length := by
        show p1.stmts.length = _
        rw [s1]
      have hcon : AllTied a.p cuts → ∀ i < (ddgUpdate (ddgCreate (depSatReset p1)) p2).n, ∀ j < (ddgUpdate (ddgCreate (depSatReset p1)) p2).n,
          (ddgUpdate (ddgCreate (depSatReset p1)) p2).Connected i j := by
        intro hT u hu v hv
        rw [hgn] at hu hv
        refine Relation.ReflTransGen.mono ?_ _ _ (hT u hu v hv)
        rintro x y ⟨d, hd, hr, hs, hxy⟩
        obtain ⟨j, hj, rfl⟩ := List.getElem_of_mem hd
        obtain ⟨hj', z1, z2, z3, z4, z5⟩ := hdeps j hj
        have hmem := List.getElem_mem hj'
        have hun : (p2.deps[j]).satisfied = false := by
          cases e : (p2.deps[j]).satisfied with
          | false => rfl
          | true => exact absurd (z5.mp e) hs
        have hok := hk.dep i2.sk hmem
        have hedge : (ddgUpdate (ddgCreate (depSatReset p1)) p2).Edge (p2.deps[j]).src (p2.deps[j]).dest := by
          refine ⟨by rw [hgn, ← s2]; exact hok.src, by rw [hgn, ← s2]; exact hok.dest, ?_⟩
          show countDeps p2.deps (fun _ _ => 0) _ _ ≠ 0
          rw [countDeps_spec, Nat.zero_add]
          apply Nat.pos_iff_ne_zero.mp
          rw [List.countP_pos_iff]
          exact ⟨_, hmem, by simp [z3, hr, hun]⟩
        rw [z1, z2] at hedge
        rcases hxy with ⟨rfl, rfl⟩ | ⟨rfl, rfl⟩
        · exact .inl hedge
        · exact .inr hedge
      have hone : AllTied a.p cuts → ∀ i < k.stmts.length, cc i = cc 0 := by
        intro hT i hi'
        exact cc_all h4 (hcon hT) i (by rw [hgn, ← sk_len hi.sk]; exact hi')
      obtain ⟨_, hbg, _, _⟩ := scc_facts h3
      obtain ⟨g1, _, g2⟩ := skewAll_spec hE hL hk i2.sk (edges_update i2.sk) (hgn.trans (sk_len hi.sk).symm) hcon hone _ _ _ hbg hinit h6
      have hap : a'.p = s'.a.p := by rw [← ha]
      rw [hap]
      refine ⟨?_, ?_, g1.inv, g1.hp, g1.rows, ?_⟩
      · rw [← ha]
        show a.g.n = _
        rw [hg]
        exact (sk_len hi.sk).symm.trans (sk_len g1.inv.sk)
      · intro hbf
        rcases g2 with ⟨g2, _⟩ | g2
        · rw [g2]
          exact ⟨i5, s5⟩
        · rw [← hb, g2] at hbf
          cases hbf
      · intro n hn1 hn2 hT d hd hr hs l hl
        have hnc : n = cuts := by
          have := takeWhile_len (fun h : HypType => decide (h ≠ .loop)) a.p.hProps
          rw [hcc] at this
          have hcl' : cuts < a.p.hProps.length := by
            rw [hprops, hcc, q2] at hcl; exact hcl
          rcases Nat.lt_trichotomy n cuts with hlt | e | hlt
          · have := this.1 n hlt _ hn2
            simp at this
          · exact e
          · have h1 := this.2 _ (List.getElem?_eq_getElem hcl')
            have h2 := hn1 cuts hlt
            rw [List.getElem?_eq_getElem hcl'] at h2
            simp at h1
            exact absurd (congrArg some h1) h2
        rw [hnc] at hT hs
        obtain ⟨j, hj, rfl⟩ := List.getElem_of_mem hd
        obtain ⟨hj', z1, z2, z3, z4, z5⟩ := hdeps j hj
        have hun : (p2.deps[j]).satisfied = false := by
          cases e : (p2.deps[j]).satisfied with
          | false => rfl
          | true => exact absurd (z5.mp e) hs
        have := g1.comp hT _ (List.getElem_mem hj') (by rw [z3]; exact hr) hun l hl
        have e : ∀ (p : Prog) l s t q, p.comp (p2.deps[j]) l s t q = p.comp a.p.deps[j] l s t q := by
          intro p l s t q
          unfold Prog.comp
          rw [z1, z2]
        simp only [e] at this
        refine this.imp id ?_
        intro hh s t q hinst
        refine hh s t q ?_
        have hdim : ∀ i, k.dim i = a.p.dim i := by
          intro i
          rw [← hi.sk]
          simp [Prog.dim, skel, skelStmt, Function.comp_def]
        unfold Prog.Inst at hinst ⊢
        rw [z1, z2, z4, hdim, hdim, sk_npar hi.sk]
        exact hinst

end Pluto
