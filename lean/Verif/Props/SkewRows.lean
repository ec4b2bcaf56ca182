import Verif.Props.Skew
import Verif.Spec.Skew
import Verif.Lemmas.CoeffBounds

/-! C57, continued: the constraints on the rows of a skewed level, their types, and programs with fewer than two levels. -/

namespace Pluto

theorem addLb_sat1 (c : Cst) (v : Nat) (b : Int) (x : List Int) (hx : x.length + 1 = c.ncols) (hv : v + 1 < c.ncols) :
    (addLb c v b).Sat x ↔ c.Sat x ∧ b ≤ x.getD v 0 := by
  have := (addLb_fold [v] b c x hx (by simpa using hv)).2
  simpa using this

theorem setVar_sat1 (c : Cst) (v : Nat) (b : Int) (x : List Int) (hx : x.length + 1 = c.ncols) (hv : v + 1 < c.ncols) :
    (setVar c v b).Sat x ↔ c.Sat x ∧ x.getD v 0 = b := by
  unfold setVar Cst.Sat
  simp only [List.mem_append, List.mem_singleton, or_imp, forall_and, forall_eq]
  rw [Row.Sat]
  simp only [if_true]
  rw [aff_unitRow _ _ _ _ _ hv hx]
  constructor
  · rintro ⟨a, b⟩; exact ⟨a, by omega⟩
  · rintro ⟨a, b⟩; exact ⟨a, by omega⟩

theorem fold_sat {β : Type*} {f : Cst → β → Cst} {P : β → Prop} {n : Nat} {x : List Int} (l : List β)
    (hn : ∀ c b, (f c b).ncols = c.ncols) (hf : ∀ c, c.ncols = n → ∀ b ∈ l, ((f c b).Sat x ↔ c.Sat x ∧ P b)) :
    ∀ c, c.ncols = n → ((l.foldl f c).Sat x ↔ c.Sat x ∧ ∀ b ∈ l, P b) := by
  induction l with
  | nil => simp
  | cons b l ih =>
    intro c hc
    rw [List.foldl_cons, ih (fun c hc b hb => hf c hc b (by simp [hb])) _ ((hn c b).trans hc), hf c hc b (by simp)]
    simp [and_assoc]

theorem outer_ge (skew : List Bool) (nvar d : Nat) (hd : d ≤ nvar) :
    (skew.findIdx? id).getD nvar ≥ d ↔ ∀ n < d, skew.getD n false = false := by
  cases h : skew.findIdx? id with
  | none =>
    simp only [Option.getD_none, ge_iff_le, hd, true_iff]
    intro n _
    rw [List.findIdx?_eq_none_iff] at h
    rw [List.getD_eq_getElem?_getD]
    cases e : skew[n]? with
    | none => rfl
    | some b => simpa using h b (List.mem_of_getElem? e)
  | some m =>
    simp only [Option.getD_some, ge_iff_le]
    rw [List.findIdx?_eq_some_iff_getElem] at h
    obtain ⟨hm, h1, h2⟩ := h
    constructor
    · intro hdm n hn
      have := h2 n (by omega)
      rw [List.getD_eq_getElem?_getD, List.getElem?_eq_getElem (by omega)]
      simpa using this
    · intro hall
      by_contra hlt
      have := hall m (by omega)
      rw [List.getD_eq_getElem?_getD, List.getElem?_eq_getElem hm] at this
      simp only [id] at h1
      simp [h1] at this

theorem skewStmtCst_sat {a : Auto} {src skew : List Bool} {k level : Nat} {c c' : Cst} {st : Stmt} {i : Nat}
    (hd : st.dimOrig ≤ a.p.nvar)
    (h : skewStmtCst a src ((skew.findIdx? id).getD a.p.nvar) k level c (st, i) = some c') (x : List Int) (hx : x.length + 1 = c.ncols)
    (hw : stmtOffset a.p.nvar a.p.npar i + a.p.nvar + 1 < c.ncols) :
    c'.ncols = c.ncols ∧ (c'.Sat x ↔ c.Sat x ∧ 0 ≤ x.getD (stmtOffset a.p.nvar a.p.npar i + a.p.nvar) 0 ∧
      SkewCoeffs (a.scc i = (k : Int)) src skew st (st.trans.getD level []) (fun j => x.getD (stmtOffset a.p.nvar a.p.npar i + j) 0)) := by
  refine ⟨(skewStmtCst_ext h).1.1, ?_⟩
  unfold skewStmtCst at h
  simp only at h
  unfold SkewCoeffs
  split_ifs at h with hc <;> rw [outer_ge _ _ _ hd] at hc
  · simp only [Option.some.injEq] at h
    rw [← h, addLb_sat1 _ _ _ _ (by rw [(CstExt.fold (fun c b => .addLb c _ _) _ c).1]; exact hx)
      (by rw [(CstExt.fold (fun c b => .addLb c _ _) _ c).1]; omega)]
    rw [fold_sat (f := fun c j => addLb c (stmtOffset a.p.nvar a.p.npar i + j) 0) (P := fun j => 0 ≤ x.getD (stmtOffset a.p.nvar a.p.npar i + j) 0) (n := c.ncols) _ (fun _ _ => rfl) (fun c1 h1 j hj => addLb_sat1 _ _ _ _ (by omega)
      (by have := List.mem_range.mp hj; omega)) _ rfl]
    have hc' : a.scc i = (k : Int) ∧ ∀ n < st.dimOrig, skew.getD n false = false := ⟨hc.2, hc.1⟩
    simp only [List.mem_range, hc'.1, not_true, false_and, or_false, true_and]
    constructor
    · rintro ⟨⟨h1, h2⟩, h3⟩; exact ⟨h1, h3, Or.inl ⟨hc.1, h2⟩⟩
    · rintro ⟨h1, h3, ⟨_, h2⟩ | ⟨h2, _⟩⟩
      · exact ⟨⟨h1, h2⟩, h3⟩
      · exact absurd hc.1 h2
  · rw [Option.bind_eq_bind, Option.bind_eq_some_iff] at h
    obtain ⟨row, hrow, h⟩ := h
    simp only [Option.pure_def, Option.some.injEq] at h
    have hn : ∀ (c : Cst) (j : Nat), (if src.getD j false = true ∧ a.scc i = (k : Int) then addLb c (stmtOffset a.p.nvar a.p.npar i + j) 1
      else setVar c (stmtOffset a.p.nvar a.p.npar i + j) (coef row j)).ncols = c.ncols := by
      intro c j; split_ifs <;> rfl
    have hn' : ∀ (l : List Nat) (c : Cst), (l.foldl (fun c j => if src.getD j false = true ∧ a.scc i = (k : Int) then addLb c (stmtOffset a.p.nvar a.p.npar i + j) 1
      else setVar c (stmtOffset a.p.nvar a.p.npar i + j) (coef row j)) c).ncols = c.ncols := by
      intro l
      induction l with
      | nil => intro c; rfl
      | cons j l ih => intro c; rw [List.foldl_cons, ih, hn]
    rw [← h, addLb_sat1 _ _ _ _ (by rw [hn']; exact hx) (by rw [hn']; omega)]
    rw [fold_sat (P := fun j => if src.getD j false = true ∧ a.scc i = (k : Int) then 1 ≤ x.getD (stmtOffset a.p.nvar a.p.npar i + j) 0
      else x.getD (stmtOffset a.p.nvar a.p.npar i + j) 0 = coef row j) (n := c.ncols) _ hn (fun c1 h1 j hj => by
        have := List.mem_range.mp hj
        split_ifs
        · exact addLb_sat1 _ _ _ _ (by omega) (by omega)
        · exact setVar_sat1 _ _ _ _ (by omega) (by omega)) _ rfl]
    rw [show st.trans.getD level [] = row by rw [List.getD_eq_getElem?_getD, hrow, Option.getD_some]]
    simp only [List.mem_range]
    constructor
    · rintro ⟨⟨h1, h2⟩, h3⟩; exact ⟨h1, h3, Or.inr ⟨fun e => hc ⟨e.2, e.1⟩, h2⟩⟩
    · rintro ⟨h1, h3, ⟨h4, h5, _⟩ | ⟨_, h2⟩⟩
      · exact absurd ⟨h5, h4⟩ hc
      · exact ⟨⟨h1, h2⟩, h3⟩

/-- C57. `get_skewing_constraints` adds exactly these demands to the given ones: shifts are non-negative; loops of
statements outside component `k` keep their coefficients; in component `k` the loops that satisfy the offending dependences
(`src`) get a coefficient of at least 1 and others keep theirs, unless the statement has no loop to be skewed. -/
theorem C57_constraints (a : Auto) (src skew : List Bool) (k level : Nat) (c c' : Cst) (hd : ∀ st ∈ a.p.stmts, st.dimOrig ≤ a.p.nvar)
    (hc : c.ncols = cstWidth a.p.nvar a.p.npar a.p.stmts.length) (h : skewCst a src skew k level c = some c') (x : List Int)
    (hx : x.length + 1 = c.ncols) :
    c'.Sat x ↔ c.Sat x ∧ ∀ i st, a.p.stmts[i]? = some st → 0 ≤ x.getD (stmtOffset a.p.nvar a.p.npar i + a.p.nvar) 0 ∧
      SkewCoeffs (a.scc i = (k : Int)) src skew st (st.trans.getD level []) (fun j => x.getD (stmtOffset a.p.nvar a.p.npar i + j) 0) := by
  unfold skewCst at h
  simp only at h
  have key : ∀ (l : List (Stmt × Nat)), (∀ y ∈ l, y.1.dimOrig ≤ a.p.nvar ∧ y.2 < a.p.stmts.length) → ∀ c : Cst,
      c.ncols = cstWidth a.p.nvar a.p.npar a.p.stmts.length → x.length + 1 = c.ncols →
      l.foldlM (skewStmtCst a src ((skew.findIdx? id).getD a.p.nvar) k level) c = some c' →
      (c'.Sat x ↔ c.Sat x ∧ ∀ y ∈ l, 0 ≤ x.getD (stmtOffset a.p.nvar a.p.npar y.2 + a.p.nvar) 0 ∧
        SkewCoeffs (a.scc y.2 = (k : Int)) src skew y.1 (y.1.trans.getD level []) (fun j => x.getD (stmtOffset a.p.nvar a.p.npar y.2 + j) 0)) := by
    intro l
    induction l with
    | nil =>
      intro _ c _ _ h
      simp only [List.foldlM_nil, Option.pure_def, Option.some.injEq] at h
      simp [h]
    | cons y l ih =>
      intro hl c hc hx h
      rw [List.foldlM_cons, Option.bind_eq_bind, Option.bind_eq_some_iff] at h
      obtain ⟨c1, h1, h⟩ := h
      obtain ⟨hy1, hy2⟩ := hl y (by simp)
      have hw : stmtOffset a.p.nvar a.p.npar y.2 + a.p.nvar + 1 < c.ncols := by
        rw [hc]
        have : (y.2 + 1) * (a.p.nvar + 1) ≤ a.p.stmts.length * (a.p.nvar + 1) := Nat.mul_le_mul_right _ (by omega)
        simp only [stmtOffset, cstWidth]
        rw [Nat.add_mul] at this
        omega
      obtain ⟨e1, e2⟩ := skewStmtCst_sat hy1 h1 x hx hw
      rw [ih (fun y hy => hl y (by simp [hy])) c1 (e1.trans hc) (by rw [e1]; exact hx) h, e2]
      simp only [List.mem_cons, forall_eq_or_imp, and_assoc]
  rw [key _ (fun y hy => by
    have := List.mk_mem_zipIdx_iff_getElem?.mp (show (y.1, y.2) ∈ _ from hy)
    exact ⟨hd _ (List.mem_of_getElem? this), (List.getElem?_eq_some_iff.mp this).1⟩) c hc hx h]
  refine and_congr_right fun _ => ⟨fun g i st hi => g (st, i) (List.mk_mem_zipIdx_iff_getElem?.mpr hi), fun g y hy => g y.2 y.1 (List.mk_mem_zipIdx_iff_getElem?.mp hy)⟩

/-- C57. The rows that are set at a level are marked as scalar or loop according to their coefficients, and nothing else
of the statements is changed. -/
theorem C57_set_types (p : Prog) (level : Nat) (sol : List Int) (i : Nat) (st : Stmt) (h : (setLevel p level sol).stmts[i]? = some st)
    (hl : level < st.trans.length) (ht : level < st.hypTypes.length) :
    st.trans[level]? = some (hyperplaneRow p.nvar p.npar sol i) ∧
    (st.hypTypes[level]? = some .scalar ↔ ∀ v ∈ (hyperplaneRow p.nvar p.npar sol i).take st.dim, v = 0) ∧
    (st.hypTypes[level]? = some .scalar ∨ st.hypTypes[level]? = some .loop) ∧
    ∃ st0, p.stmts[i]? = some st0 ∧ (∀ l, l ≠ level → st.hypTypes[l]? = st0.hypTypes[l]? ∧ st.trans[l]? = st0.trans[l]?) ∧
      st.dim = st0.dim ∧ st.dimOrig = st0.dimOrig ∧ st.domain = st0.domain := by
  simp only [setLevel, List.getElem?_mapIdx, Option.map_eq_some_iff] at h
  obtain ⟨st0, h0, rfl⟩ := h
  simp only [List.length_set] at hl ht ⊢
  refine ⟨by simp [hl], ?_, ?_, st0, h0, ?_, rfl, rfl, rfl⟩
  · rw [List.getElem?_set_self ht]
    split_ifs with hc <;> simp [List.all_eq_true] at hc ⊢ <;> simpa using hc
  · rw [List.getElem?_set_self ht]
    split_ifs <;> simp
  · intro l hl
    simp [List.getElem?_set, Ne.symm hl]

/-- C57. With fewer than two levels nothing is done. -/
theorem C57_single (o : SearchOpts) (L : Libs) (lex : Lex) (a : Auto) (h : a.p.hProps.length ≤ 1) : introduceSkew o L lex a = some (a, false) := by
  unfold introduceSkew
  simp [h]

/-- A case of these: the first two statements of `exSkew`, loop 0 of the component of the first one to be added to loop 1. -/
example : ∃ c', skewCst { skewAuto exSkew with scc := fun i => i } [true, false] [false, true] 0 1 ⟨11, []⟩ = some c' ∧
    c'.Sat [(0 : Int), 1, 1, 0, 0, 1, 0, 0, 1, 7] ∧ ¬ c'.Sat [(0 : Int), 0, 1, 0, 0, 1, 0, 0, 1, 7] := by
  refine ⟨_, rfl, ?_, ?_⟩ <;> decide

example : ((setLevel exSkew 1 [0, 1, 1, 0, 0, 0, 0, 0, 1, 0]).stmts.map (·.hypTypes)) =
    [[.loop, .loop, .scalar], [.loop, .scalar, .scalar], [.loop, .loop, .scalar]] := by decide

example : introduceSkew ⟨true, true, false, true, -1⟩ skewLibs (lexIlp ⟨true, true, false, true, -1⟩ skewLibs) (skewAuto { exSkew with hProps := [.loop] }) =
    some (skewAuto { exSkew with hProps := [.loop] }, false) := C57_single _ _ _ _ (by decide)

end Pluto
