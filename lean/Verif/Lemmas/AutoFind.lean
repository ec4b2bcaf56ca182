import Verif.Lemmas.AutoCut
import Verif.Lemmas.LinInd

/-! The hyperplanes found by the search keep the invariant. -/

namespace Pluto

section
variable {X : Prop} {k p : Prog}

theorem perm_wf (rarOpt nodepbound : Bool) (p : Prog)
    (hd : ∀ d ∈ p.deps, d.src < p.stmts.length ∧ d.dest < p.stmts.length) :
    (permutabilityConstraints rarOpt nodepbound p).WF ∧
      (permutabilityConstraints rarOpt nodepbound p).ncols = cstWidth p.nvar p.npar p.stmts.length := by
  have key : ∀ (ds : List Dep) (st : Cst × Nat),
      (∀ d ∈ ds, d.src < p.stmts.length ∧ d.dest < p.stmts.length) → st.1.WF →
      st.1.ncols = cstWidth p.nvar p.npar p.stmts.length →
      (ds.foldl (permStep rarOpt nodepbound p) st).1.WF ∧
        (ds.foldl (permStep rarOpt nodepbound p) st).1.ncols = cstWidth p.nvar p.npar p.stmts.length := by
    intro ds
    induction ds with
    | nil => intro st _ h1 h2; exact ⟨h1, h2⟩
    | cons d ds ih =>
      intro st hd h1 h2
      have h := (permStep_sat rarOpt nodepbound p st d ([] : List Int) h1 h2 (hd d (by simp)).1 (hd d (by simp)).2).1
      exact ih _ (fun d' h' => hd d' (List.mem_cons_of_mem _ h')) h.1 h.2
  unfold permutabilityConstraints
  have := key p.deps (⟨cstWidth p.nvar p.npar p.stmts.length, []⟩, 0) hd
    ⟨by show 1 ≤ cstWidth _ _ _; unfold cstWidth; omega, by simp⟩ rfl
  exact ⟨simplify_wf _ this.1, by rw [simplify_ncols]; exact this.2⟩

/-- A system of width `w`. -/
def Wid (w : Nat) (c : Cst) : Prop := c.ncols = w ∧ ∀ r ∈ c.rows, r.val.length = w

theorem Wid.wf {w : Nat} {c : Cst} (h : Wid w c) (hw : 1 ≤ w) : c.WF :=
  ⟨by rw [h.1]; exact hw, fun r hr => by rw [h.1]; exact h.2 r hr⟩

theorem Wid.add {w : Nat} {c1 c2 : Cst} (h1 : Wid w c1) (h2 : Wid w c2) : Wid w (addCst c1 c2) := by
  refine ⟨h1.1, fun r hr => ?_⟩
  rcases List.mem_append.mp hr with h | h
  · exact h1.2 r h
  · exact h2.2 r h

theorem unitRow_len (n v : Nat) (a c : Int) : (unitRow n v a c).length = n := by simp [unitRow]

theorem coeffBound_wid (o : SearchOpts) (p : Prog) :
    Wid (cstWidth p.nvar p.npar p.stmts.length) (coeffBoundConstraints o p) := by
  set w := cstWidth p.nvar p.npar p.stmts.length
  have lb : ∀ (l : List Nat) (c : Cst), Wid w c → Wid w (l.foldl (fun c i => addLb c i 0) c) := by
    intro l
    induction l with
    | nil => intro c h; exact h
    | cons i l ih =>
      intro c h
      refine ih _ ⟨h.1, fun r hr => ?_⟩
      rcases List.mem_append.mp hr with h' | h'
      · exact h.2 r h'
      · rw [List.mem_singleton] at h'
        rw [h']
        show (unitRow _ _ _ _).length = w
        rw [unitRow_len, h.1]
  have ub : ∀ (b : Int) (l : List Nat) (c : Cst), Wid w c → Wid w (l.foldl (fun c i => addUb c i b) c) := by
    intro b l
    induction l with
    | nil => intro c h; exact h
    | cons i l ih =>
      intro c h
      refine ih _ ⟨h.1, fun r hr => ?_⟩
      rcases List.mem_append.mp hr with h' | h'
      · exact h.2 r h'
      · rw [List.mem_singleton] at h'
        rw [h']
        show (unitRow _ _ _ _).length = w
        rw [unitRow_len, h.1]
  have h0 : Wid w ⟨w, []⟩ := ⟨rfl, by simp⟩
  unfold coeffBoundConstraints
  simp only
  split_ifs
  · exact ub _ _ _ (lb _ _ h0)
  · exact ub _ _ _ (lb _ _ h0)
  · exact lb _ _ h0

theorem setOnes_length (p : Prog) (i : Nat) (st : Stmt) (row : List Int) :
    (setOnes p i st row).length = row.length := by
  unfold setOnes
  generalize List.range p.nvar = l
  induction l generalizing row with
  | nil => rfl
  | cons j l ih =>
    rw [List.foldl_cons, ih]
    split <;> simp

theorem nonTrivial_wid (p : Prog) (eager : Bool) :
    Wid (cstWidth p.nvar p.npar p.stmts.length) (nonTrivialConstraints p eager) := by
  unfold nonTrivialConstraints
  simp only
  split_ifs
  · refine ⟨rfl, fun r hr => ?_⟩
    obtain ⟨is, _, rfl⟩ := List.mem_map.mp hr
    simp [setOnes_length, zrow]
  · refine ⟨rfl, fun r hr => ?_⟩
    rw [List.mem_singleton] at hr
    rw [hr]
    have : ∀ (l : List (Nat × Stmt)) (row : List Int),
        (l.foldl (fun row is => (setOnes p is.1 is.2 row).set (cstWidth p.nvar p.npar p.stmts.length - 1) (-1))
          row).length = row.length := by
      intro l
      induction l with
      | nil => intro row; rfl
      | cons a l ih => intro row; rw [List.foldl_cons, ih]; simp [setOnes_length]
    simp only [this]
    simp [zrow]

theorem orthRow_len (p : Prog) (i : Nat) (hi : i < p.stmts.length) (st : Stmt)
    (ho : st.isOrig.length = p.nvar) (v : List Int) (c : Int) :
    (orthRow p i st v c).length = cstWidth p.nvar p.npar p.stmts.length := by
  unfold orthRow
  simp only
  have hb := stmtOffset_bound p.nvar p.npar p.stmts.length i hi
  rw [List.length_set, writeSlice_length]
  · simp [zrow]
  · rw [spreadMask_length]
    simp [zrow]
    omega

theorem sum_len (w : Nat) (rows : List (List Int)) (hr : ∀ r ∈ rows, r.length = w) :
    ((rows.foldl (fun s r => List.zipWith (fun a b => a + b) s r) (zrow w)).set (w - 1) (-1)).length = w := by
  rw [List.length_set]
  exact (sumRows_spec w rows hr (zrow w) (by simp [zrow]) [] 0).1

theorem stmtLinInd_len (o : SearchOpts) (L : Libs) (p : Prog) (i : Nat) (hi : i < p.stmts.length) (st : Stmt)
    (ho : st.isOrig.length = p.nvar) (curr : Cst) :
    ∀ r ∈ stmtLinInd o L p i st curr, r.length = cstWidth p.nvar p.npar p.stmts.length := by
  intro r hr
  unfold stmtLinInd at hr
  simp only at hr
  split_ifs at hr with h1 h2
  · cases hr
  · cases hr
  · have hrows : ∀ r ∈ (List.map normalizeCol (L.kernel ((st.isOrig.take p.nvar).countP id) (loopRows p st))).map
        (fun v => if o.flic = false ∧ L.isEmpty (addCst ⟨cstWidth p.nvar p.npar p.stmts.length,
            [⟨false, orthRow p i st v (-1)⟩]⟩ curr) = true then
          (orthRow p i st v 0).map (fun a => -a) else orthRow p i st v 0),
        r.length = cstWidth p.nvar p.npar p.stmts.length := by
      intro r hr
      obtain ⟨v, _, rfl⟩ := List.mem_map.mp hr
      split_ifs
      · rw [List.length_map, orthRow_len p i hi st ho]
      · exact orthRow_len p i hi st ho _ _
    rcases List.mem_append.mp hr with h | h
    · exact hrows r h
    · rw [List.mem_singleton] at h
      rw [h]
      exact sum_len _ _ hrows

theorem linearInd_wid (o : SearchOpts) (L : Libs) (p : Prog) (ho : p.OrigOK) (curr : Cst) (eager : Bool) :
    Wid (cstWidth p.nvar p.npar p.stmts.length) (linearIndConstraints o L p curr eager) := by
  have hl : ∀ r ∈ (p.stmts.mapIdx (fun i st => stmtLinInd o L p i st curr)).filterMap List.getLast?,
      r.length = cstWidth p.nvar p.npar p.stmts.length := by
    intro r hr
    obtain ⟨l, hl, he⟩ := List.mem_filterMap.mp hr
    obtain ⟨i, hi, rfl⟩ := List.mem_mapIdx.mp hl
    exact stmtLinInd_len o L p i hi _ (ho _ (List.getElem_mem hi)).1 curr r (List.mem_of_getLast? he)
  unfold linearIndConstraints
  simp only
  split_ifs
  · exact ⟨rfl, by simp⟩
  · refine ⟨rfl, fun r hr => ?_⟩
    obtain ⟨r', h', rfl⟩ := List.mem_map.mp hr
    exact hl r' h'
  · refine ⟨rfl, fun r hr => ?_⟩
    rw [List.mem_singleton] at hr
    rw [hr]
    exact sum_len _ _ hl

/-- With any solver that returns points of the system, the result of the ILP wrapper is a point of
the system that vanishes on padding columns. -/
theorem progLexmin_feasible (dfp : Bool) (solve : Cst → Option (List Int)) (hs : FeasibleOracle solve)
    (p : Prog) (ho : p.OrigOK) (cst : Cst) (hw : cst.WF) (hne : cst.rows ≠ []) (sol : List Int)
    (h : progLexmin dfp solve p cst = some (some sol)) : SolLen p sol ∧ PadZero p sol ∧ cst.Sat sol := by
  have hc : cst.ncols = cstWidth p.nvar p.npar p.stmts.length := by
    by_contra hc
    unfold progLexmin at h
    rw [if_pos hc] at h
    cases h
  have hcount := keepCols_count ho
  have hwf := inner_WF dfp ho cst hw hne hc
  have hcols : (innerCst dfp p cst).ncols = (keepCols p).countP id + 1 := by simp [innerCst, hne]
  rw [progLexmin_eq dfp solve cst hc, Option.some.injEq] at h
  obtain ⟨x, hx, rfl⟩ := Option.map_eq_some_iff.mp h
  obtain ⟨hxl, hxs⟩ := hs _ hwf x hx
  rw [hcols] at hxl
  have hxl' : x.length = (keepCols p).countP id := by omega
  rw [permute_eq _ _ (by omega)]
  refine ⟨?_, (padZero_iff ho _).mpr (fun j hj => spread_zero _ _ _ hj),
    (sat_inner dfp ho cst hw hc x hxl').mp hxs⟩
  show _ = _
  rw [spreadMask_length, keepCols_length]

theorem addHyperplane_appended (p : Prog) (sol : List Int) :
    Appended p (addHyperplane p sol) (hyperplaneRow p.nvar p.npar sol) := by
  refine ⟨?_, rfl, by simp [addHyperplane], ?_⟩
  · unfold skel addHyperplane
    simp only [Prog.mk.injEq, true_and, and_true]
    apply List.ext_getElem?
    intro i
    simp only [List.getElem?_map, List.getElem?_mapIdx, Option.map_map]
    rfl
  · intro i
    simp only [addHyperplane, List.getElem?_mapIdx, Option.map_map]
    rfl

theorem solLen_appended {p' : Prog} {f : Nat → List Int} (h : Appended p p' f) (sol : List Int) :
    SolLen p' sol ↔ SolLen p sol := by
  unfold SolLen
  rw [h.npar, h.len, h.nvar]

/-- Legal rows for the dependences not satisfied in `p`. -/
def LegalBase (p : Prog) (base : Cst) : Prop :=
  ∀ sol : List Int, SolLen p sol → PadZero p sol → base.Sat sol →
    ∀ d ∈ p.deps, d.rar = false → d.satisfied = false → ∀ s t q, p.Inst d s t q →
      aff (hyperplaneRow p.nvar p.npar sol d.src) (s ++ q) ≤ aff (hyperplaneRow p.nvar p.npar sol d.dest) (t ++ q)

theorem padZero_appended {p' : Prog} {f : Nat → List Int} (h : Appended p p' f) (sol : List Int) :
    PadZero p' sol ↔ PadZero p sol := by
  have hst : ∀ i : Nat, p'.stmts[i]?.map (·.isOrig) = p.stmts[i]?.map (·.isOrig) := by
    intro i
    have := congrArg (fun p : Prog => p.stmts[i]?.map (·.isOrig)) h.sk
    simp only [skel, List.getElem?_map, Option.map_map] at this
    exact this
  unfold PadZero
  rw [h.npar, h.nvar]
  constructor
  · intro hz i st hs k hk ho
    have := hst i
    rw [hs, Option.map_some] at this
    obtain ⟨st', h1, h2⟩ := Option.map_eq_some_iff.mp this
    exact hz i st' h1 k hk (by rw [h2]; exact ho)
  · intro hz i st hs k hk ho
    have := hst i
    rw [hs, Option.map_some] at this
    obtain ⟨st', h1, h2⟩ := Option.map_eq_some_iff.mp this.symm
    exact hz i st' h1 k hk (by rw [h2]; exact ho)

theorem findLoop_spec (o : SearchOpts) (L : Libs) (hL : FeasibleOracle L.solve) (hk : SkelOK k) (base : Cst)
    (eager : Bool) (n : Nat) : ∀ (p p' : Prog) (m : Nat), Inv X k p →
    Wid (cstWidth p.nvar p.npar p.stmts.length) base → LegalBase p base →
    findLoop o L base eager n p = some (p', m) →
    Inv X k p' ∧ p'.deps = p.deps ∧ p'.hProps.length = p.hProps.length + m ∧
      (X → ∀ m0 ≤ p.hProps.length, Early p m0 → Early p' m0) := by
  induction n with
  | zero =>
    intro p p' m hi _ _ h
    simp only [findLoop, Option.some.injEq, Prod.mk.injEq] at h
    rw [← h.1, ← h.2]
    exact ⟨hi, rfl, rfl, fun _ _ _ h => h⟩
  | succ n ih =>
    intro p p' m hi hwid hleg h
    have stop : some (p, 0) = some (p', m) → Inv X k p' ∧ p'.deps = p.deps ∧ p'.hProps.length = p.hProps.length + m ∧
        (X → ∀ m0 ≤ p.hProps.length, Early p m0 → Early p' m0) := by
      intro h
      simp only [Option.some.injEq, Prod.mk.injEq] at h
      rw [← h.1, ← h.2]
      exact ⟨hi, rfl, rfl, fun _ _ _ h => h⟩
    have ho := hk.origOK hi.sk
    simp only [findLoop] at h
    split_ifs at h with hr
    · exact stop h
    · rw [Option.bind_eq_bind, Option.bind_eq_some_iff] at h
      obtain ⟨r, h1, h⟩ := h
      cases r with
      | none => exact stop h
      | some sol =>
        simp only [Option.bind_eq_bind, Option.bind_eq_some_iff] at h
        obtain ⟨⟨p1, m1⟩, h2, h⟩ := h
        simp only [Option.pure_def, Option.some.injEq, Prod.mk.injEq] at h
        have hall := (hwid.add (nonTrivial_wid p eager)).add (linearInd_wid o L p ho
          (addCst base (nonTrivialConstraints p eager)) eager)
        have hw1 : 1 ≤ cstWidth p.nvar p.npar p.stmts.length := by unfold cstWidth; omega
        obtain ⟨f1, f2, f3⟩ := progLexmin_feasible o.dfp L.solve hL p ho _ (hall.wf hw1)
          (fun hn => hr (List.append_eq_nil_iff.mp hn).2) sol h1
        have hap := addHyperplane_appended p sol
        have hbase : base.Sat sol := fun r hr => f3 r (by simp [addCst, hr])
        have hi' : Inv X k (addHyperplane p sol) := by
          refine hi.append hk hap ?_ ?_
          · intro i st hs
            have hlt := (List.getElem?_eq_some_iff.mp hs).1
            refine ⟨(C39_row_value p sol f1 i hlt (List.replicate p.nvar 0) (List.replicate p.npar 0)
              (by simp) (by simp)).1, fun j hj1 hj2 => ?_⟩
            refine (C39_row_zero p sol f1 f2 i st hs j).1 hj2 ?_
            rw [(hk.stmt hi.sk (List.mem_of_getElem? hs)).2.2, List.getD_eq_getElem?_getD,
              List.getElem?_append_right (by simpa using hj1), List.getElem?_replicate, if_pos (by simp; omega)]
            rfl
          · exact fun _ => hleg sol f1 f2 hbase
        have hleg' : LegalBase (addHyperplane p sol) base := by
          intro sol' g1 g2 g3 d hd hr hs s t q hinst
          exact hleg sol' ((solLen_appended hap sol').mp g1) ((padZero_appended hap sol').mp g2) g3 d hd hr hs s t q
            ((hap.inst d s t q).mp hinst)
        obtain ⟨e1, e2, e3, e4⟩ := ih (addHyperplane p sol) p1 m1 hi'
          (by rw [hap.len, hap.nvar, hap.npar]; exact hwid) hleg' h2
        rw [← h.1, ← h.2]
        refine ⟨e1, e2, ?_, fun hX m0 hm0 he => e4 hX m0 (by rw [hap.hlen]; omega) ?_⟩
        · rw [e3, hap.hlen]
          omega
        · exact he.append hk hi hap hm0 (hleg sol f1 f2 hbase)

theorem findPermutable_spec (o : SearchOpts) (L : Libs) (hL : FeasibleOracle L.solve) (hk : SkelOK k)
    (eager : Bool) (n : Nat) (p' : Prog) (m : Nat) (hi : Inv X k p)
    (h : findPermutable o L eager n p = some (p', m)) :
    Inv X k p' ∧ p'.deps = p.deps ∧ p'.hProps.length = p.hProps.length + m ∧ (X → Early p' p.hProps.length) := by
  unfold findPermutable at h
  split_ifs at h
  · simp only [Option.some.injEq, Prod.mk.injEq] at h
    rw [← h.1, ← h.2]
    exact ⟨hi, rfl, rfl, fun hX => hi.early hX⟩
  · have hperm := perm_wf o.rar o.nodepbound p (fun d hd => ⟨(hk.dep hi.sk hd).src, (hk.dep hi.sk hd).dest⟩)
    have key : Inv X k p' ∧ p'.deps = p.deps ∧ p'.hProps.length = p.hProps.length + m ∧
        (X → ∀ m0 ≤ p.hProps.length, Early p m0 → Early p' m0) := by
      refine findLoop_spec o L hL hk _ eager n p p' m hi (Wid.add ⟨hperm.2, ?_⟩ (coeffBound_wid o p)) ?_ h
      · intro r hr
        rw [← hperm.2]
        exact hperm.1.2 r hr
      · intro sol h1 h2 h3 d hd hr hs s t q hinst
        rw [hk.inst hi.sk hd, sk_nvar hi.sk, sk_npar hi.sk] at hinst
        exact C39_added_rows_legal o.rar o.nodepbound p sol (fun d hd => hk.dep hi.sk hd) h1 h2
          (fun r hr => h3 r (by simp [addCst, hr])) d hd hr hs s t q hinst
    exact ⟨key.1, key.2.1, key.2.2.1, fun hX => key.2.2.2 hX _ (Nat.le_refl _) (hi.early hX)⟩

end

end Pluto
