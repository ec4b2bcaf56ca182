import Verif.Lemmas.PrecutRun

/-! Reading of the custom fusion structure files. -/

namespace Pluto

/-! ### `.fst` -/

theorem readComps_text (nst : Nat) (comps : List (List Nat × Int)) : ∀ (rest : List Int) (l : List (List Nat)),
    readComps nst comps.length (comps.flatMap (fun c => (c.1.length : Int) :: (c.1.map (fun i : Nat => (i : Int)) ++ [c.2])) ++ rest) = some l →
    l = comps.map Prod.fst := by
  induction comps with
  | nil =>
    intro rest l h
    simp only [List.length_nil, readComps, Option.some.injEq] at h
    rw [← h]; rfl
  | cons c comps ih =>
    intro rest l h
    rw [List.length_cons, List.flatMap_cons, List.append_assoc, List.cons_append] at h
    unfold readComps at h
    split_ifs at h with h1 h2
    simp only [Int.toNat_natCast] at h
    rw [List.append_assoc] at h
    have e1 : (c.1.map (fun i : Nat => (i : Int)) ++ ([c.2] ++ (comps.flatMap (fun c => (c.1.length : Int) ::
        (c.1.map (fun i : Nat => (i : Int)) ++ [c.2])) ++ rest))).take c.1.length = c.1.map (fun i : Nat => (i : Int)) := by
      rw [List.take_append_of_le_length (by simp)]
      exact List.take_of_length_le (by simp)
    have e2 : (c.1.map (fun i : Nat => (i : Int)) ++ ([c.2] ++ (comps.flatMap (fun c => (c.1.length : Int) ::
        (c.1.map (fun i : Nat => (i : Int)) ++ [c.2])) ++ rest))).drop (c.1.length + 1) = comps.flatMap (fun c => (c.1.length : Int) ::
        (c.1.map (fun i : Nat => (i : Int)) ++ [c.2])) ++ rest := by
      rw [← List.append_assoc]
      exact List.drop_left' (by simp)
    rw [e1, e2] at h
    split_ifs at h with h3
    simp only [Option.bind_eq_bind, Option.bind_eq_some_iff, Option.pure_def, Option.some.injEq] at h
    obtain ⟨l', h4, rfl⟩ := h
    rw [ih rest l' h4]
    simp [Function.comp_def]

theorem compConst_notin (i : Nat) (l : List (List Nat)) : ∀ (c : Nat) (v : Int), (∀ ids ∈ l, i ∉ ids) → compConst i l c v = v := by
  induction l with
  | nil => intro c v _; rfl
  | cons ids l ih =>
    intro c v h
    unfold compConst
    rw [if_neg (h ids (by simp)), ih _ _ (fun x hx => h x (by simp [hx]))]

theorem compConst_in (i : Nat) (l : List (List Nat)) : ∀ (c k : Nat) (v : Int) (ids : List Nat), l[k]? = some ids → i ∈ ids →
    (∀ (k' : Nat) ids', l[k']? = some ids' → i ∈ ids' → k' = k) → compConst i l c v = (c : Int) + (k : Int) := by
  induction l with
  | nil => intro c k v ids h; simp at h
  | cons x l ih =>
    intro c k v ids h hm hu
    unfold compConst
    cases k with
    | zero =>
      simp only [List.getElem?_cons_zero, Option.some.injEq] at h
      subst h
      rw [if_pos hm, compConst_notin]
      · simp
      · intro ids' h1 h2
        obtain ⟨j, hj, rfl⟩ := List.getElem_of_mem h1
        have := hu (j + 1) _ (by simp [List.getElem?_eq_getElem hj]) h2
        omega
    | succ k =>
      rw [List.getElem?_cons_succ] at h
      rw [ih (c + 1) k _ ids h hm (fun k' ids' h1 h2 => by
        have := hu (k' + 1) ids' (by rw [List.getElem?_cons_succ]; exact h1) h2
        omega)]
      push_cast
      omega

theorem compConst_partition {n : Nat} {comps : List (List Nat × Int)} (hP : Partition n comps) {i c : Nat} (h : InComp comps i c) :
    compConst i (comps.map Prod.fst) 0 0 = (c : Int) := by
  obtain ⟨x, h1, h2⟩ := h
  rw [compConst_in i _ 0 c 0 x.1 (by simp [h1]) h2]
  · simp
  · intro k' ids' h3 h4
    simp only [List.getElem?_map] at h3
    obtain ⟨y, h5, rfl⟩ := Option.map_eq_some_iff.mp h3
    exact hP.one i k' c ⟨y, h5, h4⟩ ⟨x, h1, h2⟩

/-- The rows that a `.fst` file comes to. -/
def fstRows (p0 : Prog) (comps : List (List Nat)) (i : Nat) : List (List Int) :=
  [zrow (p0.nvar + p0.npar) ++ [compConst i comps 0 0]]

theorem fst_given {isEmpty : Cst → Bool} {p0 : Prog} {a a' : Auto} {f : List Int} (hpad : PadRel p0 (fun _ => p0.nvar) a.p)
    (hf : Fresh (fun _ => p0.nvar) a.p) (h0 : a.p.hProps = []) (h : precutFst isEmpty a f = some (some a')) :
    ∃ n g comps, f = n :: g ∧ readComps p0.stmts.length n.toNat g = some comps ∧ ∃ p4, Given a.p p4 1 (fstRows p0 comps) ∧
      updateLevels isEmpty { a with p := p4 } 0 1 = some a' := by
  cases f with
  | nil => simp [precutFst] at h
  | cons n g =>
    unfold precutFst at h
    dsimp only at h
    split_ifs at h with hn
    · simp at h
    · simp only [Option.bind_eq_bind, Option.bind_eq_some_iff, Option.pure_def, Option.some.injEq] at h
      obtain ⟨comps, h1, ⟨p, c⟩, h2, h3⟩ := h
      refine ⟨n, g, comps, rfl, by rw [← hpad.len]; exact h1, addScalarRows a.p (fun i => [compConst i comps 0 0]), ?_, ?_⟩
      · have hap := scalar_appended (p := a.p) (fun i => [compConst i comps 0 0]) (fun i => compConst i comps 0 0) (fun _ _ => rfl)
        refine ⟨hap.sk, rfl, by rw [hap.hlen, h0]; rfl, ?_, fun _ _ => rfl⟩
        intro i st hs
        unfold addScalarRows at hs
        simp only [List.getElem?_mapIdx] at hs
        obtain ⟨st0, h4, rfl⟩ := Option.map_eq_some_iff.mp hs
        simp only [(hf.trans st0 (List.mem_of_getElem? h4)).1, List.nil_append, List.map_cons, List.map_nil, fstRows]
        rw [hpad.nvar, hpad.npar]
      · have hl : (addScalarRows a.p (fun i => [compConst i comps 0 0])).hProps.length - 1 = 0 := by
          simp [addScalarRows, h0]
        rw [hl] at h2
        simp only [updateLevels, Option.bind_eq_bind, Option.bind_eq_some_iff]
        exact ⟨(p, c), h2, by rw [← h3]⟩

theorem fstRows_fit (p0 : Prog) (comps : List (List Nat)) : RowsFit p0 (fstRows p0 comps) := by
  intro i _ r hr
  simp only [fstRows, List.mem_singleton] at hr
  subst hr
  exact ⟨by simp [zrow], fun j _ hj => coef_append_zrow _ _ _ (by omega)⟩

theorem fstRows_time {p0 : Prog} (hp : p0.InputOK) (comps : List (List Nat)) {i : Nat} (hi : i < p0.stmts.length) {x q : List Int}
    (hx : x.length = p0.dim i) (hq : q.length = p0.npar) :
    rowTime p0 (fstRows p0 comps) i x q = [compConst i comps 0 0] := by
  simp only [rowTime, fstRows, List.map_cons, List.map_nil, List.cons.injEq, and_true]
  have hd : p0.dim i ≤ p0.nvar := by
    have := (hp.stmts _ (List.getElem_mem hi)).2.1
    rw [← Prog.dim_of (List.getElem?_eq_getElem hi)] at this
    exact this
  have e : cutRow (p0.dim i) p0.nvar (zrow (p0.nvar + p0.npar) ++ [compConst i comps 0 0]) =
      zrow (p0.dim i + p0.npar) ++ [compConst i comps 0 0] := by
    unfold cutRow zrow
    rw [List.take_append_of_le_length (by simp; omega), List.take_replicate, List.drop_append_of_le_length (by simp), List.drop_replicate,
      ← List.append_assoc, List.replicate_append_replicate]
    congr 2
    omega
  rw [e, aff_scalar _ _ (by rw [List.length_append, hx, hq])]

/-! ### `.precut` -/

/-- A row of the file as a schedule row with `k` padding loops; the parameters are dropped. -/
def convRow (k npar : Nat) (r : CutRow) : List Int := r.loops ++ zrow k ++ zrow npar ++ [r.const]

theorem readCutLoops_text (k : Nat) (rest : List Int) : ∀ (loops : List Int),
    readCutLoops (List.replicate loops.length true ++ List.replicate k false) (loops ++ rest) = some (loops ++ zrow k, rest) := by
  intro loops
  induction loops with
  | nil =>
    simp only [List.length_nil, List.replicate_zero, List.nil_append]
    induction k with
    | zero => rfl
    | succ k ih => simp only [List.replicate_succ, readCutLoops, ih, zrow]; rfl
  | cons v l ih => simp only [List.length_cons, List.replicate_succ, List.cons_append, readCutLoops, ih]; rfl

theorem readCutRows_text (npar n k : Nat) (rest : List Int) (rows : List CutRow) :
    (∀ r ∈ rows, r.loops.length = n ∧ r.params.length = npar) →
    readCutRows npar n (List.replicate n true ++ List.replicate k false) ((1 + n + npar + 1 : Nat) : Int) rows.length
      (rows.flatMap CutRow.text ++ rest) = some (rows.map (convRow k npar), rest) := by
  induction rows with
  | nil => intro _; rfl
  | cons r rows ih =>
    intro h
    obtain ⟨h1, h2⟩ := h r (by simp)
    have hih := ih (fun r hr => h r (by simp [hr]))
    rw [List.length_cons, List.flatMap_cons, List.append_assoc]
    unfold CutRow.text
    rw [List.cons_append]
    unfold readCutRows
    rw [if_neg (by push_cast; omega), if_neg (by simp)]
    have e : r.loops ++ r.params ++ [r.const] ++ (rows.flatMap CutRow.text ++ rest) =
        r.loops ++ (r.params ++ (r.const :: (rows.flatMap CutRow.text ++ rest))) := by simp
    have e' : (List.flatMap (fun r : CutRow => 0 :: (r.loops ++ r.params ++ [r.const])) rows) = rows.flatMap CutRow.text := rfl
    rw [e', e]
    have hl := readCutLoops_text k (r.params ++ (r.const :: (rows.flatMap CutRow.text ++ rest))) r.loops
    rw [h1] at hl
    rw [hl]
    simp only [Option.bind_eq_bind, Option.bind_some]
    rw [if_neg (by simp [h2]), List.drop_left' h2]
    simp only [hih, Option.bind_some]
    rfl

theorem readCutStmt_text (npar nvar depth : Nat) (rest : List Int) (a b : Stmt) (s : CutStmt) (h1 : b.dimOrig = a.dim)
    (h2 : b.isOrig = List.replicate a.dim true ++ List.replicate (nvar - a.dim) false) (h3 : s.tiles.length = depth)
    (h4 : ∀ r ∈ s.rows, r.loops.length = a.dim ∧ r.params.length = npar) :
    readCutStmt npar depth b (s.text a.dim npar ++ rest) = some (s.rows.map (convRow (nvar - a.dim) npar), rest) := by
  unfold CutStmt.text
  rw [List.cons_append, List.cons_append]
  unfold readCutStmt
  dsimp only
  rw [h1, h2, Int.toNat_natCast, List.append_assoc, readCutRows_text npar a.dim (nvar - a.dim) _ s.rows h4]
  simp only [Option.bind_eq_bind, Option.bind_some, Int.toNat_natCast]
  rw [if_neg (by simp [h3]; omega), List.cons_append, Nat.add_comm 1 depth, List.drop_succ_cons, List.drop_left' h3]
  rfl

theorem readCutStmts_text (npar nvar depth : Nat) (rest : List Int) : ∀ (sts0 sts : List Stmt) (l : List CutStmt),
    List.Forall₂ (fun a b : Stmt => b.dimOrig = a.dim ∧ b.isOrig = List.replicate a.dim true ++ List.replicate (nvar - a.dim) false) sts0 sts →
    List.Forall₂ (fun (a : Stmt) (s : CutStmt) => s.tiles.length = depth ∧
      ∀ r ∈ s.rows, r.loops.length = a.dim ∧ r.params.length = npar) sts0 l →
    readCutStmts npar depth sts ((List.zipWith (fun (st : Stmt) s => CutStmt.text st.dim npar s) sts0 l).flatten ++ rest) =
      some (List.zipWith (fun (st : Stmt) (s : CutStmt) => s.rows.map (convRow (nvar - st.dim) npar)) sts0 l) := by
  intro sts0 sts l h1
  induction h1 generalizing l with
  | nil =>
    intro h2
    cases h2
    rfl
  | @cons a b sts0 sts hab _ ih =>
    intro h2
    cases h2 with
    | @cons _ s _ l hs h2 =>
      simp only [List.zipWith_cons_cons, List.flatten_cons, readCutStmts, List.append_assoc]
      rw [readCutStmt_text npar nvar depth _ a b s hab.1 hab.2 hs.1 hs.2]
      simp only [Option.bind_eq_bind, Option.bind_some]
      rw [ih l h2]
      rfl

theorem mapM_len {α β : Type*} {f : α → Option β} : ∀ (l : List α) (l' : List β), l.mapM f = some l' → l'.length = l.length := by
  intro l
  induction l with
  | nil => intro l' h; simp at h; simp [h]
  | cons a l ih =>
    intro l' h
    simp only [List.mapM_cons, Option.bind_eq_bind, Option.bind_eq_some_iff, Option.pure_def, Option.some.injEq] at h
    obtain ⟨b, _, l1, h2, rfl⟩ := h
    simp [ih _ h2]

/-- The rows that a `.precut` file comes to. -/
def cutRowsOf (p0 : Prog) (l : List CutStmt) (i : Nat) : List (List Int) :=
  ((l[i]?.map CutStmt.rows).getD []).map (convRow (p0.nvar - p0.dim i) p0.npar)

theorem precut_given {isEmpty : Cst → Bool} {p0 : Prog} (hp : p0.InputOK) {a a' : Auto} {depth m : Nat} {l : List CutStmt} {rest : List Int}
    (hne : p0.stmts ≠ []) (hl : CutFits p0 depth m l) (hpad : PadRel p0 (fun _ => p0.nvar) a.p)
    (hf : Fresh (fun _ => p0.nvar) a.p) (h0 : a.p.hProps = [])
    (h : precutRows isEmpty a (precutText p0 depth l ++ rest) = some a') :
    ∃ p4, Given a.p p4 m (cutRowsOf p0 l) ∧ updateLevels isEmpty { a with p := p4 } 0 m = some a' := by
  have hlen := hpad.len
  unfold precutText at h
  rw [List.cons_append, List.cons_append] at h
  unfold precutRows at h
  dsimp only at h
  rw [if_neg (by rw [hl.len, ← hlen]; simp)] at h
  have r1 : List.Forall₂ (fun a b : Stmt => b.dimOrig = a.dim ∧
      b.isOrig = List.replicate a.dim true ++ List.replicate (p0.nvar - a.dim) false) p0.stmts a.p.stmts := by
    rw [List.forall₂_iff_get]
    refine ⟨hlen.symm, fun i i1 i2 => ?_⟩
    obtain ⟨st, g1, g2⟩ := hpad.get (List.getElem?_eq_getElem i1)
    rw [List.getElem?_eq_getElem i2, Option.some.injEq] at g1
    simp only [List.get_eq_getElem]
    rw [g1]
    exact ⟨by rw [g2.orig, ← (hp.stmts _ (List.getElem_mem i1)).1], g2.isOrig⟩
  have r2 : List.Forall₂ (fun (a : Stmt) (s : CutStmt) => s.tiles.length = depth ∧
      ∀ r ∈ s.rows, r.loops.length = a.dim ∧ r.params.length = p0.npar) p0.stmts l := by
    rw [List.forall₂_iff_get]
    refine ⟨hl.len.symm, fun i i1 i2 => ⟨(hl.rows _ (List.get_mem _ _)).2, ?_⟩⟩
    have := hl.cols i _ (List.getElem?_eq_getElem i2)
    rw [Prog.dim_of (List.getElem?_eq_getElem i1)] at this
    exact this
  rw [hpad.npar, readCutStmts_text p0.npar p0.nvar depth rest _ _ _ r1 r2] at h
  simp only [Option.bind_eq_bind, Option.bind_some] at h
  generalize hrss : List.zipWith (fun (st : Stmt) (s : CutStmt) => s.rows.map (convRow (p0.nvar - st.dim) p0.npar)) p0.stmts l = rss at h
  have hrl : rss.length = p0.stmts.length := by rw [← hrss]; simp [hl.len]
  have hrm : ∀ rs ∈ rss, rs.length = m := by
    intro rs hrs
    rw [← hrss] at hrs
    obtain ⟨i, hi, rfl⟩ := List.getElem_of_mem hrs
    rw [List.getElem_zipWith, List.length_map]
    exact (hl.rows _ (List.getElem_mem _)).1
  have hri : ∀ i < p0.stmts.length, rss[i]? = some (cutRowsOf p0 l i) := by
    intro i hi
    rw [← hrss, List.getElem?_zipWith, List.getElem?_eq_getElem hi, List.getElem?_eq_getElem (by rw [hl.len]; exact hi)]
    simp only [cutRowsOf]
    rw [Prog.dim_of (List.getElem?_eq_getElem hi), List.getElem?_eq_getElem (by rw [hl.len]; exact hi)]
    rfl
  have hrne : rss ≠ [] := by
    intro hc
    rw [hc] at hrl
    exact hne (List.eq_nil_of_length_eq_zero hrl.symm)
  have hlast : (rss.getLast?.map List.length).getD 0 = m := by
    rw [List.getLast?_eq_some_getLast hrne, Option.map_some, Option.getD_some]
    exact hrm _ (List.getLast_mem hrne)
  have htr : ∀ (i : Nat) st, (List.zipWith addFileRows a.p.stmts rss)[i]? = some st → st.trans = cutRowsOf p0 l i := by
    intro i st hs
    have hi : i < p0.stmts.length := by
      have := (List.getElem?_eq_some_iff.mp hs).1
      rw [List.length_zipWith] at this
      omega
    have hia : i < a.p.stmts.length := by rw [hlen]; exact hi
    rw [List.getElem?_zipWith, List.getElem?_eq_getElem hia, hri i hi, Option.some.injEq] at hs
    rw [← hs]
    simp [addFileRows, (hf.trans _ (List.getElem_mem hia)).1]
  have hclen : ∀ i < p0.stmts.length, (cutRowsOf p0 l i).length = m := fun i hi => hrm _ (List.mem_of_getElem? (hri i hi))
  have hhead : ((List.zipWith addFileRows a.p.stmts rss).head?.map (fun st : Stmt => st.trans.length)).getD 0 = m := by
    have h0' : 0 < p0.stmts.length := List.length_pos_iff.mpr hne
    rw [List.head?_eq_getElem?]
    cases hs : (List.zipWith addFileRows a.p.stmts rss)[0]? with
    | none =>
      rw [List.getElem?_eq_none_iff, List.length_zipWith] at hs
      omega
    | some st =>
      rw [Option.map_some, Option.getD_some, htr 0 st hs]
      exact hclen 0 h0'
  rw [hlast, hhead, if_neg (by omega), Option.bind_eq_some_iff] at h
  obtain ⟨ts, ht, h⟩ := h
  refine ⟨{ a.p with stmts := List.zipWith addFileRows a.p.stmts rss, hProps := a.p.hProps ++ ts }, ⟨?_, rfl, ?_, htr, ?_⟩, ?_⟩
  · unfold skel
    simp only [Prog.mk.injEq, true_and, and_true]
    apply List.ext_getElem?
    intro i
    simp only [List.getElem?_map, List.getElem?_zipWith]
    by_cases hi : i < p0.stmts.length
    · rw [hri i hi, List.getElem?_eq_getElem (by rw [hlen]; exact hi)]
      rfl
    · rw [List.getElem?_eq_none (by rw [hlen]; omega)]
  · simp [h0, mapM_len _ _ ht]
  · intro i hi
    exact hclen i (by rw [← hlen]; exact hi)
  · rw [h0, ← hpad.npar] at h
    rw [h0]
    exact h

theorem cutRows_fit {p0 : Prog} (hp : p0.InputOK) {depth m : Nat} {l : List CutStmt} (hl : CutFits p0 depth m l) : RowsFit p0 (cutRowsOf p0 l) := by
  intro i hi r hr
  have hil : i < l.length := by rw [hl.len]; exact hi
  have hd : p0.dim i ≤ p0.nvar := by
    have := (hp.stmts _ (List.getElem_mem hi)).2.1
    rw [← Prog.dim_of (List.getElem?_eq_getElem hi)] at this
    exact this
  unfold cutRowsOf at hr
  rw [List.getElem?_eq_getElem hil, Option.map_some, Option.getD_some] at hr
  obtain ⟨c, hc, rfl⟩ := List.mem_map.mp hr
  obtain ⟨c1, c2⟩ := hl.cols i _ (List.getElem?_eq_getElem hil) c hc
  refine ⟨?_, ?_⟩
  · simp only [convRow, List.length_append, zrow, List.length_replicate, c1, List.length_cons, List.length_nil]
    omega
  · intro j hj1 hj2
    unfold convRow coef zrow
    rw [List.append_assoc, List.append_assoc, List.getD_eq_getElem?_getD, List.getElem?_append_right (by omega), List.getElem?_append_left (by simp; omega),
      List.getElem?_replicate]
    split_ifs <;> rfl

theorem cutRows_time {p0 : Prog} {depth m : Nat} {l : List CutStmt} (hp : p0.InputOK) (hl : CutFits p0 depth m l)
    (hpar : ∀ s ∈ l, ∀ r ∈ s.rows, ∀ v ∈ r.params, v = 0) {i : Nat} (hi : i < p0.stmts.length) (x q : List Int) :
    rowTime p0 (cutRowsOf p0 l) i x q = fileTime l i x q := by
  have hil : i < l.length := by rw [hl.len]; exact hi
  have hd : p0.dim i ≤ p0.nvar := by
    have := (hp.stmts _ (List.getElem_mem hi)).2.1
    rw [← Prog.dim_of (List.getElem?_eq_getElem hi)] at this
    exact this
  unfold rowTime fileTime cutRowsOf
  rw [List.getElem?_eq_getElem hil, Option.map_some, Option.getD_some, List.map_map]
  apply List.map_congr_left
  intro c hc
  obtain ⟨c1, c2⟩ := hl.cols i _ (List.getElem?_eq_getElem hil) c hc
  have hz : c.params = zrow p0.npar := by
    rw [← c2]
    exact List.eq_replicate_of_mem (hpar _ (List.getElem_mem hil) c hc)
  simp only [Function.comp, CutRow.value]
  congr 1
  unfold convRow cutRow
  rw [hz, List.append_assoc, List.append_assoc, List.append_assoc]
  rw [List.take_left' c1, ← List.append_assoc c.loops, List.drop_left' (by simp [zrow, c1]; omega)]

end Pluto
