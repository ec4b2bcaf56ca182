import Verif.Props.PrecutExamples
import Verif.Props.OneToOne

/-! C72: the types of the rows from a `.precut` file, and the files that are read to the end. -/

namespace Pluto

theorem loopType_iff (r : List Int) : (loopType r = .loop ↔ ∃ c ∈ r.dropLast, 0 < c) ∧ (loopType r = .loop ∨ loopType r = .scalar) := by
  unfold loopType
  by_cases h : r.dropLast.any (fun c => decide (c > 0)) = true
  · rw [if_pos h]
    exact ⟨⟨fun _ => by simpa using h, fun _ => rfl⟩, .inl rfl⟩
  · rw [if_neg h]
    exact ⟨⟨fun hc => (by cases hc), fun ⟨c, h1, h2⟩ => absurd (List.any_eq_true.mpr ⟨c, h1, by simpa using h2⟩) h⟩, .inr rfl⟩

theorem updateLevels_hProps {isEmpty : Cst → Bool} (n : Nat) : ∀ (a a' : Auto) (l : Nat), updateLevels isEmpty a l n = some a' →
    a'.p.hProps = a.p.hProps := by
  induction n with
  | zero => intro a a' l h; simp only [updateLevels, Option.some.injEq] at h; rw [h]
  | succ n ih =>
    intro a a' l h
    simp only [updateLevels, Option.bind_eq_bind, Option.bind_eq_some_iff] at h
    obtain ⟨⟨p, c⟩, h1, h2⟩ := h
    rw [ih _ _ _ h2]
    unfold depSatUpdate at h1
    obtain ⟨ds, _, h1⟩ := Option.bind_eq_some_iff.mp h1
    cases h1
    rfl

theorem readCutStmts_length (npar : Nat) (depth : Int) : ∀ (l : List Stmt) (f : List Int) (rss : List (List (List Int))),
    readCutStmts npar depth l f = some rss → rss.length = l.length := by
  intro l
  induction l with
  | nil => intro f rss h1; simp only [readCutStmts, Option.some.injEq] at h1; rw [← h1]; rfl
  | cons st l ih =>
    intro f rss h1
    simp only [readCutStmts, Option.bind_eq_bind, Option.bind_eq_some_iff] at h1
    obtain ⟨⟨rs, g⟩, _, rss', g2, g3⟩ := h1
    cases g3
    simp [ih _ _ g2]

/-- C72: the rows added from a `.precut` file, whatever is in it. The rows of a statement that were there stay; a new row is a loop of
the statement if it has a positive coefficient for an iterator or a parameter, otherwise a scalar dimension. If all statements had no
rows and got the same number of rows, the type of a hyperplane of the program is the type of the last statement. Partial:
it should be every nonzero coefficient, and every statement (`C72_violated_type`). -/
theorem C72_types_partial (isEmpty : Cst → Bool) (f : List Int) (a : Auto) (r : Option Auto) (h : precut isEmpty ⟨none, some f⟩ a = some r) :
    ∃ a', r = some a' ∧ a'.p.stmts.length = a.p.stmts.length ∧
      (∀ (i : Nat) st st', a.p.stmts[i]? = some st → a'.p.stmts[i]? = some st' → ∃ rs : List (List Int), st'.trans = st.trans ++ rs ∧
        ∃ ts : List HypType, st'.hypTypes = st.hypTypes ++ ts ∧ ts.length = rs.length ∧
          ∀ (k : Nat) row ty, rs[k]? = some row → ts[k]? = some ty → (ty = .loop ∨ ty = .scalar) ∧ (ty = .loop ↔ ∃ c ∈ row.dropLast, 0 < c)) ∧
      ((∀ st ∈ a.p.stmts, st.trans = [] ∧ st.hypTypes = []) → a.p.hProps = [] →
        (∃ m, ∀ st ∈ a'.p.stmts, st.trans.length = m) → ∀ st, a'.p.stmts.getLast? = some st → a'.p.hProps = st.hypTypes) := by
  unfold precut at h
  dsimp only at h
  obtain ⟨a', h', rfl⟩ := Option.map_eq_some_iff.mp h
  refine ⟨a', rfl, ?_⟩
  clear h
  rename' h' => h
  match f, h with
  | n :: depth :: f, h =>
    unfold precutRows at h
    dsimp only at h
    by_cases hn : n ≠ a.p.stmts.length
    · rw [if_pos hn] at h; cases h
    rw [if_neg hn] at h
    obtain ⟨rss, h1, h⟩ := Option.bind_eq_some_iff.mp h
    by_cases hr : ((List.zipWith addFileRows a.p.stmts rss).head?.map (fun st : Stmt => st.trans.length)).getD 0 < (rss.getLast?.map List.length).getD 0
    · rw [if_pos hr] at h; cases h
    rw [if_neg hr] at h
    obtain ⟨ts, h2, h⟩ := Option.bind_eq_some_iff.mp h
    have hs := updateLevels_stmts _ _ _ _ h
    have hh := updateLevels_hProps _ _ _ _ h
    dsimp only at hs hh
    have hlen : rss.length = a.p.stmts.length := readCutStmts_length _ _ _ _ _ h1
    refine ⟨by rw [hs, List.length_zipWith, hlen, Nat.min_self], ?_, ?_⟩
    · intro i st st' g1 g2
      rw [hs, List.getElem?_zipWith, g1] at g2
      cases g3 : rss[i]? with
      | none => rw [g3] at g2; cases g2
      | some rs =>
        rw [g3] at g2
        cases g2
        refine ⟨rs, rfl, rs.map loopType, rfl, by simp, fun k row ty e1 e2 => ?_⟩
        rw [List.getElem?_map, e1] at e2
        cases e2
        exact ⟨(loopType_iff row).2, (loopType_iff row).1⟩
    · intro hf h0 ⟨m, hm⟩ st hlast
      rw [hs] at hm hlast
      have hi : ∀ st' ∈ List.zipWith addFileRows a.p.stmts rss, st'.hypTypes = st'.trans.map loopType := by
        intro st' hst'
        obtain ⟨i, hi, rfl⟩ := List.getElem_of_mem hst'
        rw [List.getElem_zipWith]
        have := hf _ (List.getElem_mem (l := a.p.stmts) (n := i) (by rw [List.length_zipWith] at hi; omega))
        simp [addFileRows, this.1, this.2]
      have hmem := List.mem_of_getLast? hlast
      have hst : ∃ rs, rss.getLast? = some rs ∧ st.trans = rs := by
        rw [List.getLast?_eq_getElem?, List.getElem?_zipWith, List.length_zipWith, hlen, Nat.min_self] at hlast
        cases g1 : a.p.stmts[a.p.stmts.length - 1]? with
        | none => rw [g1] at hlast; cases hlast
        | some st0 =>
          cases g2 : rss[a.p.stmts.length - 1]? with
          | none => rw [g1, g2] at hlast; cases hlast
          | some rs =>
            rw [g1, g2] at hlast
            cases hlast
            refine ⟨rs, by rw [List.getLast?_eq_getElem?, hlen]; exact g2, ?_⟩
            simp [addFileRows, (hf _ (List.mem_of_getElem? g1)).1]
      obtain ⟨rs, e1, rfl⟩ := hst
      have hrow : (rss.getLast?.map List.length).getD 0 = m := by rw [e1]; exact hm _ hmem
      have hhead : ((List.zipWith addFileRows a.p.stmts rss).head?.map (fun st : Stmt => st.trans.length)).getD 0 = m := by
        cases g : (List.zipWith addFileRows a.p.stmts rss).head? with
        | none => rw [List.head?_eq_none_iff] at g; rw [g] at hmem; cases hmem
        | some st0 => exact hm _ (List.mem_of_head? g)
      rw [hrow, hhead] at h2
      obtain ⟨k1, k2⟩ := mapM_entries _ _ _ h2
      rw [hh, h0, List.nil_append, hi _ hmem]
      apply List.ext_getElem?
      intro k
      rw [List.length_range] at k1
      by_cases hk : k < m
      · obtain ⟨b, g1, g2⟩ := k2 k k (List.getElem?_range hk)
        rw [g1]
        unfold fileHypType at g2
        obtain ⟨l, g3, g4⟩ := Option.bind_eq_some_iff.mp g2
        obtain ⟨k3, k4⟩ := mapM_entries _ _ _ g3
        rw [List.getLast?_eq_getElem?] at hlast
        obtain ⟨b', g5, g6⟩ := k4 _ _ hlast
        rw [List.getLast?_eq_getElem?, k3, g5] at g4
        cases g4
        rw [show m - m + k = k by omega] at g6
        rw [List.getElem?_map]
        exact g6.symm
      · rw [List.getElem?_eq_none (by omega), List.getElem?_eq_none (by rw [List.length_map, hm _ hmem]; omega)]

example : (precut (fun _ => true) ⟨none, some (precutText (exFreeLoops 1) 0 [⟨[⟨[2], [0], 5⟩, ⟨[0], [0], 5⟩], 7, []⟩])⟩
    ⟨⟨1, 1, [{ exLoopN with dimOrig := 1, isOrig := [true], trans := [], hypTypes := [] }], [], []⟩, ⟨0, fun _ _ => 0⟩, ccDfs, fun _ => -1, 0⟩).map
      (fun r => r.map (fun a => (a.p.stmts.map (fun st => (st.trans, st.hypTypes)), a.p.hProps))) =
    some (some ([([[2, 0, 5], [0, 0, 5]], [.loop, .scalar])], [.loop, .scalar])) := by rfl

theorem readComps_accepts (nst : Nat) (comps : List (List Nat × Int)) (rest : List Int)
    (h : ∀ c ∈ comps, c.1.length ≤ nst ∧ ∀ i ∈ c.1, i < nst) :
    readComps nst comps.length (comps.flatMap (fun c => (c.1.length : Int) :: (c.1.map (fun i : Nat => (i : Int)) ++ [c.2])) ++ rest) =
      some (comps.map Prod.fst) := by
  induction comps with
  | nil => rfl
  | cons c comps ih =>
    obtain ⟨h1, h2⟩ := h c (by simp)
    rw [List.length_cons, List.flatMap_cons, List.append_assoc, List.cons_append]
    unfold readComps
    rw [if_neg (by omega), if_neg (by simp)]
    simp only [Int.toNat_natCast]
    rw [List.append_assoc]
    have e1 : (c.1.map (fun i : Nat => (i : Int)) ++ ([c.2] ++ (comps.flatMap (fun c => (c.1.length : Int) ::
        (c.1.map (fun i : Nat => (i : Int)) ++ [c.2])) ++ rest))).take c.1.length = c.1.map (fun i : Nat => (i : Int)) := by
      rw [List.take_append_of_le_length (by simp)]
      exact List.take_of_length_le (by simp)
    have e2 : (c.1.map (fun i : Nat => (i : Int)) ++ ([c.2] ++ (comps.flatMap (fun c => (c.1.length : Int) ::
        (c.1.map (fun i : Nat => (i : Int)) ++ [c.2])) ++ rest))).drop (c.1.length + 1) = comps.flatMap (fun c => (c.1.length : Int) ::
        (c.1.map (fun i : Nat => (i : Int)) ++ [c.2])) ++ rest := by
      rw [← List.append_assoc]
      exact List.drop_left' (by simp)
    rw [e1, e2, ih (fun c hc => h c (by simp [hc])), if_pos]
    · simp [Function.comp_def]
    · rw [List.all_eq_true]
      intro x hx
      obtain ⟨i, hi, rfl⟩ := List.mem_map.mp hx
      have := h2 i hi
      simp only [Bool.and_eq_true, decide_eq_true_eq]
      omega

/-- C72: every `.fst` file whose components partition the statements, without repetitions, is accepted, whatever follows in it and
whatever is in the other file; every statement gets one more row, which is the number of its component, and this row is a scalar
dimension of the statement and the program. -/
theorem C72_fst_accepted (isEmpty : Cst → Bool) (a : Auto) (comps : List (List Nat × Int)) (rest : List Int) (pre : Option (List Int))
    (hP : Partition a.p.stmts.length comps) (hnd : ∀ c ∈ comps, c.1.Nodup) (hn : comps.length ≤ a.p.stmts.length)
    (hrows : ∀ st ∈ a.p.stmts, st.trans.length = a.p.hProps.length)
    (hdeps : ∀ d ∈ a.p.deps, d.src < a.p.stmts.length ∧ d.dest < a.p.stmts.length) :
    ∃ a', precut isEmpty ⟨some (fstText comps ++ rest), pre⟩ a = some (some a') ∧ a'.p.hProps = a.p.hProps ++ [.scalar] ∧
      a'.p.stmts.length = a.p.stmts.length ∧
      ∀ (i c : Nat) st, a.p.stmts[i]? = some st → InComp comps i c → ∃ st', a'.p.stmts[i]? = some st' ∧
        st'.trans = st.trans ++ [List.replicate (a.p.nvar + a.p.npar) 0 ++ [(c : Int)]] ∧ st'.hypTypes = st.hypTypes ++ [.scalar] := by
  have hread := readComps_accepts a.p.stmts.length comps rest (fun c hc => by
    have hlt : ∀ i ∈ c.1, i < a.p.stmts.length := by
      intro i hi
      obtain ⟨k, hk, rfl⟩ := List.getElem_of_mem hc
      exact hP.ids i k ⟨_, List.getElem?_eq_getElem hk, hi⟩
    refine ⟨?_, hlt⟩
    have := (hnd c hc).subperm (l₂ := List.range a.p.stmts.length) (fun i hi => List.mem_range.mpr (hlt i hi))
    simpa using this.length_le)
  unfold precut fstText
  dsimp only
  rw [List.cons_append]
  unfold precutFst
  dsimp only
  rw [if_neg (by omega), Int.toNat_natCast, hread]
  simp only [Option.bind_eq_bind, Option.bind_some]
  set p1 := addScalarRows a.p (fun i => [compConst i (comps.map Prod.fst) 0 0]) with hp1
  have hst : p1.stmts.length = a.p.stmts.length := by simp [hp1, addScalarRows]
  have hpr : p1.hProps = a.p.hProps ++ [.scalar] := by simp [hp1, addScalarRows]
  have hrow : ∀ i < a.p.stmts.length, ∃ r, rowOf p1 i (p1.hProps.length - 1) = some r := by
    intro i hi
    have hl := hrows _ (List.getElem_mem hi)
    unfold rowOf
    rw [hpr]
    simp only [hp1, addScalarRows, List.getElem?_mapIdx, List.getElem?_eq_getElem hi, Option.map_some, Option.bind_some, List.map_cons,
      List.map_nil, List.length_append, List.length_singleton, Nat.add_sub_cancel]
    rw [List.getElem?_eq_getElem (by rw [List.length_append, hl]; simp)]
    exact ⟨_, rfl⟩
  have hds : ∃ q, depSatUpdate isEmpty p1 (p1.hProps.length - 1) = some q ∧ q.1.stmts = p1.stmts ∧ q.1.hProps = p1.hProps := by
    have hm : (p1.deps.mapM (satUpdateDep isEmpty p1 (p1.hProps.length - 1))).isSome := by
      rw [mapM_defined_iff]
      intro d hd
      obtain ⟨r1, g1⟩ := hrow d.src (hdeps d hd).1
      obtain ⟨r2, g2⟩ := hrow d.dest (hdeps d hd).2
      unfold satUpdateDep depSatTest
      rw [g1, g2]
      split_ifs <;> rfl
    obtain ⟨ds, e⟩ := Option.isSome_iff_exists.mp hm
    unfold depSatUpdate
    rw [e]
    exact ⟨_, rfl, rfl, rfl⟩
  obtain ⟨⟨q, n⟩, g1, g2, g3⟩ := hds
  rw [g1]
  refine ⟨_, rfl, by show q.hProps = _; rw [← hpr]; exact g3, by show q.stmts.length = _; rw [← hst]; exact congrArg _ g2, ?_⟩
  intro i c st hs hc
  dsimp only at g2 ⊢
  rw [g2]
  refine ⟨_, by simp only [hp1, addScalarRows, List.getElem?_mapIdx, hs]; rfl, ?_, rfl⟩
  dsimp only
  rw [compConst_partition hP hc]
  rfl

/-- The file `exComps` meets the hypotheses for a program with two statements. -/
example : Partition exCut.stmts.length exComps ∧ (∀ c ∈ exComps, c.1.Nodup) ∧ exComps.length ≤ exCut.stmts.length ∧
    (∀ d ∈ exCut.deps, d.src < exCut.stmts.length ∧ d.dest < exCut.stmts.length) ∧
    (∀ st ∈ exCut.stmts, st.trans.length = exCut.hProps.length) := ⟨exComps_partition, by decide, by decide, by decide, by decide⟩

end Pluto
