import Verif.Model.Pipeline

/-! Tiling and the other transformations after the search keep `dim_orig` of every statement. -/

namespace Pluto

/-- The numbers of original dimensions. -/
def origs (p : Prog) : List Nat := p.stmts.map (·.dimOrig)

theorem origs_set {p : Prog} {i : Nat} {st st' : Stmt} (h : p.stmts[i]? = some st) (e : st'.dimOrig = st.dimOrig) :
    (p.stmts.set i st').map (·.dimOrig) = p.stmts.map (·.dimOrig) := by
  rw [List.map_set, e]
  apply List.ext_getElem?
  intro j
  rw [List.getElem?_set]
  split_ifs with h1 h2
  · subst h1
    rw [List.getElem?_map, h]; rfl
  · subst h1
    rw [List.getElem?_map, h] 
    have := (List.getElem?_eq_some_iff.mp h).1
    simp at h2; omega
  · rfl

theorem foldlM_keep {α β γ : Type*} (g : β → γ) {f : β → α → Option β} (h : ∀ b a b', f b a = some b' → g b' = g b) :
    ∀ (l : List α) (b b' : β), l.foldlM f b = some b' → g b' = g b := by
  intro l
  induction l with
  | nil => intro b b' e; simp only [List.foldlM_nil] at e; cases e; rfl
  | cons a l ih =>
    intro b b' e
    rw [List.foldlM_cons] at e
    obtain ⟨c, h1, h2⟩ := Option.bind_eq_some_iff.mp e
    rw [ih c b' h2, h b a c h1]

theorem stmtAddDim_origs {p p' : Prog} {i pos : Nat} {t : Option (Nat × HypType)} (h : stmtAddDim p i pos t = some p') :
    origs p' = origs p := by
  unfold stmtAddDim at h
  obtain ⟨st, h1, h2⟩ := Option.bind_eq_some_iff.mp h
  split_ifs at h2
  cases h2
  exact origs_set h1 rfl

theorem addDomainRow_origs {p p' : Prog} {i : Nat} {r : List Int} (h : addDomainRow p i r = some p') : origs p' = origs p := by
  unfold addDomainRow at h
  obtain ⟨st, h1, h2⟩ := Option.bind_eq_some_iff.mp h
  cases h2
  exact origs_set h1 rfl

theorem tileStmt_origs {p : Prog} {i f k n : Nat} {z : Int} {x : Prog × Nat} (h : tileStmt p i f k n z = some x) : origs x.1 = origs p := by
  unfold tileStmt at h
  obtain ⟨st, h1, h⟩ := Option.bind_eq_some_iff.mp h
  obtain ⟨ty, h2, h⟩ := Option.bind_eq_some_iff.mp h
  split_ifs at h
  · obtain ⟨p1, h3, h⟩ := Option.bind_eq_some_iff.mp h
    obtain ⟨st1, h4, h⟩ := Option.bind_eq_some_iff.mp h
    obtain ⟨r, h5, h⟩ := Option.bind_eq_some_iff.mp h
    split_ifs at h
    obtain ⟨p2, h6, h⟩ := Option.bind_eq_some_iff.mp h
    obtain ⟨p3, h7, h⟩ := Option.bind_eq_some_iff.mp h
    cases h
    rw [addDomainRow_origs h7, addDomainRow_origs h6, stmtAddDim_origs h3]
  · obtain ⟨r, h5, h⟩ := Option.bind_eq_some_iff.mp h
    cases h
    exact origs_set h1 rfl

theorem tileDepth_origs {f k : Nat} {z : Int} : ∀ {l : List (Nat × Nat)} {p : Prog} {x : Prog × List (Nat × Nat)},
    tileDepth f k z p l = some x → origs x.1 = origs p := by
  intro l
  induction l with
  | nil => intro p x h; cases h; rfl
  | cons a l ih =>
    intro p x h
    obtain ⟨i, n⟩ := a
    unfold tileDepth at h
    obtain ⟨⟨p', n'⟩, h1, h⟩ := Option.bind_eq_some_iff.mp h
    obtain ⟨⟨p'', l'⟩, h2, h⟩ := Option.bind_eq_some_iff.mp h
    cases h
    rw [ih h2, tileStmt_origs h1]

theorem tileLoop_origs {f : Nat} {z : Nat → Int} : ∀ {n k : Nat} {p p' : Prog} {l : List (Nat × Nat)},
    tileLoop f z n k p l = some p' → origs p' = origs p := by
  intro n
  induction n with
  | zero => intro k p p' l h; cases h; rfl
  | succ n ih =>
    intro k p p' l h
    unfold tileLoop at h
    obtain ⟨⟨p1, l1⟩, h1, h⟩ := Option.bind_eq_some_iff.mp h
    rw [ih h, tileDepth_origs h1]

theorem detect_origs {p p' : Prog} (h : detectHyperplaneTypes p = some p') : p'.stmts = p.stmts := by
  unfold detectHyperplaneTypes at h
  obtain ⟨hs, h1, h⟩ := Option.bind_eq_some_iff.mp h
  cases h; rfl

theorem sinkAll_origs {p p' : Prog} (h : sinkAll p = some p') : origs p' = origs p := by
  unfold sinkAll at h
  obtain ⟨q, h1, rfl⟩ := Option.map_eq_some_iff.mp h
  have := detect_origs h1
  simp only [origs, detectTypesStmtwise, this, List.map_map]
  rfl

theorem tileScatteringDims_origs {p p' : Prog} {bands : List Band} {z : Nat → Nat → Int} (h : tileScatteringDims p bands z = some p') :
    origs p' = origs p := by
  unfold tileScatteringDims at h
  obtain ⟨q, h1, h⟩ := Option.bind_eq_some_iff.mp h
  rw [sinkAll_origs h]
  exact foldlM_keep origs (fun b a b' e => tileLoop_origs e) _ _ _ h1

theorem satUpdates_stmts {isEmpty : Cst → Bool} : ∀ {n : Nat} {p p' : Prog}, satUpdates isEmpty p n = some p' → p'.stmts = p.stmts := by
  intro n
  induction n with
  | zero => intro p p' h; cases h; rfl
  | succ n ih =>
    intro p p' h
    unfold satUpdates at h
    obtain ⟨q, h1, h⟩ := Option.bind_eq_some_iff.mp h
    obtain ⟨x, h2, h⟩ := Option.bind_eq_some_iff.mp h
    unfold depSatUpdate at h2
    obtain ⟨ds, h3, h2⟩ := Option.bind_eq_some_iff.mp h2
    cases h2; cases h
    have e := ih h1
    exact e

theorem satisfaction_stmts {isEmpty : Cst → Bool} {p p' : Prog} (h : computeDepSatisfaction isEmpty p = some p') : p'.stmts = p.stmts := by
  unfold computeDepSatisfaction at h
  obtain ⟨q, h1, h⟩ := Option.bind_eq_some_iff.mp h
  obtain ⟨ds, h2, h⟩ := Option.bind_eq_some_iff.mp h
  cases h
  have e := satUpdates_stmts h1
  exact e

theorem recompute_stmts {isEmpty : Cst → Bool} {p p' : Prog} (h : recompute isEmpty p = some p') : p'.stmts = p.stmts := by
  unfold recompute at h
  obtain ⟨q, h1, h⟩ := Option.bind_eq_some_iff.mp h
  rw [satisfaction_stmts h]
  unfold computeDepDirections at h1
  obtain ⟨ds, h2, h1⟩ := Option.bind_eq_some_iff.mp h1
  cases h1; rfl

theorem updStmts_origs {p p' : Prog} {is : List Nat} {f : Stmt → Option Stmt} (hf : ∀ st st', f st = some st' → st'.dimOrig = st.dimOrig)
    (h : updStmts p is f = some p') : origs p' = origs p := by
  refine foldlM_keep origs (fun b a b' e => ?_) _ _ _ h
  obtain ⟨st, h1, e⟩ := Option.bind_eq_some_iff.mp e
  obtain ⟨st', h2, e⟩ := Option.bind_eq_some_iff.mp e
  cases e
  exact origs_set h1 (hf _ _ h2)

theorem rotate_orig {st : Stmt} {g : Nat} : ∀ {n : Nat} {st' : Stmt}, rotate st g n = some st' → st'.dimOrig = st.dimOrig := by
  intro n
  induction n with
  | zero => intro st' h; cases h; rfl
  | succ n ih =>
    intro st' h
    unfold rotate at h
    obtain ⟨s1, h1, h⟩ := Option.bind_eq_some_iff.mp h
    unfold stmtInterchange at h
    obtain ⟨r1, h2, h⟩ := Option.bind_eq_some_iff.mp h
    obtain ⟨r2, h3, h⟩ := Option.bind_eq_some_iff.mp h
    cases h
    have e := ih h1
    exact e

theorem makeInnermost_origs {p p' : Prog} {l : Loop} {n : Nat} {a : Bool} (h : makeInnermost p l n a = some p') : origs p' = origs p := by
  unfold makeInnermost at h
  split_ifs at h with h0 h1
  · obtain ⟨m, h2, h⟩ := Option.bind_eq_some_iff.mp h
    exact updStmts_origs (fun _ _ => rotate_orig) h
  · obtain ⟨m, h2, h⟩ := Option.bind_eq_some_iff.mp h
    exact updStmts_origs (fun _ _ => rotate_orig) h

theorem intraTileGroup_origs {best : Prog → List Loop → Option Loop} {b : Band} {n : Nat} {p p' : Prog} {g : List Nat}
    (h : intraTileGroup best b n p g = some p') : origs p' = origs p := by
  unfold intraTileGroup at h
  obtain ⟨ls, h1, h⟩ := Option.bind_eq_some_iff.mp h
  cases hb : best p ls with
  | none => rw [hb] at h; cases h; rfl
  | some l =>
    rw [hb] at h
    obtain ⟨c, h2, h⟩ := Option.bind_eq_some_iff.mp h
    cases c with
    | true => simp only [if_true] at h; cases h; rfl
    | false => exact makeInnermost_origs (by simpa using h)

theorem makeParallelInnermost_origs {best : Prog → List Loop → Option Loop} {b : Band} {n : Nat} {p p' : Prog}
    (h : makeParallelInnermost best p b n = some p') : origs p' = origs p := by
  unfold makeParallelInnermost at h
  obtain ⟨ls, h1, h⟩ := Option.bind_eq_some_iff.mp h
  obtain ⟨ps, h2, h⟩ := Option.bind_eq_some_iff.mp h
  simp only at h
  split_ifs at h with h0
  · cases h; rfl
  · cases hb : best p (((ls.zip ps).filter (·.2)).map (·.1)) with
    | none => rw [hb] at h; cases h; rfl
    | some l =>
      rw [hb] at h
      obtain ⟨c, h2, h⟩ := Option.bind_eq_some_iff.mp h
      cases c with
      | true => simp only [if_true] at h; cases h; rfl
      | false => exact makeInnermost_origs (by simpa using h)

theorem intraTileBand_origs {best : Prog → List Loop → Option Loop} {b : Band} {n : Nat} {p p' : Prog}
    (h : intraTileBand best p b n = some p') : origs p' = origs p := by
  unfold intraTileBand at h
  obtain ⟨c, h1, h⟩ := Option.bind_eq_some_iff.mp h
  cases c with
  | true =>
    simp only [if_true] at h
    obtain ⟨gs, h2, h⟩ := Option.bind_eq_some_iff.mp h
    exact foldlM_keep origs (fun _ _ _ e => intraTileGroup_origs e) _ _ _ h
  | false =>
    simp only [Bool.false_eq_true, if_false] at h
    split_ifs at h
    · exact makeParallelInnermost_origs h
    · cases h; rfl

theorem createTileSchedule_origs {p : Prog} {b : Band} {m i : Bool} {x : Prog × Bool} (h : createTileSchedule p b m i = some x) :
    origs x.1 = origs p := by
  unfold createTileSchedule at h
  obtain ⟨c, h1, h⟩ := Option.bind_eq_some_iff.mp h
  cases c with
  | true => simp only [if_true] at h; cases h; rfl
  | false =>
    simp only [Bool.false_eq_true, if_false] at h
    obtain ⟨inner, h2, h⟩ := Option.bind_eq_some_iff.mp h
    by_cases h0 : inner.length = 0
    · rw [if_pos h0] at h; cases h; rfl
    rw [if_neg h0] at h
    cases i with
    | true =>
      simp only [if_true] at h
      obtain ⟨p1, h4, h⟩ := Option.bind_eq_some_iff.mp h
      obtain ⟨ds, h5, h⟩ := Option.bind_eq_some_iff.mp h
      cases h; cases h4
      rfl
    | false =>
      simp only [Bool.false_eq_true, if_false] at h
      obtain ⟨p1, h4, h⟩ := Option.bind_eq_some_iff.mp h
      obtain ⟨ds, h5, h⟩ := Option.bind_eq_some_iff.mp h
      cases h
      have e1 : origs p1 = origs p := by
        refine updStmts_origs (fun st st' e => ?_) h4
        refine foldlM_keep (·.dimOrig) (fun a k a' e => ?_) _ _ _ e
        unfold addRowAt at e
        obtain ⟨r, h6, e⟩ := Option.bind_eq_some_iff.mp e
        obtain ⟨s, h7, e⟩ := Option.bind_eq_some_iff.mp e
        cases e; rfl
      exact e1

theorem createTileSchedules_origs {o : TileOpts} {p : Prog} {bands : List Band} {x : Prog × Bool}
    (h : createTileSchedules o p bands = some x) : origs x.1 = origs p := by
  unfold createTileSchedules at h
  refine foldlM_keep (fun r : Prog × Bool => origs r.1) (fun r b r' e => ?_) _ _ _ h
  obtain ⟨y, h1, rfl⟩ := Option.map_eq_some_iff.mp e
  have e1 := createTileSchedule_origs h1
  exact e1

theorem stepIf_origs {c : Bool} {f : Prog → Option Prog} (hf : ∀ p p', f p = some p' → origs p' = origs p) {p p' : Prog}
    (h : stepIf c f p = some p') : origs p' = origs p := by
  unfold stepIf at h
  split_ifs at h
  · exact hf _ _ h
  · cases h; rfl

theorem intraTileBands_origs {isEmpty : Cst → Bool} {best : Prog → List Loop → Option Loop} {n : Nat} {p p' : Prog} {bands : List Band}
    (h : intraTileBands isEmpty best n p bands = some p') : origs p' = origs p := by
  unfold intraTileBands at h
  obtain ⟨q, h1, h⟩ := Option.bind_eq_some_iff.mp h
  have := foldlM_keep origs (fun _ _ _ e => intraTileBand_origs e) _ _ _ h1
  rw [← this]
  simp [origs, recompute_stmts h]

theorem plutoTile_origs {isEmpty : Cst → Bool} {best : Prog → List Loop → Option Loop} {o : TileOpts} {z z2 : Nat → Nat → Int} {p p' : Prog}
    (h : plutoTile isEmpty best o z z2 p = some p') : origs p' = origs p := by
  unfold plutoTile at h
  obtain ⟨bands, h1, h⟩ := Option.bind_eq_some_iff.mp h
  obtain ⟨⟨p1, t⟩, h2, h⟩ := Option.bind_eq_some_iff.mp h
  obtain ⟨p2, h3, h⟩ := Option.bind_eq_some_iff.mp h
  obtain ⟨p3, h4, h⟩ := Option.bind_eq_some_iff.mp h
  have e1 : origs p1 = origs p := by
    unfold tileLevels at h2
    obtain ⟨q, h5, h2⟩ := Option.bind_eq_some_iff.mp h2
    split_ifs at h2
    · obtain ⟨q2, h6, h2⟩ := Option.bind_eq_some_iff.mp h2
      cases h2
      rw [tileScatteringDims_origs h6, tileScatteringDims_origs h5]
    · cases h2
      exact tileScatteringDims_origs h5
  have e2 : origs p2 = origs p1 := by simp [origs, recompute_stmts h3]
  have e3 : origs p3 = origs p2 := stepIf_origs (fun _ _ => intraTileBands_origs) h4
  have e4 : origs p' = origs p3 := stepIf_origs (fun q q' hq => by
    obtain ⟨x, h5, rfl⟩ := Option.map_eq_some_iff.mp hq
    exact createTileSchedules_origs h5) h
  rw [e4, e3, e2, e1]

theorem postTransform_origs {isEmpty : Cst → Bool} {best : Prog → List Loop → Option Loop} {o : TileOpts} {tile identity : Bool}
    {z z2 : Nat → Nat → Int} {p p' : Prog} (h : postTransform isEmpty best o tile identity z z2 p = some p') : origs p' = origs p := by
  unfold postTransform at h
  obtain ⟨q, h1, h⟩ := Option.bind_eq_some_iff.mp h
  have e1 : origs q = origs p := by
    unfold beforeWave at h1
    obtain ⟨p1, h2, h1⟩ := Option.bind_eq_some_iff.mp h1
    have e : origs p1 = origs p := by simp [origs, recompute_stmts h2]
    rw [← e]
    split_ifs at h1
    · exact plutoTile_origs h1
    · refine stepIf_origs (fun a a' ha => ?_) h1
      unfold intraTileOptimize at ha
      obtain ⟨bands, h3, ha⟩ := Option.bind_eq_some_iff.mp ha
      exact intraTileBands_origs ha
  rw [← e1]
  refine stepIf_origs (fun a a' ha => ?_) h
  unfold waveUntiled at ha
  obtain ⟨p1, h2, ha⟩ := Option.bind_eq_some_iff.mp ha
  obtain ⟨bands, h3, ha⟩ := Option.bind_eq_some_iff.mp ha
  obtain ⟨x, h4, ha⟩ := Option.bind_eq_some_iff.mp ha
  cases ha
  rw [createTileSchedules_origs h4]
  simp [origs, satisfaction_stmts h2]

end Pluto
