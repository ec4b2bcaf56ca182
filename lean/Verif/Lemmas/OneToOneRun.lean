import Verif.Lemmas.OneToOne
import Verif.Lemmas.Diamond

/-! The search and the transformations after it, as a whole. -/

namespace Pluto

variable {npar : Nat}

theorem foldlM_inv {α β : Type*} (P : β → Prop) {f : β → α → Option β} :
    ∀ (l : List α) (b b' : β), (∀ b, ∀ a ∈ l, ∀ b', P b → f b a = some b' → P b') → P b → l.foldlM f b = some b' → P b' := by
  intro l
  induction l with
  | nil => intro b b' _ hb e; simp only [List.foldlM_nil] at e; cases e; exact hb
  | cons a l ih =>
    intro b b' h hb e
    rw [List.foldlM_cons] at e
    obtain ⟨c, h1, h2⟩ := Option.bind_eq_some_iff.mp e
    exact ih c b' (fun b x hx b' => h b x (by simp [hx]) b') (h b a (by simp) c hb h1) h2

theorem Sharp.set {p : Prog} (h : Sharp npar p) {i : Nat} {st' : Stmt} (hs : Sharp1 npar st') :
    ∀ st ∈ p.stmts.set i st', Sharp1 npar st := by
  intro st hst
  rcases List.mem_or_eq_of_mem_set hst with hst | rfl
  · exact h.2 st hst
  · exact hs

theorem Sharp.addDomainRow {p p' : Prog} {i : Nat} {r : List Int} (hs : Sharp npar p) (h : addDomainRow p i r = some p') : Sharp npar p' := by
  unfold Pluto.addDomainRow at h
  obtain ⟨st, h1, h2⟩ := Option.bind_eq_some_iff.mp h
  cases h2
  exact ⟨hs.1, hs.set (hs.2 st (List.mem_of_getElem? h1))⟩

theorem Sharp.tileStmt {p : Prog} {i f k n : Nat} {z : Int} {x : Prog × Nat} (hs : Sharp npar p) (h : tileStmt p i f k n z = some x) :
    Sharp npar x.1 := by
  unfold Pluto.tileStmt at h
  obtain ⟨st, h1, h⟩ := Option.bind_eq_some_iff.mp h
  obtain ⟨ty, h2, h⟩ := Option.bind_eq_some_iff.mp h
  have s1 := hs.2 st (List.mem_of_getElem? h1)
  split_ifs at h with c1 c2 c3
  · obtain ⟨p1, h3, h⟩ := Option.bind_eq_some_iff.mp h
    obtain ⟨st1, h4, h⟩ := Option.bind_eq_some_iff.mp h
    obtain ⟨r, h5, h⟩ := Option.bind_eq_some_iff.mp h
    split_ifs at h with c4
    obtain ⟨p2, h6, h⟩ := Option.bind_eq_some_iff.mp h
    obtain ⟨p3, h7, h⟩ := Option.bind_eq_some_iff.mp h
    cases h
    refine Sharp.addDomainRow ?_ h7
    refine Sharp.addDomainRow ?_ h6
    unfold stmtAddDim at h3
    obtain ⟨st', h8, h3⟩ := Option.bind_eq_some_iff.mp h3
    rw [h1, Option.some.injEq] at h8
    subst h8
    split_ifs at h3 with c5 c6
    cases h3
    have hi := (List.getElem?_eq_some_iff.mp h1).1
    simp only [List.getElem?_set_self hi, Option.some.injEq] at h4
    subst h4
    refine ⟨hs.1, hs.set (s1.newDim (pos := n) (w := st.domain.ncols + 1) (by omega) rfl ?_ ?_)⟩
    · simp only [stmtAddDimAt, addDim, hs.1] at c4
      omega
    · intro r'
      simp only [stmtAddDimAt]
      rw [List.mem_insertIdx (by simpa using c6)]
      simp only [List.mem_map]
      constructor
      · rintro (e | ⟨s, a, b⟩)
        · exact .inl e
        · exact .inr ⟨s, a, b.symm⟩
      · rintro (e | ⟨s, a, b⟩)
        · exact .inl e
        · exact .inr ⟨s, a, b.symm⟩
  · obtain ⟨r, h5, h⟩ := Option.bind_eq_some_iff.mp h
    cases h
    refine ⟨hs.1, hs.set (s1.more rfl (fun x hx => ?_) (fun x hx => ?_))⟩
    · have hlen : ∀ x ∈ st.trans.insertIdx (f + k) (zrow (st.dim + p.npar + 1)), x.length = st.dim + npar + 1 := by
        intro x hx
        rw [List.mem_insertIdx (by omega)] at hx
        rcases hx with rfl | hx
        · simp [zrow, hs.1]
        · exact s1.1 x hx
      rcases List.mem_or_eq_of_mem_set hx with hx | rfl
      · exact hlen x hx
      · exact hlen _ (List.mem_of_getElem? h5)
    · obtain ⟨j, hj, rfl⟩ := List.getElem_of_mem hx
      simp only
      rw [List.mem_iff_getElem?]
      by_cases c : j < f + k
      · exact ⟨j, by rw [List.getElem?_set_ne (by omega), List.getElem?_insertIdx_of_lt c, List.getElem?_eq_getElem hj]⟩
      · exact ⟨j + 1, by rw [List.getElem?_set_ne (by omega), List.getElem?_insertIdx_of_gt (by omega)]; simp [List.getElem?_eq_getElem hj]⟩

theorem Sharp.tileDepth {f k : Nat} {z : Int} : ∀ {l : List (Nat × Nat)} {p : Prog} {x : Prog × List (Nat × Nat)}, Sharp npar p →
    tileDepth f k z p l = some x → Sharp npar x.1 := by
  intro l
  induction l with
  | nil => intro p x hs h; cases h; exact hs
  | cons a l ih =>
    intro p x hs h
    obtain ⟨i, n⟩ := a
    unfold Pluto.tileDepth at h
    obtain ⟨⟨p', n'⟩, h1, h⟩ := Option.bind_eq_some_iff.mp h
    obtain ⟨⟨p'', l'⟩, h2, h⟩ := Option.bind_eq_some_iff.mp h
    cases h
    have e := ih (hs.tileStmt h1) h2
    exact e

theorem Sharp.tileLoop {f : Nat} {z : Nat → Int} : ∀ {n k : Nat} {p p' : Prog} {l : List (Nat × Nat)}, Sharp npar p →
    tileLoop f z n k p l = some p' → Sharp npar p' := by
  intro n
  induction n with
  | zero => intro k p p' l hs h; cases h; exact hs
  | succ n ih =>
    intro k p p' l hs h
    unfold Pluto.tileLoop at h
    obtain ⟨⟨p1, l1⟩, h1, h⟩ := Option.bind_eq_some_iff.mp h
    exact ih (hs.tileDepth h1) h

theorem Sharp.sinkAll {p p' : Prog} (hs : Sharp npar p) (h : sinkAll p = some p') : Sharp npar p' := by
  unfold Pluto.sinkAll at h
  obtain ⟨q, h1, rfl⟩ := Option.map_eq_some_iff.mp h
  unfold detectHyperplaneTypes at h1
  obtain ⟨hp, h2, h1⟩ := Option.bind_eq_some_iff.mp h1
  cases h1
  refine ⟨hs.1, fun st hst => ?_⟩
  simp only [detectTypesStmtwise, List.mem_map] at hst
  obtain ⟨_, ⟨st0, hst0, rfl⟩, rfl⟩ := hst
  have s1 := hs.2 st0 hst0
  refine s1.more rfl (fun r hr => ?_) (fun r hr => by simp [sinkRows, hr])
  simp only [sinkRows, List.mem_append] at hr
  rcases hr with hr | hr
  · exact s1.1 r hr
  · rw [List.eq_of_mem_replicate hr]; simp [zrow, hs.1]

theorem Sharp.tileDims {p p' : Prog} {bands : List Band} {z : Nat → Nat → Int} (hs : Sharp npar p)
    (h : tileScatteringDims p bands z = some p') : Sharp npar p' := by
  unfold tileScatteringDims at h
  obtain ⟨q, h1, h⟩ := Option.bind_eq_some_iff.mp h
  exact (foldlM_inv (Sharp npar) _ _ _ (fun b a _ b' hb e => Sharp.tileLoop hb e) hs h1).sinkAll h

theorem Sharp.of_stmts {p p' : Prog} (hs : Sharp npar p) (h : p'.stmts = p.stmts) (hn : p'.npar = p.npar) : Sharp npar p' := by
  refine ⟨by rw [hn]; exact hs.1, ?_⟩
  rw [h]; exact hs.2

theorem satUpdates_npar {isEmpty : Cst → Bool} : ∀ {n : Nat} {p p' : Prog}, satUpdates isEmpty p n = some p' → p'.npar = p.npar := by
  intro n
  induction n with
  | zero => intro p p' h; cases h; rfl
  | succ n ih =>
    intro p p' h
    unfold satUpdates at h
    obtain ⟨q, h1, h⟩ := Option.bind_eq_some_iff.mp h
    obtain ⟨x, h2, h⟩ := Option.bind_eq_some_iff.mp h
    unfold depSatUpdate at h2
    obtain ⟨ds, h3, h2⟩ := Option.bind_eq_some_iff.mp h2
    cases h2; cases h
    have e := ih h1
    exact e

theorem Sharp.satisfaction {isEmpty : Cst → Bool} {p p' : Prog} (hs : Sharp npar p) (h : computeDepSatisfaction isEmpty p = some p') :
    Sharp npar p' := by
  refine hs.of_stmts (satisfaction_stmts h) ?_
  unfold computeDepSatisfaction at h
  obtain ⟨q, h1, h⟩ := Option.bind_eq_some_iff.mp h
  obtain ⟨ds, h2, h⟩ := Option.bind_eq_some_iff.mp h
  cases h
  have e := satUpdates_npar h1
  exact e

theorem Sharp.recompute {isEmpty : Cst → Bool} {p p' : Prog} (hs : Sharp npar p) (h : recompute isEmpty p = some p') : Sharp npar p' := by
  unfold Pluto.recompute at h
  obtain ⟨q, h1, h⟩ := Option.bind_eq_some_iff.mp h
  refine Sharp.satisfaction ?_ h
  unfold computeDepDirections at h1
  obtain ⟨ds, h2, h1⟩ := Option.bind_eq_some_iff.mp h1
  cases h1
  exact hs

theorem Sharp.upd {p p' : Prog} {is : List Nat} {f : Stmt → Option Stmt} (hf : ∀ st st', Sharp1 npar st → f st = some st' → Sharp1 npar st')
    (hs : Sharp npar p) (h : updStmts p is f = some p') : Sharp npar p' := by
  refine foldlM_inv (Sharp npar) _ _ _ (fun b a _ b' hb e => ?_) hs h
  obtain ⟨st, h1, e⟩ := Option.bind_eq_some_iff.mp e
  obtain ⟨st', h2, e⟩ := Option.bind_eq_some_iff.mp e
  cases e
  exact ⟨hb.1, hb.set (hf _ _ (hb.2 st (List.mem_of_getElem? h1)) h2)⟩

theorem Sharp.makeInnermost {p p' : Prog} {l : Loop} {n : Nat} {a : Bool} (hs : Sharp npar p) (h : makeInnermost p l n a = some p') :
    Sharp npar p' := by
  unfold Pluto.makeInnermost at h
  split_ifs at h with h0 h1
  · obtain ⟨m, h2, h⟩ := Option.bind_eq_some_iff.mp h
    exact hs.upd (fun _ _ a b => a.rotate b) h
  · obtain ⟨m, h2, h⟩ := Option.bind_eq_some_iff.mp h
    exact hs.upd (fun _ _ a b => a.rotate b) h

theorem Sharp.intraTileGroup {best : Prog → List Loop → Option Loop} {b : Band} {n : Nat} {p p' : Prog} {g : List Nat} (hs : Sharp npar p)
    (h : intraTileGroup best b n p g = some p') : Sharp npar p' := by
  unfold Pluto.intraTileGroup at h
  obtain ⟨ls, h1, h⟩ := Option.bind_eq_some_iff.mp h
  cases hb : best p ls with
  | none => rw [hb] at h; cases h; exact hs
  | some l =>
    rw [hb] at h
    obtain ⟨c, h2, h⟩ := Option.bind_eq_some_iff.mp h
    cases c with
    | true => simp only [if_true] at h; cases h; exact hs
    | false => exact hs.makeInnermost (by simpa using h)

theorem Sharp.makeParallelInnermost {best : Prog → List Loop → Option Loop} {b : Band} {n : Nat} {p p' : Prog} (hs : Sharp npar p)
    (h : makeParallelInnermost best p b n = some p') : Sharp npar p' := by
  unfold Pluto.makeParallelInnermost at h
  obtain ⟨ls, h1, h⟩ := Option.bind_eq_some_iff.mp h
  obtain ⟨ps, h2, h⟩ := Option.bind_eq_some_iff.mp h
  simp only at h
  split_ifs at h with h0
  · cases h; exact hs
  · cases hb : best p (((ls.zip ps).filter (·.2)).map (·.1)) with
    | none => rw [hb] at h; cases h; exact hs
    | some l =>
      rw [hb] at h
      obtain ⟨c, h2, h⟩ := Option.bind_eq_some_iff.mp h
      cases c with
      | true => simp only [if_true] at h; cases h; exact hs
      | false => exact hs.makeInnermost (by simpa using h)

theorem Sharp.intraTileBand {best : Prog → List Loop → Option Loop} {b : Band} {n : Nat} {p p' : Prog} (hs : Sharp npar p)
    (h : intraTileBand best p b n = some p') : Sharp npar p' := by
  unfold Pluto.intraTileBand at h
  obtain ⟨c, h1, h⟩ := Option.bind_eq_some_iff.mp h
  cases c with
  | true =>
    simp only [if_true] at h
    obtain ⟨gs, h2, h⟩ := Option.bind_eq_some_iff.mp h
    exact foldlM_inv (Sharp npar) _ _ _ (fun b a _ b' hb e => Sharp.intraTileGroup hb e) hs h
  | false =>
    simp only [Bool.false_eq_true, if_false] at h
    split_ifs at h
    · exact hs.makeParallelInnermost h
    · cases h; exact hs

theorem innerDepths_gt {p : Prog} {b : Band} {ks : List Nat} (h : innerDepths p b = some ks) : ∀ k ∈ ks, k ≠ b.loop.depth := by
  unfold innerDepths at h
  obtain ⟨bs, h1, h⟩ := Option.bind_eq_some_iff.mp h
  cases h
  intro k hk
  obtain ⟨x, _, rfl⟩ := List.mem_map.mp hk
  omega

theorem Sharp.tileSchedule {p : Prog} {b : Band} {m i : Bool} {x : Prog × Bool} (hs : Sharp npar p)
    (h : createTileSchedule p b m i = some x) : Sharp npar x.1 := by
  unfold createTileSchedule at h
  obtain ⟨c, h1, h⟩ := Option.bind_eq_some_iff.mp h
  cases c with
  | true => simp only [if_true] at h; cases h; exact hs
  | false =>
    simp only [Bool.false_eq_true, if_false] at h
    obtain ⟨inner, h2, h⟩ := Option.bind_eq_some_iff.mp h
    by_cases h0 : inner.length = 0
    · rw [if_pos h0] at h; cases h; exact hs
    rw [if_neg h0] at h
    have hk : ∀ k ∈ (if m then inner else inner.take 1), k ≠ b.loop.depth := by
      intro k hk
      cases m with
      | true => exact innerDepths_gt h2 k hk
      | false => exact innerDepths_gt h2 k (List.mem_of_mem_take hk)
    cases i with
    | true =>
      simp only [if_true] at h
      obtain ⟨p1, h4, h⟩ := Option.bind_eq_some_iff.mp h
      obtain ⟨ds, h5, h⟩ := Option.bind_eq_some_iff.mp h
      cases h; cases h4
      exact hs
    | false =>
      simp only [Bool.false_eq_true, if_false] at h
      obtain ⟨p1, h4, h⟩ := Option.bind_eq_some_iff.mp h
      obtain ⟨ds, h5, h⟩ := Option.bind_eq_some_iff.mp h
      cases h
      have e1 : Sharp npar p1 := hs.upd (fun st st' a e => a.addRows hk e) h4
      exact e1

theorem Sharp.tileSchedules {o : TileOpts} {p : Prog} {bands : List Band} {x : Prog × Bool} (hs : Sharp npar p)
    (h : createTileSchedules o p bands = some x) : Sharp npar x.1 := by
  unfold createTileSchedules at h
  refine foldlM_inv (fun r : Prog × Bool => Sharp npar r.1) _ _ _ (fun r b _ r' hr e => ?_) hs h
  obtain ⟨y, h1, rfl⟩ := Option.map_eq_some_iff.mp e
  have e1 := Sharp.tileSchedule hr h1
  exact e1

theorem Sharp.stepIf {c : Bool} {f : Prog → Option Prog} (hf : ∀ p p', Sharp npar p → f p = some p' → Sharp npar p') {p p' : Prog}
    (hs : Sharp npar p) (h : stepIf c f p = some p') : Sharp npar p' := by
  unfold Pluto.stepIf at h
  split_ifs at h
  · exact hf _ _ hs h
  · cases h; exact hs

theorem Sharp.intraTileBands {isEmpty : Cst → Bool} {best : Prog → List Loop → Option Loop} {n : Nat} {p p' : Prog} {bands : List Band}
    (hs : Sharp npar p) (h : intraTileBands isEmpty best n p bands = some p') : Sharp npar p' := by
  unfold Pluto.intraTileBands at h
  obtain ⟨q, h1, h⟩ := Option.bind_eq_some_iff.mp h
  exact (foldlM_inv (Sharp npar) _ _ _ (fun b a _ b' hb e => Sharp.intraTileBand hb e) hs h1).recompute h

theorem Sharp.plutoTile {isEmpty : Cst → Bool} {best : Prog → List Loop → Option Loop} {o : TileOpts} {z z2 : Nat → Nat → Int} {p p' : Prog}
    (hs : Sharp npar p) (h : plutoTile isEmpty best o z z2 p = some p') : Sharp npar p' := by
  unfold Pluto.plutoTile at h
  obtain ⟨bands, h1, h⟩ := Option.bind_eq_some_iff.mp h
  obtain ⟨⟨p1, t⟩, h2, h⟩ := Option.bind_eq_some_iff.mp h
  obtain ⟨p2, h3, h⟩ := Option.bind_eq_some_iff.mp h
  obtain ⟨p3, h4, h⟩ := Option.bind_eq_some_iff.mp h
  have e1 : Sharp npar p1 := by
    unfold tileLevels at h2
    obtain ⟨q, h5, h2⟩ := Option.bind_eq_some_iff.mp h2
    split_ifs at h2
    · obtain ⟨q2, h6, h2⟩ := Option.bind_eq_some_iff.mp h2
      cases h2
      exact (hs.tileDims h5).tileDims h6
    · cases h2
      exact hs.tileDims h5
  refine Sharp.stepIf (fun q q' hq hh => ?_) (Sharp.stepIf (fun q q' hq hh => hq.intraTileBands hh) (e1.recompute h3) h4) h
  obtain ⟨x, h5, rfl⟩ := Option.map_eq_some_iff.mp hh
  exact hq.tileSchedules h5

theorem Sharp.postTransform {isEmpty : Cst → Bool} {best : Prog → List Loop → Option Loop} {o : TileOpts} {tile identity : Bool}
    {z z2 : Nat → Nat → Int} {p p' : Prog} (hs : Sharp npar p) (h : postTransform isEmpty best o tile identity z z2 p = some p') :
    Sharp npar p' := by
  unfold Pluto.postTransform at h
  obtain ⟨q, h1, h⟩ := Option.bind_eq_some_iff.mp h
  have e1 : Sharp npar q := by
    unfold beforeWave at h1
    obtain ⟨p1, h2, h1⟩ := Option.bind_eq_some_iff.mp h1
    have e := hs.recompute h2
    split_ifs at h1
    · exact e.plutoTile h1
    · refine Sharp.stepIf (fun a a' hs ha => ?_) e h1
      unfold intraTileOptimize at ha
      obtain ⟨bands, h3, ha⟩ := Option.bind_eq_some_iff.mp ha
      exact hs.intraTileBands ha
  refine Sharp.stepIf (fun a a' hs ha => ?_) e1 h
  unfold waveUntiled at ha
  obtain ⟨p1, h2, ha⟩ := Option.bind_eq_some_iff.mp ha
  obtain ⟨bands, h3, ha⟩ := Option.bind_eq_some_iff.mp ha
  obtain ⟨x, h4, ha⟩ := Option.bind_eq_some_iff.mp ha
  cases ha
  exact (hs.satisfaction h2).tileSchedules h4

/-! ### The search -/

theorem fullColRank_of_rank {n : Nat} {rows : List (List Int)} (hr : ∀ r ∈ rows, n ≤ r.length)
    (h : ¬ rowRank n (rows.map (·.take n)) < n) : FullColRank n rows := by
  have htop : rowSpace n (rows.map (·.take n)) = ⊤ := by
    apply Submodule.eq_top_of_finrank_eq
    rw [Module.finrank_fin_fun]
    refine le_antisymm ?_ (not_lt.mp h)
    have := Submodule.finrank_le (rowSpace n (rows.map (·.take n)))
    rwa [Module.finrank_fin_fun] at this
  intro v hv h0
  have key : ∀ w : Fin n → ℚ, ∑ j, w j * qvec n v j = 0 := by
    intro w
    have hw : w ∈ rowSpace n (rows.map (·.take n)) := by rw [htop]; trivial
    refine span_orth n _ _ ?_ w hw
    rintro u ⟨r, hrm, rfl⟩
    obtain ⟨r0, hr0, rfl⟩ := List.mem_map.mp hrm
    rw [← dot_qvec n _ v (by simp [hr r0 hr0]), h0 r0 hr0]
    simp
  intro a ha
  obtain ⟨j, hj, rfl⟩ := List.getElem_of_mem ha
  have := key (fun i => if i = ⟨j, by omega⟩ then 1 else 0)
  simp only [ite_mul, one_mul, zero_mul, Finset.sum_ite_eq', Finset.mem_univ, if_true, qvec] at this
  have h2 : v.getD j 0 = 0 := by exact_mod_cast this
  rwa [List.getD_eq_getElem _ _ hj] at h2

theorem autoLoop_full {o : AutoOpts} {L : Libs} {dia : Nat → Prog → Option (Prog × Bool)} {req : Nat} : ∀ (fuel : Nat) (s : LoopState) (q : Prog),
    autoLoop o L dia req fuel s = some (some (.inl q)) → fullRanked q = true := by
  intro fuel
  induction fuel with
  | zero => intro s q h; simp [autoLoop] at h
  | succ n ih =>
    intro s q h
    unfold autoLoop at h
    obtain ⟨r1, h1, h⟩ := Option.bind_eq_some_iff.mp h
    cases r1 with
    | fail s1 => simp at h
    | go s1 =>
      simp only at h
      split_ifs at h with hc
      · exact ih _ _ h
      · simp only [Option.pure_def, Option.some.injEq, Sum.inl.injEq] at h
        subst h
        simp only [not_or, Bool.not_eq_false] at hc
        exact hc.1

/-- A successful run of the automatic transformation ends with schedules of full column rank. -/
theorem auto_sharp (dia : Nat → Prog → Option (Prog × Bool)) (o : AutoOpts) (L : Libs) (hE : EmptyOracle L.isEmpty) (hL : FeasibleOracle L.solve)
    (fuel : Nat) (d0 : DfsState) (p0 p : Prog) (hp : p0.InputOK) (hdia : ∀ k, SkelOK k → DiaOK False k dia)
    (h : autoTransform o L dia fuel d0 p0 = some (.success p)) : Sharp p0.npar p := by
  unfold autoTransform at h
  simp only [Option.bind_eq_bind, Option.bind_eq_some_iff] at h
  obtain ⟨a, h1, h⟩ := h
  split_ifs at h with hs
  · simp only [Option.pure_def, Option.some.injEq, Outcome.success.injEq] at h
    rw [← h]
    refine ⟨rfl, ?_⟩
    simp [hs]
  · rw [Option.bind_eq_some_iff] at h
    obtain ⟨s, h2, h⟩ := h
    rw [Option.bind_eq_some_iff] at h
    obtain ⟨r, h3, h⟩ := h
    obtain ⟨k, hk, ha, hpad⟩ := init_spec (X := False) hE hp h1 h2
    have hl := autoLoop_spec hE hL hk (hdia k hk) fuel s r ha h3
    match r with
    | none => simp at h
    | some (.inr q) =>
      simp only [Option.bind_eq_bind, Option.bind_eq_some_iff] at h
      obtain ⟨_, _, h⟩ := h
      simp at h
    | some (.inl q) =>
      simp only [Option.bind_eq_bind, Option.bind_eq_some_iff] at h
      obtain ⟨p', h4, h⟩ := h
      simp only [Option.pure_def, Option.some.injEq, Outcome.success.injEq] at h
      subst h
      have hfull := autoLoop_full _ _ _ h3
      obtain ⟨hi, -⟩ := hl.1 q rfl
      have hq := hpad q hi
      obtain ⟨hpr, -, hu⟩ := unpad_facts hp hi hq h4
      refine ⟨hpr.npar, fun st' hst' => ?_⟩
      obtain ⟨i, hil, rfl⟩ := List.getElem_of_mem hst'
      have hi0 : i < p0.stmts.length := by rw [← hpr.len]; exact hil
      obtain ⟨st, st', u⟩ := hu i hi0
      have e := u.getp
      rw [List.getElem?_eq_getElem hil, Option.some.injEq] at e
      rw [e]
      obtain ⟨st2, g1, g2⟩ := hq.get (List.getElem?_eq_getElem hi0)
      have g3 := u.getq
      rw [g1, Option.some.injEq] at g3
      subst g3
      have hd0 : p0.dim i = p0.stmts[i].dim := Prog.dim_of (List.getElem?_eq_getElem hi0)
      have hdo : st2.dimOrig = p0.dim i := by
        rw [g2.orig, hd0]
        exact ((hp.stmts _ (List.getElem_mem hi0)).1).symm
      have hdim : st2.dim = p0.nvar := g2.dim
      have hle := u.le
      have hrow : ∀ r ∈ st2.trans, r.length = st2.dim + q.npar + 1 := by
        intro r hr
        rw [u.row r hr, hdim, hq.npar]
      have hrank : ¬ rowRank st2.dimOrig (st2.trans.map (·.take st2.dimOrig)) < st2.dimOrig := by
        have := needsLoops_iff q st2 (by rw [hdo, hdim]; omega) hrow
        unfold NeedsLoops at this
        rw [← this]
        unfold fullRanked at hfull
        have := List.all_eq_true.mp hfull st2 (List.mem_of_getElem? g1)
        simp only [decide_eq_true_eq] at this
        omega
      have hF := fullColRank_of_rank (fun r hr => by rw [u.row r hr, hdo]; omega) hrank
      rw [hdo] at hF
      constructor
      · intro r hr
        rw [u.trans] at hr
        obtain ⟨r0, hr0, rfl⟩ := List.mem_map.mp hr
        have := u.row r0 hr0
        simp [cutRow, u.dim, this]
        omega
      · intro v hv h0
        rw [u.dim] at hv
        refine hF v hv fun r hr => ?_
        have := h0 (cutRow (p0.dim i) p0.nvar r) (by rw [u.trans]; exact List.mem_map_of_mem hr)
        rw [u.dim] at this
        rw [← this]
        congr 1
        unfold cutRow
        rw [List.take_append_of_le_length (by simp [u.row r hr]; omega), List.take_take, Nat.min_self]

end Pluto
