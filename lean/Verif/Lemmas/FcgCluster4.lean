import Verif.Lemmas.FcgCluster3
import Verif.Lemmas.DfpColour
import Verif.Lemmas.DfpClusterFull
import Verif.Props.FcgBuild
/-! The systems of loops of components, and the entries of the matrices. -/
namespace Pluto

theorem inScc_mem {a : Auto} {s i : Nat} : i ∈ a.sccStmts s ↔ InScc a s i := by
  unfold Auto.sccStmts InScc
  simp

theorem maxDim_attained (a : Auto) (s : Nat) {j : Nat} (h : j < a.width s) : ∃ i, InScc a s i ∧ j < depthOf a.p i := by
  have key : ∀ (l : List (Int × Nat)) (m : Int), l.foldl (fun m x => if x.1 = (s : Int) then max m (x.2 : Int) else m) m = m ∨
      ∃ x ∈ l, x.1 = (s : Int) ∧ l.foldl (fun m x => if x.1 = (s : Int) then max m (x.2 : Int) else m) m = x.2 := by
    intro l
    induction l with
    | nil => intro m; exact Or.inl rfl
    | cons y l ih =>
      intro m
      rw [List.foldl_cons]
      rcases ih (if y.1 = (s : Int) then max m (y.2 : Int) else m) with h | ⟨x, hx, h1, h2⟩
      · rw [h]
        split_ifs with hy
        · rcases max_choice m (y.2 : Int) with h3 | h3
          · exact Or.inl h3
          · exact Or.inr ⟨y, by simp, hy, h3⟩
        · exact Or.inl rfl
      · exact Or.inr ⟨x, by simp [hx], h1, h2⟩
  unfold Auto.width Auto.maxDim at h
  rcases key (a.p.stmts.mapIdx (fun i st => (a.scc i, st.dimOrig))) (-1) with e | ⟨x, hx, h1, h2⟩
  · rw [e] at h; exact absurd h (by simp)
  · rw [h2] at h
    obtain ⟨i, hi, rfl⟩ := List.mem_mapIdx.mp hx
    refine ⟨i, ⟨hi, h1⟩, ?_⟩
    simpa [depthOf, stmtBlock, hi] using h

theorem sccOffset_succ (a : Auto) (s : Nat) : a.sccOffset (s + 1) = a.sccOffset s + a.width s := by
  unfold Auto.sccOffset
  rw [List.range_succ, List.map_append, List.sum_append]
  simp

theorem sccOffset_mono (a : Auto) {s t : Nat} (h : s ≤ t) : a.sccOffset s ≤ a.sccOffset t := by
  induction t with
  | zero => rw [Nat.le_zero.mp h]
  | succ t ih =>
    rcases Nat.lt_or_ge s (t + 1) with h1 | h1
    · have := ih (by omega)
      rw [sccOffset_succ]; omega
    · rw [show s = t + 1 by omega]

theorem clVertex_inj {a : Auto} {s t j k : Nat} (hj : j < a.width s) (hk : k < a.width t)
    (h : a.sccOffset s + j = a.sccOffset t + k) : s = t ∧ j = k := by
  rcases Nat.lt_trichotomy s t with hlt | rfl | hlt
  · have := sccOffset_mono a (show s + 1 ≤ t from hlt)
    rw [sccOffset_succ] at this; omega
  · exact ⟨rfl, by omega⟩
  · have := sccOffset_mono a (show t + 1 ≤ s from hlt)
    rw [sccOffset_succ] at this; omega

theorem mem_clEntries {a : Auto} {s t s' t' j k : Nat} {f : Nat → Nat → Bool} (hj : j < a.width s) (hk : k < a.width t) :
    (a.sccOffset s + j, a.sccOffset t + k) ∈ clEntries a s' t' f ↔ s' = s ∧ t' = t ∧ f j k = true := by
  unfold clEntries
  simp only [List.mem_flatMap, List.mem_map, List.mem_filter, List.mem_range, Prod.mk.injEq]
  constructor
  · rintro ⟨j', hj', k', ⟨hk', hf⟩, e1, e2⟩
    obtain ⟨rfl, rfl⟩ := clVertex_inj hj' hj e1
    obtain ⟨rfl, rfl⟩ := clVertex_inj hk' hk e2
    exact ⟨rfl, rfl, hf⟩
  · rintro ⟨rfl, rfl, hf⟩
    exact ⟨j, hj, k, ⟨hk, hf⟩, rfl, rfl⟩

theorem mem_clDeps {o : SearchOpts} {a : Auto} {ss : List Nat} {d : Dep} (hd : d ∈ a.p.deps → DepOK a.p d) :
    d ∈ clDeps o a ss ↔ d ∈ a.p.deps ∧ DepWithin o (fun i => ∃ s ∈ ss, InScc a s i) d := by
  unfold clDeps DepWithin InScc
  rw [List.mem_filter]
  refine and_congr_right fun hm => ?_
  have h1 := (hd hm).src
  have h2 := (hd hm).dest
  simp only [Bool.and_eq_true, List.any_eq_true, decide_eq_true_eq, h1, h2, true_and]
  cases d.satisfied <;> cases d.rar <;> cases o.rar <;> simp

section
variable {lp : Cst → List Int → Option (List ℚ)} (hlp : LpSolver lp) {o : SearchOpts} {a : Auto} (hp : a.p.Padded)
  (hd : ∀ d ∈ a.p.deps, DepOK a.p d) (hne : NonemptyDeps a.p)
include hlp hp hd hne

/-- The answer of the solver for one loop. -/
theorem clSelfSol_spec {s j : Nat} (hj : j < a.width s) :
    (clSelfSol lp o a s j = none ↔ ¬ SccPermutable o a s j) ∧
    ∀ x, clSelfSol lp o a s j = some x → (∀ v ∈ x, 0 ≤ v) ∧ SolLen a.p x ∧ ∃ v : LoopLevel,
      (∀ i, InScc a s i → v.Takes o a.p i j ∧ v.shift i = 0) ∧ (∀ d ∈ a.p.deps, DepWithin o (InScc a s) d → v.Weak a.p d) ∧
      (o.nodepbound = false → ∀ d ∈ a.p.deps, DepWithin o (InScc a s) d → v.Bounded a.p (x.take a.p.npar) (x.getD a.p.npar 0) d) := by
  obtain ⟨i0, hi0, hj0⟩ := maxDim_attained a s hj
  have hjn : j < a.p.nvar := lt_of_lt_of_le hj0 (depth_le hp hi0.1)
  have hDW : ∀ d : Dep, DepWithin o (fun i => ∃ s' ∈ [s], InScc a s' i) d ↔ DepWithin o (InScc a s) d := by
    intro d; simp [DepWithin]
  have horig : ∀ i ∈ a.sccStmts s, ((origOf a.p i).getD j false = true ↔ j < depthOf a.p i) := by
    intro i hi
    rw [(origOf_padded hp (inScc_mem.mp hi).1 hjn).2, decide_eq_true_eq]
  have hwf : (clSelfSystem o a s j).WF := by
    unfold clSelfSystem
    exact sys_wf (o := o) hd (l := clDeps o a [s]) (fun d hdm => (List.mem_filter.mp hdm).1) rfl
  have hcols : (clSelfSystem o a s j).ncols = cstWidth a.p.nvar a.p.npar a.p.stmts.length := rfl
  obtain ⟨k1, k2⟩ := lev_sys (o := o) (D := DepWithin o (InScc a s)) (sys := clSelfSystem o a s j) (free := false) (m := a.sccStmts s)
    (f := fun _ => j) (one := fun i => (origOf a.p i).getD j false) hp
    (fun i hi => ⟨(inScc_mem.mp hi).1, hjn⟩) (fun i hi h => (horig i hi).mpr h)
    (fun x _ => by
      simp only [Cst.Sat, clSelfSystem, rows_append, rows_flatMap]
      rw [and_assoc]
      refine and_congr_right fun _ => and_congr_right fun _ => ?_
      constructor
      · intro h d hdm hw
        exact h d ((mem_clDeps (hd d)).mpr ⟨hdm, (hDW d).mpr hw⟩)
      · intro h d hdm
        obtain ⟨h1, h2⟩ := (mem_clDeps (hd d)).mp hdm
        exact h d h1 ((hDW d).mp h2)) hcols hd hne
    (fun d h => ⟨inScc_mem.mpr h.2.2.1, inScc_mem.mpr h.2.2.2⟩) (fun d _ _ => Or.inl fun i hi h => (horig i hi).mp h)
    ⟨i0, inScc_mem.mpr hi0⟩ (Or.inr fun i hi h => (horig i hi).mp h)
  obtain ⟨l1, l2⟩ := hlp (clSelfSystem o a s j) (fcgObjective a.p) hwf
  have key : ∀ x, clSelfSol lp o a s j = some x → (∀ v ∈ x, 0 ≤ v) ∧ SolLen a.p x ∧ ∃ v : LoopLevel,
      (∀ i, InScc a s i → v.Takes o a.p i j ∧ v.shift i = 0) ∧ (∀ d ∈ a.p.deps, DepWithin o (InScc a s) d → v.Weak a.p d) ∧
      (o.nodepbound = false → ∀ d ∈ a.p.deps, DepWithin o (InScc a s) d → v.Bounded a.p (x.take a.p.npar) (x.getD a.p.npar 0) d) := by
    intro x hx
    obtain ⟨g1, g2, g3⟩ := l1 x hx
    obtain ⟨m1, m2, m3⟩ := k1 x g1 g2 g3
    refine ⟨g2, ?_, _, fun i hi => ?_, m2, m3⟩
    · rw [hcols] at g1; unfold SolLen; unfold cstWidth at g1; omega
    · have := m1 i (inScc_mem.mpr hi)
      exact ⟨this.1, this.2 rfl⟩
  refine ⟨⟨fun h => ?_, fun h => ?_⟩, key⟩
  · rintro ⟨v, hv, hl⟩
    exact l2 h (k2 v (fun i hi => ⟨(hv i (inScc_mem.mp hi)).1, fun _ => (hv i (inScc_mem.mp hi)).2⟩) hl)
  · by_contra hn
    obtain ⟨x, hx⟩ := Option.ne_none_iff_exists'.mp hn
    obtain ⟨g1, g2, v, g3, g4, g5⟩ := key x hx
    have hxl : x.length = a.p.npar + 1 + a.p.stmts.length * (a.p.nvar + 1) := g2
    refine h ⟨v, g3, g4, x.take a.p.npar, x.getD a.p.npar 0, by rw [List.length_take]; omega,
      fun c hc => g1 c (List.mem_of_mem_take hc), ?_, g5⟩
    rw [List.getD_eq_getElem?_getD, List.getElem?_eq_getElem (by omega)]
    exact g1 _ (List.getElem_mem _)

/-- The answer of the solver for two loops. -/
theorem clPairSol_spec {s t j k : Nat} (hst : s ≠ t) (hj : j < a.width s) (hk : k < a.width t)
    (hc : ∀ d ∈ a.p.deps, DepWithin o (fun i => InScc a s i ∨ InScc a t i) d →
      d.src ≠ a.p.npar + 1 + d.dest * (a.p.nvar + 1) ∨
      (∀ i, InScc a s i → depthOf a.p i ≠ j) ∧ (∀ i, InScc a t i → depthOf a.p i ≠ k)) :
    (clPairSol lp o a s t j k = none ↔ ¬ SccFusable o a s t j k) ∧
    ∀ x, clPairSol lp o a s t j k = some x → (∀ v ∈ x, 0 ≤ v) ∧ SolLen a.p x ∧ ∃ v : LoopLevel,
      (∀ i, InScc a s i → v.Takes o a.p i j) ∧ (∀ i, InScc a t i → v.Takes o a.p i k) ∧
      (∀ d ∈ a.p.deps, DepWithin o (fun i => InScc a s i ∨ InScc a t i) d → v.Weak a.p d) ∧
      (o.nodepbound = false → ∀ d ∈ a.p.deps, DepWithin o (fun i => InScc a s i ∨ InScc a t i) d →
        v.Bounded a.p (x.take a.p.npar) (x.getD a.p.npar 0) d) := by
  obtain ⟨i0, hi0, hj0⟩ := maxDim_attained a s hj
  obtain ⟨i1, hi1, hk1⟩ := maxDim_attained a t hk
  have hjn : j < a.p.nvar := lt_of_lt_of_le hj0 (depth_le hp hi0.1)
  have hkn : k < a.p.nvar := lt_of_lt_of_le hk1 (depth_le hp hi1.1)
  have hmem : ∀ i, i ∈ a.sccStmts s ++ a.sccStmts t ↔ InScc a s i ∨ InScc a t i := by
    intro i; rw [List.mem_append, inScc_mem, inScc_mem]
  have hls : ∀ i, InScc a s i → clLoop a s j k i = j := fun i hi => if_pos hi.2
  have hlt : ∀ i, InScc a t i → clLoop a s j k i = k := fun i hi => if_neg (by rw [hi.2]; omega)
  have hDW : ∀ d : Dep, DepWithin o (fun i => ∃ s' ∈ [s, t], InScc a s' i) d ↔ DepWithin o (fun i => InScc a s i ∨ InScc a t i) d := by
    intro d; simp [DepWithin]
  have hsat : ∀ x : List ℚ, (clPairSystem o a s t j k).Sat x ↔ (coeffBoundConstraints o a.p).Sat x ∧
      (∀ r ∈ modeRows (cstWidth a.p.nvar a.p.npar a.p.stmts.length) (clMode a.p (a.sccStmts s ++ a.sccStmts t) (clLoop a s j k)
        (fun i => decide (clLoop a s j k i ≤ depthOf a.p i)) true), r.Sat x) ∧
      ∀ d ∈ a.p.deps, DepWithin o (fun i => InScc a s i ∨ InScc a t i) d → (depCst o.nodepbound a.p d).Sat x := by
    intro x
    simp only [Cst.Sat, clPairSystem, rows_append, rows_flatMap]
    constructor
    · rintro ⟨⟨h1, h2⟩, h3⟩
      exact ⟨h2, h3, fun d hdm hw => h1 d ((mem_clDeps (hd d)).mpr ⟨hdm, (hDW d).mpr hw⟩)⟩
    · rintro ⟨h2, h3, h1⟩
      refine ⟨⟨fun d hdm => ?_, h2⟩, h3⟩
      obtain ⟨g1, g2⟩ := (mem_clDeps (hd d)).mp hdm
      exact h1 d g1 ((hDW d).mp g2)
  have hcols : (clPairSystem o a s t j k).ncols = cstWidth a.p.nvar a.p.npar a.p.stmts.length := rfl
  have hwf : (clPairSystem o a s t j k).WF := by
    refine ⟨by rw [hcols]; unfold cstWidth; omega, ?_⟩
    have := (sys_wf (o := o) hd (l := clDeps o a [s, t]) (m := clMode a.p (a.sccStmts s ++ a.sccStmts t) (clLoop a s j k)
        (fun i => decide (clLoop a s j k i ≤ depthOf a.p i)) true) (fun d hdm => (List.mem_filter.mp hdm).1) rfl).2
    intro r hr
    refine this r ?_
    simp only [clPairSystem, List.mem_append] at hr ⊢
    tauto
  obtain ⟨k1, k2⟩ := lev_sys (o := o) (D := DepWithin o (fun i => InScc a s i ∨ InScc a t i)) (sys := clPairSystem o a s t j k) (free := true)
    (m := a.sccStmts s ++ a.sccStmts t) (f := clLoop a s j k) (one := fun i => decide (clLoop a s j k i ≤ depthOf a.p i)) hp
    (fun i hi => by
      rcases (hmem i).mp hi with h | h
      · exact ⟨h.1, by rw [hls i h]; exact hjn⟩
      · exact ⟨h.1, by rw [hlt i h]; exact hkn⟩)
    (fun i _ h => decide_eq_true h.le) (fun x _ => hsat x) hcols hd hne
    (fun d h => ⟨(hmem _).mpr h.2.2.1, (hmem _).mpr h.2.2.2⟩)
    (fun d hdm hD => by
      rcases hc d hdm hD with h | ⟨h1, h2⟩
      · exact Or.inr h
      · refine Or.inl fun i hi ho => ?_
        have ho' := of_decide_eq_true ho
        rcases (hmem i).mp hi with h | h
        · have := h1 i h
          rw [hls i h] at ho' ⊢; omega
        · have := h2 i h
          rw [hlt i h] at ho' ⊢; omega)
    ⟨i0, (hmem _).mpr (Or.inl hi0)⟩ (Or.inl ⟨i0, (hmem _).mpr (Or.inl hi0), by rw [hls i0 hi0]; exact hj0⟩)
  obtain ⟨l1, l2⟩ := hlp (clPairSystem o a s t j k) (fcgObjective a.p) hwf
  have key : ∀ x, clPairSol lp o a s t j k = some x → (∀ v ∈ x, 0 ≤ v) ∧ SolLen a.p x ∧ ∃ v : LoopLevel,
      (∀ i, InScc a s i → v.Takes o a.p i j) ∧ (∀ i, InScc a t i → v.Takes o a.p i k) ∧
      (∀ d ∈ a.p.deps, DepWithin o (fun i => InScc a s i ∨ InScc a t i) d → v.Weak a.p d) ∧
      (o.nodepbound = false → ∀ d ∈ a.p.deps, DepWithin o (fun i => InScc a s i ∨ InScc a t i) d →
        v.Bounded a.p (x.take a.p.npar) (x.getD a.p.npar 0) d) := by
    intro x hx
    obtain ⟨g1, g2, g3⟩ := l1 x hx
    obtain ⟨m1, m2, m3⟩ := k1 x g1 g2 g3
    refine ⟨g2, ?_, _, fun i hi => ?_, fun i hi => ?_, m2, m3⟩
    · rw [hcols] at g1; unfold SolLen; unfold cstWidth at g1; omega
    · have := (m1 i ((hmem i).mpr (Or.inl hi))).1
      rwa [hls i hi] at this
    · have := (m1 i ((hmem i).mpr (Or.inr hi))).1
      rwa [hlt i hi] at this
  refine ⟨⟨fun h => ?_, fun h => ?_⟩, key⟩
  · rintro ⟨v, hv1, hv2, hl⟩
    refine l2 h (k2 v (fun i hi => ⟨?_, nofun⟩) hl)
    rcases (hmem i).mp hi with h | h
    · rw [hls i h]; exact hv1 i h
    · rw [hlt i h]; exact hv2 i h
  · by_contra hn
    obtain ⟨x, hx⟩ := Option.ne_none_iff_exists'.mp hn
    obtain ⟨g1, g2, v, g3, g3', g4, g5⟩ := key x hx
    have hxl : x.length = a.p.npar + 1 + a.p.stmts.length * (a.p.nvar + 1) := g2
    refine h ⟨v, g3, g3', g4, x.take a.p.npar, x.getD a.p.npar 0, by rw [List.length_take]; omega,
      fun c hc => g1 c (List.mem_of_mem_take hc), ?_, g5⟩
    rw [List.getD_eq_getElem?_getD, List.getElem?_eq_getElem (by omega)]
    exact g1 _ (List.getElem_mem _)

omit hlp hp hd hne in
/-- A parallel solution bounds all distances by 0. -/
theorem lpSolParallel_zero {p : Prog} {x : List ℚ} (h0 : ∀ v ∈ x, 0 ≤ v) (hl : SolLen p x) (hpar : lpSolParallel p.npar x = true)
    (q : List ℚ) (hq : q.length = p.npar) : ldot (x.take p.npar) q + x.getD p.npar 0 = 0 := by
  have hs : (x.take (p.npar + 1)).sum = 0 := of_decide_eq_true hpar
  have hz : ∀ v ∈ x.take (p.npar + 1), v = 0 := by
    have hnn : ∀ v ∈ x.take (p.npar + 1), 0 ≤ v := fun v hv => h0 v (List.mem_of_mem_take hv)
    generalize x.take (p.npar + 1) = l at hs hnn
    induction l with
    | nil => simp
    | cons c l ih =>
      rw [List.sum_cons] at hs
      have h1 := hnn c (by simp)
      have h2 : 0 ≤ l.sum := List.sum_nonneg fun v hv => hnn v (by simp [hv])
      intro v hv
      rcases List.mem_cons.mp hv with rfl | hv
      · linarith
      · exact ih (by linarith) (fun v hv => hnn v (by simp [hv])) v hv
  have hlen : x.length = p.npar + 1 + p.stmts.length * (p.nvar + 1) := hl
  have hw : x.getD p.npar 0 = 0 := by
    rw [List.getD_eq_getElem?_getD, List.getElem?_eq_getElem (by omega)]
    exact hz _ (by rw [List.mem_take_iff_getElem]; exact ⟨p.npar, by omega, rfl⟩)
  have hu : ldot (x.take p.npar) q = 0 := by
    have hz' : ∀ v ∈ x.take p.npar, v = 0 := fun v hv => hz v (by
      rw [List.mem_take_iff_getElem] at hv ⊢
      obtain ⟨n, hn, e⟩ := hv
      exact ⟨n, by omega, e⟩)
    generalize x.take p.npar = l at hz'
    clear hq
    induction l generalizing q with
    | nil => simp
    | cons c l ih =>
      cases q with
      | nil => simp
      | cons b q =>
        rw [ldot_cons, hz' c (by simp), ih q (fun v hv => hz' v (by simp [hv]))]
        simp
  rw [hw, hu, add_zero]

end

end Pluto
