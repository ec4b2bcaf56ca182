import Verif.Lemmas.FcgBuild

/-! The conflict systems have a solution iff the loops can be one level. -/

namespace Pluto

theorem mem_intraDeps {o : SearchOpts} {p : Prog} {i : Nat} {d : Dep} : d ∈ intraDeps o p i ↔ d ∈ p.deps ∧ SelfDep o i d := by
  unfold intraDeps SelfDep
  rw [List.mem_filter]
  refine and_congr_right fun _ => ?_
  cases d.satisfied <;> cases d.rar <;> cases o.rar <;> simp

theorem mem_pairDeps {p : Prog} {i j : Nat} {d : Dep} : d ∈ pairDeps p i j ↔ d ∈ p.deps ∧ PairDep i j d := by
  unfold pairDeps PairDep
  rw [List.mem_filter]
  refine and_congr_right fun _ => ?_
  cases d.satisfied <;> simp

theorem rows_flatMap {nb : Bool} {p : Prog} {l : List Dep} {x : List ℚ} :
    (∀ r ∈ l.flatMap (fun d => (depCst nb p d).rows), r.Sat x) ↔ ∀ d ∈ l, (depCst nb p d).Sat x := by
  simp only [List.mem_flatMap, forall_exists_index, and_imp]
  exact ⟨fun h d hd r hr => h r d hd hr, fun h r d hd hr => h d hd r hr⟩

theorem rows_append {l1 l2 : List Row} {x : List ℚ} : (∀ r ∈ l1 ++ l2, r.Sat x) ↔ (∀ r ∈ l1, r.Sat x) ∧ ∀ r ∈ l2, r.Sat x := by
  simp only [List.mem_append, or_imp, forall_and]

section
variable {o : SearchOpts} {p : Prog} (hd : ∀ d ∈ p.deps, DepOK p d)
include hd

theorem sys_wf {rs : List Row} {l : List Dep} {m : Nat → Bool × Int} (hl : ∀ d ∈ l, d ∈ p.deps)
    (hr : rs = (coeffBoundConstraints o p).rows ++ modeRows (cstWidth p.nvar p.npar p.stmts.length) m ++
      l.flatMap (fun d => (depCst o.nodepbound p d).rows)) : Cst.WF ⟨cstWidth p.nvar p.npar p.stmts.length, rs⟩ := by
  refine ⟨by show 0 < cstWidth _ _ _; unfold cstWidth; omega, ?_⟩
  subst hr
  intro r hr
  simp only [List.mem_append, List.mem_flatMap] at hr
  rcases hr with (hr | hr) | ⟨d, hdl, hr⟩
  · have := coeffBound_wid o p
    exact this.2 r hr
  · exact modeRows_len _ _ r hr
  · obtain ⟨g1, g2⟩ := depCst_wf o.nodepbound p d (hd d (hl d hdl)).src (hd d (hl d hdl)).dest
    rw [← g2]
    exact g1.2 r hr

/-- The system of two loops. -/
theorem pair_sys (hp : p.Padded) (hne : NonemptyDeps p) {i j k l : Nat} (hij : i < j) (hk : k < (stmtBlock p i).count) (hl : l < (stmtBlock p j).count) :
    (∃ x : List ℚ, x.length + 1 = (pairSystem o p i j k l).ncols ∧ (∀ v ∈ x, 0 ≤ v) ∧ (pairSystem o p i j k l).Sat x) ↔
      Fusable o p i j k l := by
  obtain ⟨hkn, hin⟩ := count_lt hp hk
  obtain ⟨hln, hjn⟩ := count_lt hp hl
  have hoij := off_lt (nvar := p.nvar) (npar := p.npar) hij
  have hoi := off_end (nvar := p.nvar) (npar := p.npar) hin
  have hoj := off_end (nvar := p.nvar) (npar := p.npar) hjn
  have hlow : p.npar + 1 ≤ stmtOffset p.nvar p.npar i := by unfold stmtOffset; omega
  set oi := stmtOffset p.nvar p.npar i with hoi'
  set oj := stmtOffset p.nvar p.npar j with hoj'
  constructor
  · rintro ⟨x, hx, hnn, hsat⟩
    have hx' : x.length + 1 = cstWidth p.nvar p.npar p.stmts.length := hx
    have hlen : SolLen p x := by unfold SolLen; unfold cstWidth at hx'; omega
    have hlen' : x.length = p.npar + 1 + p.stmts.length * (p.nvar + 1) := hlen
    simp only [Cst.Sat, pairSystem, intraRows, rows_append, rows_flatMap] at hsat
    obtain ⟨⟨⟨⟨hcb, hm⟩, hpd⟩, hid⟩, hjd⟩ := hsat
    have hcb' := (coeffBound_satQ o p x hx').mp hcb
    rw [modeRows_sat _ _ _ hx'] at hm
    have hsupp : Supp p x i j k l := by
      intro idx h0 h1 h2 h3 h4
      by_cases hlt : idx < x.length
      · have := hm idx hlt
        rw [upd, if_neg h3, upd, if_neg h1, upd, if_neg h4, upd, if_neg h2, mode0] at this
        simpa [h0] using this
      · rw [List.getD_eq_getElem?_getD, List.getElem?_eq_none (by omega), Option.getD_none]
    have hpad := hsupp.pad hp hk hl
    have a1 : 1 ≤ x.getD (oi + k) 0 := by
      have := hm (oi + k) (by omega)
      rw [upd, if_neg (show ¬ oi + k = oj + l by omega), upd, if_pos rfl] at this
      simp only [Bool.false_eq_true, if_false] at this
      push_cast at this; linarith
    have a2 : 1 ≤ x.getD (oj + l) 0 := by
      have := hm (oj + l) (by omega)
      rw [upd, if_pos rfl] at this
      simp only [Bool.false_eq_true, if_false] at this
      push_cast at this; linarith
    refine ⟨⟨fun s => if s = i then k else l, fun s => if s = i then x.getD (oi + k) 0 else x.getD (oj + l) 0,
      fun s => if s = i then x.getD (oi + p.nvar) 0 else x.getD (oj + p.nvar) 0⟩, ?_, ?_, ?_, ?_, ?_⟩
    · simp
    · simp [show j ≠ i by omega]
    · refine ⟨by simpa using a1, by simpa using hcb'.1 (oi + p.nvar) (by omega), fun b hb => ?_⟩
      have := hcb'.2 b hb
      simp only [if_true]
      exact ⟨this _ (by omega) (by omega), this _ (by omega) (by omega)⟩
    · simp only [LoopLevel.Allowed, show j ≠ i by omega, if_false]
      refine ⟨a2, hcb'.1 (oj + p.nvar) (by omega), fun b hb => ?_⟩
      have := hcb'.2 b hb
      exact ⟨this _ (by omega) (by omega), this _ (by omega) (by omega)⟩
    · have hall : ∀ d ∈ p.deps, PairDep i j d ∨ SelfDep o i d ∨ SelfDep o j d → (depCst o.nodepbound p d).Sat x := by
        rintro d hdm (h | h | h)
        · exact hpd d (mem_pairDeps.mpr ⟨hdm, h⟩)
        · exact hid d (mem_intraDeps.mpr ⟨hdm, h⟩)
        · exact hjd d (mem_intraDeps.mpr ⟨hdm, h⟩)
      have hends : ∀ d : Dep, PairDep i j d ∨ SelfDep o i d ∨ SelfDep o j d → (d.src = i ∨ d.src = j) ∧ (d.dest = i ∨ d.dest = j) := by
        rintro d (⟨_, ⟨h1, h2⟩ | ⟨h1, h2⟩⟩ | ⟨_, h1, h2, _⟩ | ⟨_, h1, h2, _⟩) <;> simp [h1, h2]
      have hval : ∀ s, s = i ∨ s = j → ∀ y : List ℚ, y.length = p.nvar → hypValue p.nvar p.npar x s y =
          LoopLevel.time ⟨fun s => if s = i then k else l, fun s => if s = i then x.getD (oi + k) 0 else x.getD (oj + l) 0,
            fun s => if s = i then x.getD (oi + p.nvar) 0 else x.getD (oj + p.nvar) 0⟩ s y := by
        rintro s (rfl | rfl) y hy
        · rw [hsupp.val hp hk hl (by omega) hlen y hy]; simp [LoopLevel.time, hoi']
        · rw [hsupp.swap.val hp hl hk (by omega) hlen y hy]; simp [LoopLevel.time, hoj', show s ≠ i by omega]
      have key := fun d (hdm : d ∈ p.deps) hc => (dep_level (o := o) (hd d hdm) hlen hpad (hne d hdm).1 (hne d hdm).2
        (hval _ (hends d hc).1) (hval _ (hends d hc).2)).mp (hall d hdm hc)
      refine ⟨fun d hdm hc => (key d hdm hc).1, x.take p.npar, x.getD p.npar 0, by rw [List.length_take]; omega,
        fun c hc => hnn c (List.mem_of_mem_take hc), hcb'.1 _ (by omega), fun hb d hdm hc => (key d hdm hc).2 hb⟩
  · rintro ⟨v, rfl, rfl, hai, haj, hw, u, w, hu, hu0, hw0, hb⟩
    have hlen := levelVec_len p u w i j v
    have hlen' : (levelVec p u w i j v).length = p.npar + 1 + p.stmts.length * (p.nvar + 1) := hlen
    have hsupp := levelVec_supp p u w i j v
    have hpad := hsupp.pad hp hk hl
    obtain ⟨eu, ew⟩ := levelVec_bound p u w i j v hu
    obtain ⟨ei1, ei2⟩ := levelVec_i p u w i j v hin hkn
    obtain ⟨ej1, ej2⟩ := levelVec_j p u w i j v hjn hln hkn
    rw [← hoi'] at ei1 ei2
    rw [← hoj'] at ej1 ej2
    set x := levelVec p u w i j v
    have hx' : x.length + 1 = cstWidth p.nvar p.npar p.stmts.length := by rw [hlen']; rfl
    have hcases : ∀ idx < x.length, (0 ≤ x.getD idx 0) ∧ (p.npar + 1 ≤ idx → x.getD idx 0 = 0 ∨ x.getD idx 0 = v.scale i ∨ x.getD idx 0 = v.shift i ∨ x.getD idx 0 = v.scale j ∨ x.getD idx 0 = v.shift j) := by
      intro idx hidx
      by_cases h0 : p.npar + 1 ≤ idx
      · have h5 : x.getD idx 0 = 0 ∨ x.getD idx 0 = v.scale i ∨ x.getD idx 0 = v.shift i ∨ x.getD idx 0 = v.scale j ∨ x.getD idx 0 = v.shift j := by
          by_cases h1 : idx = oi + v.loop i
          · right; left; rw [h1, ei1]
          by_cases h2 : idx = oi + p.nvar
          · right; right; left; rw [h2, ei2]
          by_cases h3 : idx = oj + v.loop j
          · right; right; right; left; rw [h3, ej1]
          by_cases h4 : idx = oj + p.nvar
          · right; right; right; right; rw [h4, ej2]
          exact Or.inl (hsupp idx h0 h1 h2 h3 h4)
        refine ⟨?_, fun _ => h5⟩
        have := hai.1; have := hai.2.1; have := haj.1; have := haj.2.1
        rcases h5 with h | h | h | h | h <;> rw [h] <;> linarith
      · refine ⟨?_, fun h => absurd h h0⟩
        by_cases h1 : idx = p.npar
        · rw [h1, ew]; exact hw0
        · have h2 : idx < p.npar := by omega
          have : x.getD idx 0 = u.getD idx 0 := by
            rw [← eu]
            simp only [List.getD_eq_getElem?_getD]
            rw [List.getElem?_take_of_lt h2]
          rw [this, List.getD_eq_getElem?_getD, List.getElem?_eq_getElem (by omega)]
          exact hu0 _ (List.getElem_mem _)
    refine ⟨x, hx', ?_, ?_⟩
    · intro a ha
      obtain ⟨m, hm, rfl⟩ := List.getElem_of_mem ha
      have := (hcases m hm).1
      rwa [List.getD_eq_getElem?_getD, List.getElem?_eq_getElem hm] at this
    · have hval : ∀ s, s = i ∨ s = j → ∀ y : List ℚ, y.length = p.nvar → hypValue p.nvar p.npar x s y = v.time s y := by
        rintro s (rfl | rfl) y hy
        · rw [hsupp.val hp hk hl (by omega) hlen y hy, ← hoi', ei1, ei2]; rfl
        · rw [hsupp.swap.val hp hl hk (by omega) hlen y hy, ← hoj', ej1, ej2]; rfl
      have hends : ∀ d : Dep, PairDep i j d ∨ SelfDep o i d ∨ SelfDep o j d → (d.src = i ∨ d.src = j) ∧ (d.dest = i ∨ d.dest = j) := by
        rintro d (⟨_, ⟨h1, h2⟩ | ⟨h1, h2⟩⟩ | ⟨_, h1, h2, _⟩ | ⟨_, h1, h2, _⟩) <;> simp [h1, h2]
      have key : ∀ d ∈ p.deps, PairDep i j d ∨ SelfDep o i d ∨ SelfDep o j d → (depCst o.nodepbound p d).Sat x := by
        intro d hdm hc
        rw [dep_level (o := o) (hd d hdm) hlen hpad (hne d hdm).1 (hne d hdm).2 (hval _ (hends d hc).1) (hval _ (hends d hc).2), eu, ew]
        exact ⟨hw d hdm hc, fun h => hb h d hdm hc⟩
      simp only [Cst.Sat, pairSystem, intraRows, rows_append, rows_flatMap]
      refine ⟨⟨⟨⟨(coeffBound_satQ o p x hx').mpr ⟨fun idx h => (hcases idx h).1, ?_⟩, ?_⟩, ?_⟩, ?_⟩, ?_⟩
      · intro b hbb idx hidx h0
        have := hai.1; have := hai.2.1; have := haj.1; have := haj.2.1
        obtain ⟨b1, b2⟩ := hai.2.2 b hbb
        obtain ⟨b3, b4⟩ := haj.2.2 b hbb
        rcases (hcases idx hidx).2 h0 with h | h | h | h | h <;> rw [h] <;> linarith
      · rw [modeRows_sat _ _ _ hx']
        intro idx hidx
        rw [upd]
        by_cases h3 : idx = oj + v.loop j
        · rw [if_pos h3, h3, ej1]; have := haj.1
          simp only [Bool.false_eq_true, if_false]; push_cast; linarith
        rw [if_neg h3, upd]
        by_cases h1 : idx = oi + v.loop i
        · rw [if_pos h1, h1, ei1]; have := hai.1
          simp only [Bool.false_eq_true, if_false]; push_cast; linarith
        rw [if_neg h1, upd]
        by_cases h4 : idx = oj + p.nvar
        · rw [if_pos h4, h4, ej2]; have := haj.2.1
          simp only [Bool.false_eq_true, if_false]; push_cast; linarith
        rw [if_neg h4, upd]
        by_cases h2 : idx = oi + p.nvar
        · rw [if_pos h2, h2, ei2]; have := hai.2.1
          simp only [Bool.false_eq_true, if_false]; push_cast; linarith
        rw [if_neg h2, mode0]
        by_cases h0 : p.npar + 1 ≤ idx
        · simp only [h0, decide_true, if_true]
          rw [hsupp idx h0 h1 h2 h3 h4]; simp
        · simp only [h0, decide_false, Bool.false_eq_true, if_false]
          have := (hcases idx hidx).1
          push_cast; linarith
      · exact fun d hdm => key d (mem_pairDeps.mp hdm).1 (Or.inl (mem_pairDeps.mp hdm).2)
      · exact fun d hdm => key d (mem_intraDeps.mp hdm).1 (Or.inr (Or.inl (mem_intraDeps.mp hdm).2))
      · exact fun d hdm => key d (mem_intraDeps.mp hdm).1 (Or.inr (Or.inr (mem_intraDeps.mp hdm).2))

end

end Pluto
