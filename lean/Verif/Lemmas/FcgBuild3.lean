import Verif.Lemmas.FcgBuild2

/-! The system of a single loop. -/

namespace Pluto

section
variable {o : SearchOpts} {p : Prog} (hd : ∀ d ∈ p.deps, DepOK p d)
include hd

/-- The system of one loop. -/
theorem self_sys (hp : p.Padded) (hne : NonemptyDeps p) {i k : Nat} (hk : k < (stmtBlock p i).count) :
    (∃ x : List ℚ, x.length + 1 = (selfSystem o p i k).ncols ∧ (∀ v ∈ x, 0 ≤ v) ∧ (selfSystem o p i k).Sat x) ↔ PermutableLoop o p i k := by
  obtain ⟨hkn, hin⟩ := count_lt hp hk
  have hoi := off_end (nvar := p.nvar) (npar := p.npar) hin
  have hlow : p.npar + 1 ≤ stmtOffset p.nvar p.npar i := by unfold stmtOffset; omega
  set oi := stmtOffset p.nvar p.npar i with hoi'
  constructor
  · rintro ⟨x, hx, hnn, hsat⟩
    have hx' : x.length + 1 = cstWidth p.nvar p.npar p.stmts.length := hx
    have hlen : SolLen p x := by unfold SolLen; unfold cstWidth at hx'; omega
    have hlen' : x.length = p.npar + 1 + p.stmts.length * (p.nvar + 1) := hlen
    simp only [Cst.Sat, selfSystem, intraRows, rows_append, rows_flatMap] at hsat
    obtain ⟨⟨hcb, hm⟩, hid⟩ := hsat
    have hcb' := (coeffBound_satQ o p x hx').mp hcb
    rw [modeRows_sat _ _ _ hx'] at hm
    have hsupp : Supp p x i i k k := by
      intro idx h0 h1 h2 _ _
      by_cases hlt : idx < x.length
      · have := hm idx hlt
        rw [upd, if_neg h1, mode0] at this
        simpa [h0] using this
      · rw [List.getD_eq_getElem?_getD, List.getElem?_eq_none (by omega), Option.getD_none]
    have hpad := hsupp.pad hp hk hk
    have a1 : 1 ≤ x.getD (oi + k) 0 := by
      have := hm (oi + k) (by omega)
      rw [upd, if_pos rfl] at this
      simp only [Bool.false_eq_true, if_false] at this
      push_cast at this; linarith
    refine ⟨⟨fun _ => k, fun _ => x.getD (oi + k) 0, fun _ => x.getD (oi + p.nvar) 0⟩, rfl, ⟨a1, hcb'.1 (oi + p.nvar) (by omega), fun b hb => ?_⟩, ?_⟩
    · have := hcb'.2 b hb
      exact ⟨this _ (by omega) (by omega), this _ (by omega) (by omega)⟩
    · have hval : ∀ y : List ℚ, y.length = p.nvar → hypValue p.nvar p.npar x i y =
          LoopLevel.time ⟨fun _ => k, fun _ => x.getD (oi + k) 0, fun _ => x.getD (oi + p.nvar) 0⟩ i y := by
        intro y hy
        rw [hsupp.val hp hk hk (fun _ => rfl) hlen y hy]; rfl
      have key := fun d (hdm : d ∈ p.deps) (hc : SelfDep o i d) => (dep_level (o := o) (hd d hdm) hlen hpad (hne d hdm).1 (hne d hdm).2
        (by rw [hc.2.1]; exact hval) (by rw [hc.2.2.1]; exact hval)).mp (hid d (mem_intraDeps.mpr ⟨hdm, hc⟩))
      exact ⟨fun d hdm hc => (key d hdm hc).1, x.take p.npar, x.getD p.npar 0, by rw [List.length_take]; omega,
        fun c hc => hnn c (List.mem_of_mem_take hc), hcb'.1 _ (by omega), fun hb d hdm hc => (key d hdm hc).2 hb⟩
  · rintro ⟨v0, rfl, hai, hw, u, w, hu, hu0, hw0, hb⟩
    set v : LoopLevel := ⟨v0.loop, v0.scale, fun _ => 0⟩ with hv
    have ht : ∀ s t : List ℚ, v.time i t - v.time i s = v0.time i t - v0.time i s := by
      intro s t; simp only [LoopLevel.time, hv]; ring
    have hw' : ∀ d ∈ p.deps, SelfDep o i d → v.Weak p d := by
      intro d hdm hc hr s t q hi
      have := hw d hdm hc hr s t q hi
      have h2 := ht s t
      rw [hc.2.1, hc.2.2.1] at this ⊢
      linarith
    have hb' : o.nodepbound = false → ∀ d ∈ p.deps, SelfDep o i d → v.Bounded p u w d := by
      intro hn d hdm hc s t q hi
      have := hb hn d hdm hc s t q hi
      rw [hc.2.1, hc.2.2.1] at this ⊢
      rw [ht]; exact this
    have hk' : v.loop i < (stmtBlock p i).count := hk
    have hlen := levelVec_len p u w i i v
    have hlen' : (levelVec p u w i i v).length = p.npar + 1 + p.stmts.length * (p.nvar + 1) := hlen
    have hsupp := levelVec_supp p u w i i v
    have hpad := hsupp.pad hp hk' hk'
    obtain ⟨eu, ew⟩ := levelVec_bound p u w i i v hu
    obtain ⟨ei1, ei2⟩ := levelVec_i p u w i i v hin hkn
    rw [← hoi'] at ei1 ei2
    set x := levelVec p u w i i v
    have hx' : x.length + 1 = cstWidth p.nvar p.npar p.stmts.length := by rw [hlen']; rfl
    have hcases : ∀ idx < x.length, (0 ≤ x.getD idx 0) ∧ (p.npar + 1 ≤ idx → idx ≠ oi + v.loop i → x.getD idx 0 = 0) := by
      intro idx hidx
      by_cases h0 : p.npar + 1 ≤ idx
      · by_cases h1 : idx = oi + v.loop i
        · refine ⟨?_, fun _ h => absurd h1 h⟩
          rw [h1, ei1]
          have := hai.1
          show 0 ≤ v0.scale i
          linarith
        · have : x.getD idx 0 = 0 := by
            by_cases h2 : idx = oi + p.nvar
            · rw [h2, ei2]
            · exact hsupp idx h0 h1 h2 h1 h2
          exact ⟨this.ge, fun _ _ => this⟩
      · refine ⟨?_, fun h => absurd h h0⟩
        by_cases h1 : idx = p.npar
        · rw [h1, ew]; exact hw0
        · have h2 : idx < p.npar := by omega
          have : x.getD idx 0 = u.getD idx 0 := by
            rw [← eu]
            simp only [List.getD_eq_getElem?_getD]
            rw [List.getElem?_take_of_lt h2]
          rw [this, List.getD_eq_getElem?_getD, List.getElem?_eq_getElem (by omega)]
          exact hu0 _ (List.getElem_mem _)
    refine ⟨x, hx', ?_, ?_⟩
    · intro a ha
      obtain ⟨m, hm, rfl⟩ := List.getElem_of_mem ha
      have := (hcases m hm).1
      rwa [List.getD_eq_getElem?_getD, List.getElem?_eq_getElem hm] at this
    · have hval : ∀ y : List ℚ, y.length = p.nvar → hypValue p.nvar p.npar x i y = v.time i y := by
        intro y hy
        rw [hsupp.val hp hk' hk' (fun _ => rfl) hlen y hy, ← hoi', ei1, ei2]; rfl
      simp only [Cst.Sat, selfSystem, intraRows, rows_append, rows_flatMap]
      refine ⟨⟨(coeffBound_satQ o p x hx').mpr ⟨fun idx h => (hcases idx h).1, ?_⟩, ?_⟩, ?_⟩
      · intro b hbb idx hidx h0
        have h1 := hai.1
        obtain ⟨b1, _⟩ := hai.2.2 b hbb
        by_cases e : idx = oi + v.loop i
        · rw [e, ei1]; exact b1
        · rw [(hcases idx hidx).2 h0 e]; linarith
      · rw [modeRows_sat _ _ _ hx']
        intro idx hidx
        rw [upd]
        by_cases h1 : idx = oi + v0.loop i
        · rw [if_pos h1]
          have : x.getD idx 0 = v0.scale i := by rw [h1]; exact ei1
          have h2 := hai.1
          rw [this]
          simp only [Bool.false_eq_true, if_false]; push_cast; linarith
        rw [if_neg h1, mode0]
        by_cases h0 : p.npar + 1 ≤ idx
        · simp only [h0, decide_true, if_true]
          rw [(hcases idx hidx).2 h0 h1]; simp
        · simp only [h0, decide_false, Bool.false_eq_true, if_false]
          have := (hcases idx hidx).1
          push_cast; linarith
      · intro d hdm
        obtain ⟨hdm, hc⟩ := mem_intraDeps.mp hdm
        have := (dep_level (o := o) (v := v) (hd d hdm) hlen hpad (hne d hdm).1 (hne d hdm).2
          (by rw [hc.2.1]; exact hval) (by rw [hc.2.2.1]; exact hval)).mpr (by rw [eu, ew]; exact ⟨hw' d hdm hc, fun h => hb' h d hdm hc⟩)
        exact this

/-! ### The solver on these systems -/

theorem lp_pair {lp : Cst → Bool} (hlp : LpOracle lp) (hp : p.Padded) (hne : NonemptyDeps p) {i j k l : Nat} (hij : i < j)
    (hk : k < (stmtBlock p i).count) (hl : l < (stmtBlock p j).count) : lp (pairSystem o p i j k l) = true ↔ Fusable o p i j k l := by
  have hwf : (pairSystem o p i j k l).WF := by
    unfold pairSystem
    refine sys_wf (o := o) hd (l := pairDeps p i j ++ (intraDeps o p i ++ intraDeps o p j)) (m := upd (upd (upd (upd (mode0 p.npar)
      (stmtOffset p.nvar p.npar i + p.nvar) (false, 0)) (stmtOffset p.nvar p.npar j + p.nvar) (false, 0))
      (stmtOffset p.nvar p.npar i + k) (false, -1)) (stmtOffset p.nvar p.npar j + l) (false, -1)) ?_ ?_
    · intro d hd
      rcases List.mem_append.mp hd with h | h
      · exact (mem_pairDeps.mp h).1
      · rcases List.mem_append.mp h with h | h <;> exact (mem_intraDeps.mp h).1
    · simp only [intraRows, List.flatMap_append, List.append_assoc]
  rw [hlp _ hwf, pair_sys hd hp hne hij hk hl]

theorem lp_self {lp : Cst → Bool} (hlp : LpOracle lp) (hp : p.Padded) (hne : NonemptyDeps p) {i k : Nat}
    (hk : k < (stmtBlock p i).count) : lp (selfSystem o p i k) = true ↔ PermutableLoop o p i k := by
  have hwf : (selfSystem o p i k).WF := by
    unfold selfSystem
    exact sys_wf (o := o) hd (l := intraDeps o p i) (fun d hd => (mem_intraDeps.mp hd).1) rfl
  rw [hlp _ hwf, self_sys hd hp hne hk]

end

end Pluto
