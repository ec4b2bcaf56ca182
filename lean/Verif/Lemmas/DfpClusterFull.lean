import Verif.Lemmas.DfpClusterLoops
import Verif.Spec.DfpCluster

/-! Every loop gets a level of its own in the clustered search when all statements have the same number of loops. -/

namespace Pluto

theorem ClFcgOracle.in {fcgOf : ClBuild} (hF : ClFcgOracle fcgOf) {k : Prog} {a : Auto} (h : Uni k a) (colour : List Nat) (c : Nat)
    (hp sc : Nat → Bool) : FcgIn k a (fcgOf a colour c hp sc) := by
  obtain ⟨h1, h2⟩ := hF a colour c hp sc
  refine ⟨h1.trans h.size, ?_⟩
  intro s hs j hj j' hj' hne
  have := h2 s hs j (by rw [h.width hs]; exact hj) j' (by rw [h.width hs]; exact hj') hne
  rw [h.offset (le_of_lt hs)] at this
  exact this

/-- The components are not empty. -/
theorem scc_surj {a a' : Auto} (h : a.computeScc = some a') : ∀ s < a'.num, ∃ i < a.g.n, a'.scc i = (s : Int) := by
  obtain ⟨e1, e2, t, ht, e3, e4⟩ := computeScc_eq h
  obtain ⟨t', ht', _, _, h3⟩ := C14_scc a.g a.d
  rw [ht] at ht'
  cases ht'
  intro s hs
  obtain ⟨i, hi, e⟩ := (h3 (s : Int)).mp ⟨by omega, by omega⟩
  exact ⟨i, hi, by rw [← e3]; exact e⟩

/-- No dependence is empty. -/
def NoEmpty (k : Prog) : Prop := ∀ p, skel p = k → ∀ d ∈ p.deps, ∃ s t q, p.Inst d s t q

section
variable {k : Prog} {c s : Nat} {d d' : Cl}

/-- New components are parts of old ones. -/
theorem scc_refines (hN : NoEmpty k) {a a' : Auto} (hc : CInv True k a)
    (h : ({ a with g := ddgUpdate a.g a.p } : Auto).computeScc = some a') {i j : Nat} (hi : i < k.stmts.length) (hj : j < k.stmts.length)
    (e : a'.scc i = a'.scc j) : a.scc i = a.scc j := by
  obtain ⟨_, _, t, ht, e3, _⟩ := computeScc_eq h
  obtain ⟨t', ht', h1, _, _⟩ := C14_scc (ddgUpdate a.g a.p) a.d
  have ht : ddgComputeScc (ddgUpdate a.g a.p) a.d = some t := ht
  rw [ht] at ht'
  cases ht'
  have hn : (ddgUpdate a.g a.p).n = k.stmts.length := by
    rw [sk_len hc.inv.sk]
    exact hc.gn
  have mono : ∀ u v, (ddgUpdate a.g a.p).Reach u v → a.scc u ≤ a.scc v := by
    intro u v hr
    induction hr with
    | refl => exact le_refl _
    | @tail x y _ he ih =>
      refine le_trans ih ?_
      obtain ⟨_, _, h3⟩ := he
      have h3 : countDeps a.p.deps (fun _ _ => 0) x y ≠ 0 := h3
      rw [countDeps_spec, Nat.zero_add] at h3
      obtain ⟨dd, hd, hh⟩ := List.countP_pos_iff.mp (Nat.pos_of_ne_zero h3)
      simp only [Bool.and_eq_true, beq_iff_eq, Bool.not_eq_true'] at hh
      have := hc.mono trivial dd ⟨hd, hh.1.2, hh.2, hN a.p hc.inv.sk dd hd⟩
      rw [hh.1.1.1, hh.1.1.2] at this
      exact this
  rw [← e3] at e
  obtain ⟨r1, r2⟩ := (h1 i j (by rw [hn]; exact hi) (by rw [hn]; exact hj)).mp e
  exact le_antisymm (mono _ _ r1) (mono _ _ r2)

theorem colourStmt_mem {a : Auto} {t : Nat} (h : a.sccStmts t ≠ []) : a.colourStmt t ∈ a.sccStmts t := by
  unfold Auto.colourStmt
  generalize a.sccStmts t = l at h
  cases e : l.find? (fun i => decide (((a.p.stmts[i]?.map (·.dim)).getD 0 : Int) = a.maxDim t)) with
  | some x => exact List.mem_of_find?_eq_some e
  | none =>
    rw [Option.getD_none]
    cases l with
    | nil => exact absurd rfl h
    | cons x l =>
      rw [List.getLastD_eq_getLast?, List.getLast?_eq_some_getLast (by simp), Option.getD_some]
      exact List.getLast_mem _

theorem sccStmts_mem {a : Auto} {t i : Nat} (h : i ∈ a.sccStmts t) : i < a.p.stmts.length ∧ a.scc i = (t : Int) := by
  unfold Auto.sccStmts at h
  simpa using h

theorem flatMap_const_get {n m : Nat} {f : Nat → Nat → Nat} {t j : Nat} (ht : t < m) (hj : j < n) :
    colourOf ((List.range m).flatMap (fun s => (List.range n).map (fun j => f s j))) (n * t + j) = f t j := by
  unfold colourOf
  rw [List.getD_eq_getElem?_getD]
  induction m with
  | zero => omega
  | succ m ih =>
    have hlen : ((List.range m).flatMap (fun s => (List.range n).map (fun j => f s j))).length = n * m := by
      simp [List.length_flatMap, Nat.mul_comm]
    rw [List.range_succ, List.flatMap_append, List.getElem?_append, hlen]
    by_cases e : t < m
    · rw [if_pos (block_lt e hj), ih e]
    · obtain rfl : t = m := by omega
      rw [if_neg (by omega)]
      simp [hj]

theorem rebuild_cc {fcgOf : ClBuild} (hF : ClFcgOracle fcgOf) (hN : NoEmpty k)
    {L : Libs} (hE : EmptyOracle L.isEmpty) (hk : SkelOK k) (h : CC k c d)
    (hr : Cl.rebuildFcg fcgOf c d = some d') :
    CC k c d' ∧ ∀ i < k.stmts.length, ∀ j < k.nvar, d'.col k.nvar i j = d.col k.nvar i j := by
  unfold Cl.rebuildFcg at hr
  rw [Option.bind_eq_bind, Option.bind_eq_some_iff] at hr
  obtain ⟨a1, h1, h2⟩ := hr
  simp only [Option.pure_def, Option.some.injEq] at h2
  obtain ⟨g1, g2⟩ := update_cinv hE hk h.uni.inv h1
  have hsk := h.uni.inv.inv.sk
  have hn : d.a.g.n = k.stmts.length := by rw [sk_len hsk]; exact h.uni.inv.gn
  have u1 : Uni k a1 := by
    refine ⟨g1, h.uni.full, ?_⟩
    intro s hs
    obtain ⟨i, hi, e⟩ := scc_surj h1 s hs
    have hi : i < d.a.g.n := hi
    exact ⟨i, by rw [← hn]; exact hi, e⟩
  -- the colour of a statement
  have hst : ∀ i < k.stmts.length, ∀ j < k.nvar, stmtColour d.a d.colour i j = d.col k.nvar i j := by
    intro i hi j hj
    have hi' : i < d.a.p.stmts.length := by rw [← sk_len hsk]; exact hi
    have hdim : (d.a.p.stmts[i]).dimOrig = k.nvar := by
      have := h.uni.full _ (sk_stmt hsk (List.getElem_mem hi'))
      exact this
    unfold stmtColour Cl.col
    rw [List.getElem?_eq_getElem hi', Option.map_some, Option.getD_some, hdim, if_pos hj, h.uni.offset (le_of_lt (h.uni.toNat hi).1)]
  -- the statement a component gets its colours from
  have hrep : ∀ i < k.stmts.length, a1.colourStmt (a1.scc i).toNat < k.stmts.length ∧
      d.a.scc (a1.colourStmt (a1.scc i).toNat) = d.a.scc i := by
    intro i hi
    obtain ⟨t1, t2⟩ := u1.toNat hi
    have hi1 : i < a1.p.stmts.length := by rw [← sk_len g1.inv.sk]; exact hi
    have hne : a1.sccStmts (a1.scc i).toNat ≠ [] := by
      apply List.ne_nil_of_mem (a := i)
      unfold Auto.sccStmts
      simp only [List.mem_filter, List.mem_range, decide_eq_true_eq]
      exact ⟨hi1, t2.symm⟩
    obtain ⟨m1, m2⟩ := sccStmts_mem (colourStmt_mem hne)
    have m1 : a1.colourStmt (a1.scc i).toNat < k.stmts.length := by rw [sk_len g1.inv.sk]; exact m1
    exact ⟨m1, scc_refines hN h.uni.inv h1 m1 hi (m2.trans t2)⟩
  have hcolour : d'.colour = sccColours a1 (stmtColour d.a d.colour) := by rw [← h2]
  have ha : d'.a = a1 := by rw [← h2]
  have hshape : sccColours a1 (stmtColour d.a d.colour) = (List.range a1.num).flatMap (fun s => (List.range k.nvar).map
      (fun j => stmtColour d.a d.colour (a1.colourStmt s) j)) := by
    unfold sccColours
    apply List.flatMap_congr
    intro s hs
    rw [u1.width (List.mem_range.mp hs)]
  have hrepcol : ∀ i < k.stmts.length, ∀ j < k.nvar, stmtColour d.a d.colour (a1.colourStmt (a1.scc i).toNat) j = d.col k.nvar i j := by
    intro i hi j hj
    obtain ⟨r1, r2⟩ := hrep i hi
    rw [hst _ r1 j hj]
    unfold Cl.col
    rw [r2]
  have hcol : ∀ i < k.stmts.length, ∀ j < k.nvar, d'.col k.nvar i j = d.col k.nvar i j := by
    intro i hi j hj
    rw [← hrepcol i hi j hj]
    unfold Cl.col
    rw [hcolour, ha, hshape, flatMap_const_get (u1.toNat hi).1 hj]
  refine ⟨⟨?_, ?_, ?_, ?_, ?_, ?_, ?_, ?_⟩, hcol⟩
  · rw [ha]; exact u1
  · rw [← h2]; exact h.coloured
  · rw [← h2]; exact hF.in u1 _ _ _ _
  · rw [hcolour, ha, hshape]
    simp [List.length_flatMap, Nat.mul_comm]
  · intro i hi j hj
    rw [hcol i hi j hj]; exact h.le i hi j hj
  · intro i hi j hj j' hj'
    rw [hcol i hi j hj, hcol i hi j' hj']
    exact h.inj i hi j hj j' hj'
  · intro i hi c' h3 h4
    obtain ⟨j, hj, e⟩ := h.old i hi c' h3 h4
    exact ⟨j, hj, by rw [hcol i hi j hj]; exact e⟩
  · intro i hi hd
    have hd : (List.range (a1.width (a1.scc i).toNat)).any (fun j => stmtColour d.a d.colour (a1.colourStmt (a1.scc i).toNat) j == c) = true := by
      rw [← h2] at hd
      exact hd
    rw [List.any_eq_true] at hd
    obtain ⟨j, hj, e⟩ := hd
    rw [List.mem_range, u1.width (u1.toNat hi).1] at hj
    rw [beq_iff_eq, hrepcol i hi j hj] at e
    exact ⟨j, hj, by rw [hcol i hi j hj]; exact e⟩

theorem Painted.mark (h : Painted k c s d d') : CC k c (d'.mark s) ∧ Ext k c d (d'.mark s) ∧ (d'.mark s).done s = true := by
  obtain ⟨h1, h2, h3⟩ := h
  refine ⟨⟨h1.uni, h1.coloured, h1.fcg, h1.len, h1.le, h1.inj, h1.old, ?_⟩, ⟨h2.grow, h2.keep, ?_⟩, ?_⟩
  · intro i hi hd
    have hd : (if (d'.a.scc i).toNat = s then true else d'.done (d'.a.scc i).toNat) = true := hd
    by_cases e : (d'.a.scc i).toNat = s
    · exact h3 i hi (by rw [← e]; exact (h1.uni.toNat hi).2.symm)
    · rw [if_neg e] at hd
      exact h1.cur i hi hd
  · intro t ht
    show (if t = s then true else d'.done t) = true
    split_ifs
    · rfl
    · exact h2.done t ht
  · show (if s = s then true else d'.done s) = true
    rw [if_pos rfl]

theorem Painted.after {e : Cl} (h : Ext k c d e) (hp : Painted k c s e d') : Painted k c s d d' := ⟨hp.1, h.trans hp.2.1, hp.2.2⟩

end

section
variable {k : Prog} {L : Libs} {o : ClOpts} {fcgOf : ClBuild} {fuse : Fuse} {d d' : Cl} {c s : Nat}
  (hE : EmptyOracle L.isEmpty) (hk : SkelOK k) (hF : ClFcgOracle fcgOf) (hN : NoEmpty k)
include hE hk hF

theorem clLastTry_painted (h0 : CC k c d) (hc : 1 ≤ c) (hcn : c ≤ k.nvar) (hs : s < d.a.num)
    (h : Cl.lastTry L.isEmpty o fcgOf fuse c s d = some d') : Painted k c s d d' := by
  unfold Cl.lastTry at h
  simp only [Option.bind_eq_bind] at h
  obtain ⟨⟨p4, n⟩, h4, h⟩ := Option.bind_eq_some_iff.mp h
  obtain ⟨⟨d5, ok5⟩, h5, h⟩ := Option.bind_eq_some_iff.mp h
  have g4 := precise_grow hE hk h0.uni.inv h4
  simp only at h
  split_ifs at h with hok
  simp only [Option.pure_def, Option.some.injEq] at h
  rw [← h]
  have q : Quiet k d { d with a := { d.a with p := p4 }, f := fcgOf { d.a with p := p4 } d.colour c d.hasPar d.stencil, rebuild := false } :=
    ⟨g4, rfl, rfl, rfl, fun u _ => hF.in (u.grow g4) _ _ _ _⟩
  have := clColourScc_painted hE hk (h0.quiet q) hc hcn hs h5
  exact (this.2.2 hok).after q.ext

include hN in
theorem clColourOne_cc {pc : Bool} {prev : Option Nat} {n : ClNext} (h0 : CC k c d) (hc : 1 ≤ c) (hcn : c ≤ k.nvar) (hs : s < d.a.num)
    (h : Cl.colourOne L.isEmpty o fcgOf fuse c pc prev s d = some n) :
    CC k c n.state ∧ (∀ i < k.stmts.length, ∀ j < k.nvar, n.state.col k.nvar i j = d.col k.nvar i j ∨ n.state.col k.nvar i j = c) ∧
      ∀ e, n = .go e → e.a.num = d.a.num ∧ (∀ t, d.done t = true → e.done t = true) ∧ e.done s = true := by
  have go : ∀ e, Painted k c s d e → CC k c (ClNext.go (e.mark s)).state ∧
      (∀ i < k.stmts.length, ∀ j < k.nvar, (ClNext.go (e.mark s)).state.col k.nvar i j = d.col k.nvar i j ∨
        (ClNext.go (e.mark s)).state.col k.nvar i j = c) ∧
      ∀ e', ClNext.go (e.mark s) = .go e' → e'.a.num = d.a.num ∧ (∀ t, d.done t = true → e'.done t = true) ∧ e'.done s = true := by
    intro e he
    obtain ⟨m1, m2, m3⟩ := he.mark
    refine ⟨m1, m2.keep, ?_⟩
    intro e' h
    cases h
    exact ⟨m2.grow.num, m2.done, m3⟩
  unfold Cl.colourOne at h
  simp only [Option.bind_eq_bind] at h
  obtain ⟨d1, h1, h⟩ := Option.bind_eq_some_iff.mp h
  obtain ⟨d2, h2, h⟩ := Option.bind_eq_some_iff.mp h
  obtain ⟨⟨d3, ok3⟩, h3, h⟩ := Option.bind_eq_some_iff.mp h
  have q1 := clDistribute_quiet hE hk (le_of_lt hs) h0.uni.inv h1
  have q2 := q1.trans (typedCut_quiet hE hk (by rw [q1.grow.num]; exact le_of_lt hs) q1.grow.inv h2)
  have hs2 : s < d2.a.num := by rw [q2.grow.num]; exact hs
  obtain ⟨c3, e3, p3⟩ := clColourScc_painted hE hk (h0.quiet q2) hc hcn hs2 h3
  simp only at h
  split_ifs at h with hok hreb
  · simp only [Option.pure_def, Option.some.injEq] at h
    rw [← h]
    exact go _ ((p3 hok).after q2.ext)
  · obtain ⟨d4, h4, h⟩ := Option.bind_eq_some_iff.mp h
    obtain ⟨d5, h5, h⟩ := Option.bind_eq_some_iff.mp h
    simp only [Option.pure_def, Option.some.injEq] at h
    rw [← h]
    have q4 := clCutIfNoFuse_quiet hE hk c3.uni.inv h4
    obtain ⟨r1, r2⟩ := rebuild_cc hF hN hE hk (c3.quiet q4) h5
    have e4 := q2.ext.trans (e3.trans (q4.ext (c := c)))
    refine ⟨r1, ?_, fun e h => by cases h⟩
    intro i hi j hj
    show d5.col k.nvar i j = _ ∨ _
    rw [show (ClNext.again d5).state = d5 from rfl, r2 i hi j hj]
    exact e4.keep i hi j hj
  · obtain ⟨d4, h4, h⟩ := Option.bind_eq_some_iff.mp h
    obtain ⟨⟨d5, ok5⟩, h5, h⟩ := Option.bind_eq_some_iff.mp h
    have hs3 : s < d3.a.num := by rw [e3.grow.num]; exact hs2
    have q4 := clCutAndUpdate_quiet hE hk (le_of_lt hs3) c3.uni.inv h4
    have hs4 : s < d4.a.num := by rw [q4.grow.num]; exact hs3
    have e4 := q2.ext.trans (e3.trans (q4.ext (c := c)))
    obtain ⟨c5, e5, p5⟩ := clColourScc_painted hE hk (c3.quiet q4) hc hcn hs4 h5
    simp only at h
    split_ifs at h with hok5
    · simp only [Option.pure_def, Option.some.injEq] at h
      rw [← h]
      exact go _ ((p5 hok5).after e4)
    · obtain ⟨d6, h6, h⟩ := Option.bind_eq_some_iff.mp h
      simp only [Option.pure_def, Option.some.injEq] at h
      rw [← h]
      exact go _ ((clLastTry_painted hE hk hF c5 hc hcn (by rw [e5.grow.num]; exact hs4) h6).after (e4.trans e5))

include hN in
theorem clColourFcg_cc (hc : 1 ≤ c) (hcn : c ≤ k.nvar) (fuel : Nat) : ∀ (pc : Bool) (prev : Option Nat) (s : Nat) (d d' : Cl), CC k c d →
    (∀ t < s, d.done t = true) → Cl.colourFcg L.isEmpty o fcgOf fuse c fuel pc prev s d = some d' →
    CC k c d' ∧ (∀ i < k.stmts.length, ∀ j < k.nvar, d'.col k.nvar i j = d.col k.nvar i j ∨ d'.col k.nvar i j = c) ∧
      ∀ t < d'.a.num, d'.done t = true := by
  induction fuel with
  | zero => intro pc prev s d d' _ _ h; simp [Cl.colourFcg] at h
  | succ fuel ih =>
    intro pc prev s d d' h0 hd h
    rw [Cl.colourFcg] at h
    split_ifs at h with h1 h2
    · simp only [Option.some.injEq] at h
      rw [← h]
      exact ⟨h0, fun _ _ _ _ => .inl rfl, fun t ht => hd t (by omega)⟩
    · refine ih _ _ _ _ _ h0 ?_ h
      intro t ht
      rw [h0.uni.maxDim (by omega)] at h2
      simp only [Bool.or_eq_true, decide_eq_true_eq] at h2
      by_cases e : t = s
      · subst e
        rcases h2 with h2 | h2
        · exact h2
        · omega
      · exact hd t (by omega)
    all_goals
      rw [Option.bind_eq_bind, Option.bind_eq_some_iff] at h
      obtain ⟨n, g1, g2⟩ := h
      obtain ⟨s1, s2, s3⟩ := clColourOne_cc hE hk hF hN h0 hc hcn (by omega) g1
      cases n with
      | go d1 =>
        obtain ⟨e1, e2, e3⟩ := s3 d1 rfl
        obtain ⟨r1, r2, r3⟩ := ih _ _ _ _ _ s1 (fun t ht => by
          by_cases e : t = s
          · rw [e]; exact e3
          · exact e2 t (hd t (by omega))) g2
        refine ⟨r1, ?_, r3⟩
        intro i hi j hj
        rcases r2 i hi j hj with e | e
        · rw [e]; exact s2 i hi j hj
        · exact .inr e
      | again d1 =>
        obtain ⟨r1, r2, r3⟩ := ih _ _ _ _ _ s1 (fun t ht => absurd ht (by omega)) g2
        refine ⟨r1, ?_, r3⟩
        intro i hi j hj
        rcases r2 i hi j hj with e | e
        · rw [e]; exact s2 i hi j hj
        · exact .inr e

end

/-- A solution scales the loops of the current colour and has no part in the others. -/
theorem clColourCst_sat {k : Prog} {a : Auto} (hu : Uni k a) (hk : SkelOK k) {colour : List Nat} {c : Nat} (hcn : c ≤ k.nvar) {cst : Cst} {x : List ℚ}
    (hl : SolLen k x) (hw : cst.ncols = cstWidth k.nvar k.npar k.stmts.length) (h : (clColourCst a colour c cst).Sat x) :
    ∀ i < k.stmts.length, ∀ j < k.nvar, if colourOf colour (k.nvar * (a.scc i).toNat + j) = c then
        1 ≤ x.getD (stmtOffset k.nvar k.npar i + j) 0
      else x.getD (stmtOffset k.nvar k.npar i + j) 0 = 0 := by
  intro i hi j hj
  have hsk := hu.inv.inv.sk
  obtain ⟨t1, t2⟩ := hu.toNat hi
  have hi' : i < a.p.stmts.length := by rw [← sk_len hsk]; exact hi
  have hb := stmtOffset_bound k.nvar k.npar k.stmts.length i hi
  have hsl : x.length + 1 = cst.ncols := by rw [hw]; exact solLen_width hl
  have hin : (clRow a cst.ncols colour c ((a.scc i).toNat, i, j)).Sat x := by
    refine h _ ?_
    rw [clColourCst_eq]
    refine List.mem_append_right _ (List.mem_flatMap.mpr ⟨((a.scc i).toNat, i, j), ?_, List.mem_singleton.mpr rfl⟩)
    unfold Auto.clLoops Auto.sccStmts
    simp only [List.mem_flatMap, List.mem_map, List.mem_filter, List.mem_range, decide_eq_true_eq]
    exact ⟨_, t1, i, ⟨hi', t2.symm⟩, j, by rw [hu.width t1]; exact hj, rfl⟩
  have horig : ((a.p.stmts[i]?.map (·.isOrig)).getD []).getD j false = true := by
    have h1 := hk.stmt hsk (List.getElem_mem hi')
    have h2 : (a.p.stmts[i]).dimOrig = k.nvar := by
      have := hu.full _ (sk_stmt hsk (List.getElem_mem hi'))
      exact this
    rw [List.getElem?_eq_getElem hi', Option.map_some, Option.getD_some, h1.2.2, h2, List.getD_eq_getElem?_getD,
      List.getElem?_append_left (by simpa using hj), List.getElem?_replicate, if_pos hj]
    rfl
  unfold clRow at hin
  simp only [hu.maxDim t1, hu.offset (le_of_lt t1), horig, Bool.and_true, beq_iff_eq, ← sk_nvar hsk, ← sk_npar hsk] at hin
  rw [if_neg (by omega)] at hin
  split_ifs at hin ⊢ with he
  · rw [Row.Sat] at hin
    simp only [Bool.false_eq_true, if_false] at hin
    rw [aff_unitRow_rat _ _ _ _ _ (by omega) hsl] at hin
    push_cast at hin
    linarith
  · rw [Row.Sat] at hin
    simp only [if_true] at hin
    rw [aff_unitRow_rat _ _ _ _ _ (by omega) hsl] at hin
    push_cast at hin
    linarith

/-- Every loop coloured before level `c` has a row of its own. -/
def ClRowsFor (k : Prog) (c : Nat) (d : Cl) : Prop :=
  ∀ i < k.stmts.length, ∀ j < k.nvar, 1 ≤ d.col k.nvar i j → d.col k.nvar i j < c → ∃ r ∈ rowsAt d.a.p i, LoopRow k.nvar r j

section
variable {k : Prog} {L : Libs} {o : SearchOpts} {co : ClOpts} {fcgOf : ClBuild} {fuse : Fuse} {fuel : Nat}
  {lex : Lex} (hE : EmptyOracle L.isEmpty) (hL : LexScales k lex) (hk : SkelOK k) (hk0 : k.stmts ≠ []) (hF : ClFcgOracle fcgOf) (hN : NoEmpty k)
include hE hL hk hk0 hF hN

theorem clLevel_cc {c : Nat} {d d' : Cl} (hc : 1 ≤ c) (hcn : c ≤ k.nvar) (h0 : CC k c { d with done := fun _ => false }) (hr0 : ClRowsFor k c d)
    (h : Cl.level o co L lex fcgOf fuse fuel c d = some d') : CC k (c + 1) { d' with done := fun _ => false } ∧ ClRowsFor k (c + 1) d' := by
  have hkeep := clLevel_keep hE hL hk hk0 (show CInv True k d.a from h0.uni.inv) h
  unfold Cl.level at h
  simp only [Option.bind_eq_bind] at h
  obtain ⟨d1, h1, h⟩ := Option.bind_eq_some_iff.mp h
  obtain ⟨a2, h2, h⟩ := Option.bind_eq_some_iff.mp h
  obtain ⟨⟨p3, n3⟩, h3, h⟩ := Option.bind_eq_some_iff.mp h
  simp only [Option.pure_def, Option.some.injEq] at h
  have st := clColourFcg_keep hE hk _ _ _ _ { d with done := fun _ => false } _ h0.uni.inv h1
  obtain ⟨c1, k1, all1⟩ := clColourFcg_cc hE hk hF hN hc hcn fuel _ _ _ _ _ h0 (fun t ht => absurd ht (by omega)) h1
  obtain ⟨b, hb, e2, ⟨bs, bn⟩, hr, sc⟩ := clScaleShift_spec hL hk hk0 hE c1.uni.inv h2
  have hst : p3.stmts = a2.p.stmts := by
    unfold satUpdateLast at h3
    rw [Option.bind_eq_bind, Option.bind_eq_some_iff] at h3
    obtain ⟨st0, hs, h3⟩ := h3
    have hl := (sc.inv.rows st0 (List.mem_of_getElem? hs)).1
    split_ifs at h3
    obtain ⟨_, x2, _⟩ := sc.inv.update hE hk (by omega) h3
    rw [x2]
  have escc : d'.a.scc = d1.a.scc := by
    rw [← h]
    show a2.scc = _
    rw [e2]
    exact bs
  have enum : d'.a.num = d1.a.num := by
    rw [← h]
    show a2.num = _
    rw [e2]
    exact bn
  have hcol : ∀ i j, d'.col k.nvar i j = d1.col k.nvar i j := by
    intro i j
    unfold Cl.col
    rw [escc, ← h]
  have hcol' : ∀ i j, Cl.col k.nvar { d' with done := fun _ => false } i j = d1.col k.nvar i j := hcol
  have hrow : ∀ i, rowsAt a2.p i = rowsAt d'.a.p i := by
    intro i
    rw [← h]
    unfold rowsAt
    show _ = (p3.stmts[i]?.map _).getD _
    rw [hst]
  refine ⟨⟨⟨hkeep.1, h0.uni.full, ?_⟩, ?_, ⟨?_, ?_⟩, ?_, ?_, ?_, ?_, ?_⟩, ?_⟩
  · show ∀ s < d'.a.num, ∃ i < k.stmts.length, d'.a.scc i = (s : Int)
    rw [escc, enum]
    exact c1.uni.surj
  · show d'.coloured + 1 = c + 1
    rw [← h]
    show d1.coloured + 1 + 1 = c + 1
    rw [c1.coloured]
  · show d'.f.g.n = k.nvar * d'.a.num
    rw [enum, ← h]
    exact c1.fcg.size
  · show ∀ s < d'.a.num, _
    rw [enum, ← h]
    exact c1.fcg.intra
  · show d'.colour.length = k.nvar * d'.a.num
    rw [enum, ← h]
    exact c1.len
  · intro i hi j hj
    rw [hcol']
    exact Nat.le_succ_of_le (c1.le i hi j hj)
  · intro i hi j hj j' hj'
    rw [hcol', hcol']
    exact c1.inj i hi j hj j' hj'
  · intro i hi c' g1 g2
    simp only [hcol']
    by_cases e : c' = c
    · rw [e]
      exact c1.cur i hi (all1 _ (c1.uni.toNat hi).1)
    · exact c1.old i hi c' g1 (by omega)
  · intro i hi hd
    exact absurd hd (by simp)
  · intro i hi j hj g1 g2
    rw [hcol] at g1 g2
    by_cases e : d1.col k.nvar i j = c
    · obtain ⟨x, x1, x2, x3⟩ := sc.found
      have hw : (coeffBoundConstraints o d1.a.p).ncols = cstWidth k.nvar k.npar k.stmts.length := by
        rw [sk_nvar c1.uni.inv.inv.sk, sk_npar c1.uni.inv.inv.sk, sk_len c1.uni.inv.inv.sk]
        exact (coeffBound_wid o d1.a.p).1
      have hsat := clColourCst_sat c1.uni hk hcn x1 hw x2
      obtain ⟨r, r1, m, r2, r3⟩ := x3 i hi
      refine ⟨r, by rw [← hrow]; exact r1, ?_, ?_⟩
      · have h5 := hsat i hi j hj
        rw [if_pos (show colourOf d1.colour (k.nvar * (d1.a.scc i).toNat + j) = c from e)] at h5
        have h6 := r3 j hj
        have : (0 : ℚ) < (coef r j : ℚ) := by
          rw [h6]
          exact mul_pos r2 (by linarith)
        exact_mod_cast this
      · intro j' hj' hne
        have h5 := hsat i hi j' hj'
        rw [if_neg (show ¬ colourOf d1.colour (k.nvar * (d1.a.scc i).toNat + j') = c by
          intro e'
          have e' : d1.col k.nvar i j' = c := e'
          exact hne (c1.inj i hi j' hj' j hj (by rw [e, e']) (by omega)))] at h5
        have h6 := r3 j' hj'
        rw [h5, mul_zero] at h6
        exact_mod_cast h6
    · have hold : d1.col k.nvar i j = d.col k.nvar i j := (k1 i hi j hj).resolve_right e
      obtain ⟨r, r1, r2⟩ := hr0 i hi j hj (by omega) (by omega)
      exact ⟨r, hkeep.2 i r1, r2⟩

theorem clLevels_cc (n : Nat) : ∀ (c : Nat) (d d' : Cl), 1 ≤ c → c + n ≤ k.nvar + 1 → CC k c { d with done := fun _ => false } → ClRowsFor k c d →
    Cl.levels o co L lex fcgOf fuse fuel n c d = some d' → CC k (c + n) { d' with done := fun _ => false } ∧ ClRowsFor k (c + n) d' := by
  induction n with
  | zero =>
    intro c d d' _ _ h0 hr h
    simp only [Cl.levels, Option.some.injEq] at h
    rw [← h]; exact ⟨h0, hr⟩
  | succ n ih =>
    intro c d d' hc hcn h0 hr h
    simp only [Cl.levels, Option.bind_eq_bind] at h
    obtain ⟨d1, h1, h2⟩ := Option.bind_eq_some_iff.mp h
    obtain ⟨g1, g2⟩ := clLevel_cc hE hL hk hk0 hF hN hc (by omega) h0 hr h1
    have := ih (c + 1) d1 d' (by omega) (by omega) g1 g2 h2
    rw [show c + (n + 1) = c + 1 + n by omega]
    exact this

end

/-- Colours `1, …, n` on `n` loops: every loop is coloured. -/
theorem all_coloured {n : Nat} {f : Nat → Nat} (h : ∀ c', 1 ≤ c' → c' < 1 + n → ∃ j < n, f j = c') : ∀ j < n, 1 ≤ f j ∧ f j < 1 + n := by
  have hsub : Finset.Icc 1 n ⊆ (Finset.range n).image f := by
    intro x hx
    rw [Finset.mem_Icc] at hx
    obtain ⟨j, hj, e⟩ := h x hx.1 (by omega)
    exact Finset.mem_image.mpr ⟨j, Finset.mem_range.mpr hj, e⟩
  have hcard : ((Finset.range n).image f).card ≤ (Finset.Icc 1 n).card := by
    have := Finset.card_image_le (s := Finset.range n) (f := f)
    simpa using this
  have heq := Finset.eq_of_subset_of_card_le hsub hcard
  intro j hj
  have : f j ∈ Finset.Icc 1 n := by
    rw [heq]
    exact Finset.mem_image_of_mem f (Finset.mem_range.mpr hj)
  rw [Finset.mem_Icc] at this
  omega

/-- The state at the first level. -/
theorem clInit_cc {o : AutoOpts} {co : ClOpts} {L : Libs} (hE : EmptyOracle L.isEmpty) {fcgOf : ClBuild} (hF : ClFcgOracle fcgOf)
    {sten : Auto → Nat → Bool} {p0 k : Prog} (hp : p0.InputOK) {a : Auto} {d0 : DfsState} {d : Cl} (hc : CInv True k d.a)
    (hfull : ∀ st ∈ k.stmts, st.dimOrig = k.nvar)
    (h1 : (⟨{ p0 with deps := p0.deps.map (fun d => { d with satisfied := false }) },
      ddgCreate { p0 with deps := p0.deps.map (fun d => { d with satisfied := false }) }, d0, fun _ => -1, 0⟩ :
        Auto).computeScc = some a)
    (h2 : clInit o co L fcgOf sten a = some d) : CC k 1 { d with done := fun _ => false } ∧ ClRowsFor k 1 d := by
  unfold clInit at h2
  simp only [Option.bind_eq_bind] at h2
  obtain ⟨s, h3, h2⟩ := Option.bind_eq_some_iff.mp h2
  obtain ⟨a4, h4, h2⟩ := Option.bind_eq_some_iff.mp h2
  simp only [Option.pure_def, Option.some.injEq] at h2
  obtain ⟨p3, hc3, m2, m3, _, h5⟩ := init_state (X := True) hp h1 h3
  have hs : s.a = { a with p := p3 } := by
    unfold initCut at h5
    simp only [reduceCtorEq, if_false, Option.some.injEq] at h5
    exact h5.symm
  have hk3 := pad_skelOK hp m2 m3
  have ha : d.a = a4 := by rw [← h2]
  have hgn : d.a.g.n = k.stmts.length := by rw [hc.gn, ← sk_len hc.inv.sk]
  have hg : a.g.n = d.a.g.n ∧ ∀ s < d.a.num, ∃ i < d.a.g.n, d.a.scc i = (s : Int) := by
    rw [ha]
    unfold noFuseCut at h4
    split_ifs at h4
    · rw [Option.bind_eq_bind, Option.bind_eq_some_iff] at h4
      obtain ⟨a1, g1, g2⟩ := h4
      obtain ⟨⟨a2, n⟩, g3, g4⟩ := Option.map_eq_some_iff.mp g2
      have e4 : a2 = a4 := g4
      have hc1 := computeScc_spec (hs ▸ hc3.toAInv : AInv True (skel p3) s.a) g1
      have hg3 := cutAll_grow hE hk3 hc1 g3
      have e1 : a1.g = s.a.g := (scc_facts g1).2.1
      have n2 : a2.g.n = a.g.n := by
        rw [hg3.inv.gn, ← sk_len hg3.inv.inv.sk, sk_len hc3.inv.sk, ← hc3.gn]
      rw [← e4]
      refine ⟨n2.symm, ?_⟩
      rw [hg3.scc, hg3.num, n2]
      intro t ht
      obtain ⟨i, hi, e⟩ := scc_surj g1 t ht
      rw [hs] at hi
      exact ⟨i, hi, e⟩
    · simp only [Option.some.injEq] at h4
      rw [← h4, hs]
      refine ⟨rfl, ?_⟩
      have e1 := (scc_facts h1).2.1
      intro t ht
      obtain ⟨i, hi, e⟩ := scc_surj h1 t ht
      refine ⟨i, ?_, e⟩
      show i < a.g.n
      rw [e1]
      exact hi
  have u : Uni k d.a := ⟨hc, hfull, fun s hs => by
    obtain ⟨i, hi, e⟩ := hg.2 s hs
    exact ⟨i, by rw [← hgn]; exact hi, e⟩⟩
  have hcolour : d.colour = List.replicate d.a.clSize 0 := by rw [← h2]
  have hz : ∀ i j, d.col k.nvar i j = 0 := by
    intro i j
    unfold Cl.col colourOf
    rw [hcolour, List.getD_eq_getElem?_getD, List.getElem?_replicate]
    split_ifs <;> rfl
  refine ⟨⟨u, ?_, ?_, ?_, ?_, ?_, ?_, ?_⟩, ?_⟩
  · show d.coloured + 1 = 1
    rw [← h2]
  · show FcgIn k d.a d.f
    have : d.f = fcgOf d.a (List.replicate d.a.clSize 0) 1 d.hasPar d.stencil := by rw [← h2]
    rw [this]
    exact hF.in u _ _ _ _
  · show d.colour.length = k.nvar * d.a.num
    rw [hcolour, List.length_replicate, u.size]
  · intro i hi j hj
    have := hz i j
    show d.col k.nvar i j ≤ 1
    omega
  · intro i hi j hj j' hj' _ hne
    exact absurd (hz i j) hne
  · intro i hi c' g1 g2
    omega
  · intro i hi hd
    exact absurd hd (by simp)
  · intro i hi j hj g1 g2
    rw [hz] at g1
    omega

/-- Everything about a successful run when all statements have the same number of loops. -/
theorem cl_run_full {o : AutoOpts} {co : ClOpts} {L : Libs} {lex : Lex} (hE : EmptyOracle L.isEmpty) {d0 : DfsState} {p0 p : Prog}
    (hL : LexScales p0 lex) {fcgOf : ClBuild} (hF : ClFcgOracle fcgOf) {sten : Auto → Nat → Bool} {skew : Auto → Option Auto}
    (hS : ∀ k, LexScales k lex → SkewKeeps k skew) {fuel : Nat} (hp : p0.InputOK) (hne : p0.stmts ≠ [])
    (hd : ∀ st ∈ p0.stmts, st.dimOrig = p0.nvar) (hi : ∀ d ∈ p0.deps, ∃ s t q, p0.Inst d s t q)
    (h : clTransform o co L lex fcgOf sten skew fuel d0 p0 = some p) :
    ∃ k q, Inv True k q ∧ PadRel p0 (fun _ => p0.nvar) q ∧ denormalizeDomains q = some p ∧
      (∀ d ∈ q.deps, d.rar = false → ∀ s t v, q.Inst d s t v → q.LexPos d s t v ∨
        (q.AllNonneg d s t v ∧ DepChain q d.dest d.src)) ∧
      ∀ i < p0.stmts.length, ∀ j < p0.nvar, ∃ r ∈ rowsAt q i, LoopRow p0.nvar r j := by
  unfold clTransform at h
  simp only [Option.bind_eq_bind] at h
  obtain ⟨a, h1, h⟩ := Option.bind_eq_some_iff.mp h
  rw [if_neg hne] at h
  obtain ⟨d, h2, h⟩ := Option.bind_eq_some_iff.mp h
  obtain ⟨d', h3, h⟩ := Option.bind_eq_some_iff.mp h
  obtain ⟨a4, h4, h⟩ := Option.bind_eq_some_iff.mp h
  obtain ⟨a5, h5, h6⟩ := Option.bind_eq_some_iff.mp h
  obtain ⟨k, hk, hb, hpad, hn, hdims, _⟩ := clInit_spec hE hp h1 h2
  have hk0 : k.stmts ≠ [] := by
    intro e
    rw [e] at hdims
    exact hne (List.map_eq_nil_iff.mp hdims.symm)
  have hLk := hL.pad (hpad _ hb.inv) hb.inv.sk
  have hlen : k.stmts.length = p0.stmts.length := by
    have := congrArg List.length hdims
    simpa using this
  have hfull : ∀ st ∈ k.stmts, st.dimOrig = k.nvar := by
    intro st hst
    have : st.dimOrig ∈ p0.stmts.map (·.dimOrig) := by rw [← hdims]; exact List.mem_map_of_mem hst
    obtain ⟨st', hst', e⟩ := List.mem_map.mp this
    rw [← e, hd st' hst', hn]
  have hN : NoEmpty k := by
    intro q hq e he
    have hp' := hpad _ hb.inv
    have hskd : q.deps.map skelDep = d.a.p.deps.map skelDep := by
      have h1 := congrArg Prog.deps hq
      have h2 := congrArg Prog.deps hb.inv.sk
      exact h1.trans h2.symm
    have hmem : skelDep e ∈ d.a.p.deps.map skelDep := by rw [← hskd]; exact List.mem_map_of_mem he
    obtain ⟨e', he', ee⟩ := List.mem_map.mp hmem
    obtain ⟨d1, hd1, hpd⟩ := hp'.dep_mem he'
    obtain ⟨s, t, v, hinst⟩ := hi d1 hd1
    have := inst_pad hp hp' hd1 hpd hinst
    have epoly : e'.dpoly = e.dpoly := by
      have := congrArg Dep.dpoly ee
      exact this
    rw [hk.inst hb.inv.sk he', epoly, ← hk.inst hq he] at this
    exact ⟨_, _, _, this⟩
  obtain ⟨i1, i2⟩ := clInit_cc hE hF hp hb hfull h1 h2
  have hnv : d.a.p.nvar = k.nvar := (sk_nvar hb.inv.sk).symm
  rw [hnv] at h3
  obtain ⟨l1, l2⟩ := clLevels_cc hE hLk hk hk0 hF hN k.nvar 1 d d' (le_refl _) (by omega) i1 i2 h3
  have hb' := (clLevels_keep hE hLk hk hk0 _ _ _ _ hb h3).1
  obtain ⟨k1, k2, k3⟩ := hS k hLk _ _ hk hb'.inv hb'.gn h4
  obtain ⟨g1, g2, g3⟩ := dfpEnd_spec hE hk k1 k3 h5
  refine ⟨k, a5.p, g1, hpad _ g1, h6, g3, ?_⟩
  intro i hi j hj
  have hik : i < k.stmts.length := by rw [hlen]; exact hi
  have hall := all_coloured (f := d'.col k.nvar i) (fun c' e1 e2 => l1.old i hik c' e1 e2) j (by rw [hn]; exact hj)
  obtain ⟨r, r1, r2⟩ := l2 i hik j (by rw [hn]; exact hj) hall.1 hall.2
  rw [hn] at r2
  have e : rowsAt a4.p i = rowsAt d'.a.p i := by
    unfold rowsAt
    rw [k2]
  exact ⟨r, g2 i (by rw [e]; exact r1), r2⟩

end Pluto
