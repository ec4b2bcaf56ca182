import Verif.Model.DfpCluster
import Verif.Lemmas.DfpEnd

/-! The steps of the clustered search keep the invariant of the automatic transformation. -/

namespace Pluto

section
variable {k : Prog} {L : Libs} {a a' : Auto} (hE : EmptyOracle L.isEmpty) (hk : SkelOK k)
include hk

/-- A scalar row, without looking for satisfied dependences. -/
theorem scalar_plain (hc : CInv True k a) (s : Nat) : Grow k a { a with p := addScalarBetween a s } := by
  have hm : ∀ d, Live a.p d → (if a.scc d.src < (s : Int) then (0 : Int) else 1) ≤ if a.scc d.dest < (s : Int) then 0 else 1 := by
    intro d hd
    have := hc.mono trivial d hd
    split_ifs <;> omega
  have hap := scalar_appended (p := a.p) (fun i => [if a.scc i < (s : Int) then (0 : Int) else 1])
    (fun i => if a.scc i < (s : Int) then (0 : Int) else 1) (fun _ _ => rfl)
  have hinv := scalar_inv hk hc.inv (fun i => [if a.scc i < (s : Int) then (0 : Int) else 1])
    (fun i => if a.scc i < (s : Int) then (0 : Int) else 1) (fun _ _ => rfl) (fun _ => hm)
  refine ⟨⟨⟨hinv, ?_, ?_, hc.edges⟩, ?_, ?_⟩, rowsAt_appended hap, rfl, rfl⟩
  · exact hc.gn.trans hap.len.symm
  · intro hX d hd
    exact hc.cover hX d ((live_appended hap d).mp hd)
  · intro i hi
    exact hc.range i (by rw [← hap.len]; exact hi)
  · intro hX d hd
    exact hc.mono hX d ((live_appended hap d).mp hd)

include hE

theorem cutFromPred_grow (s : Nat) (l : List Nat) : ∀ (a a' : Auto), CInv True k a →
    cutFromPred L.isEmpty s l a = some a' → Grow k a a' := by
  induction l with
  | nil =>
    intro a a' hc h
    simp only [cutFromPred, Option.some.injEq] at h
    rw [← h]
    exact .refl hc
  | cons j js ih =>
    intro a a' hc h
    simp only [cutFromPred, Option.bind_eq_bind] at h
    split_ifs at h
    · obtain ⟨⟨a1, n⟩, h1, h2⟩ := Option.bind_eq_some_iff.mp h
      have g1 := cutBetween_grow hE hk hc h1
      exact g1.trans (ih a1 a' g1.inv h2)
    · exact ih a a' hc h

theorem cutAround_grow (fuse : Fuse) (s : Nat) (l : List Nat) : ∀ (a a' : Auto), CInv True k a →
    cutAround L.isEmpty fuse s l a = some a' → Grow k a a' := by
  induction l with
  | nil =>
    intro a a' hc h
    simp only [cutAround, Option.some.injEq] at h
    rw [← h]
    exact .refl hc
  | cons j js ih =>
    intro a a' hc h
    have all : ∀ (b b' : Auto), CInv True k b → (b.cutAll L.isEmpty).map (·.1) = some b' → Grow k b b' := by
      intro b b' hb hh
      obtain ⟨⟨b1, n⟩, h3, h4⟩ := Option.map_eq_some_iff.mp hh
      subst h4
      exact cutAll_grow hE hk hb h3
    have btw : ∀ (b b' : Auto) (x y : Int), CInv True k b → (b.cutBetween L.isEmpty x y).map (·.1) = some b' → Grow k b b' := by
      intro b b' x y hb hh
      obtain ⟨⟨b1, n⟩, h3, h4⟩ := Option.map_eq_some_iff.mp hh
      subst h4
      exact cutBetween_grow hE hk hb h3
    simp only [cutAround, Option.bind_eq_bind] at h
    split_ifs at h
    · exact ih a a' hc h
    · obtain ⟨⟨a1, n⟩, h1, h2⟩ := Option.bind_eq_some_iff.mp h
      have g1 := cutAll_grow hE hk hc h1
      exact g1.trans (ih a1 a' g1.inv h2)
    · obtain ⟨⟨a1, n⟩, h1, h2⟩ := Option.bind_eq_some_iff.mp h
      have g1 := cutBetween_grow hE hk hc h1
      simp only at h2
      split at h2
      · exact g1.trans (btw a1 a' _ _ g1.inv h2)
      · simp only [Option.some.injEq] at h2
        rw [← h2]
        exact g1
    · exact all a a' hc h
    · exact btw a a' _ _ hc h
    · exact ih a a' hc h

end

/-- Steps of the colouring that do not compute the components again. -/
structure CStep (k : Prog) (d d' : Cl) : Prop where
  grow : Grow k d.a d'.a
  coloured : d'.coloured = d.coloured
  rebuild : d'.rebuild = d.rebuild

theorem CStep.refl {k : Prog} {d : Cl} (h : CInv True k d.a) : CStep k d d := ⟨.refl h, rfl, rfl⟩

theorem CStep.trans {k : Prog} {d e f : Cl} (h1 : CStep k d e) (h2 : CStep k e f) : CStep k d f :=
  ⟨h1.grow.trans h2.grow, h2.coloured.trans h1.coloured, h2.rebuild.trans h1.rebuild⟩

/-- Only the graph changes. -/
theorem clUpdateFcg_spec {o : ClOpts} {fuse : Fuse} {s : Nat} {d d' : Cl} (h : Cl.updateFcg o fuse s d = some d') :
    d' = { d with f := d'.f } ∧ (d'.f = d.f ∨ d'.f = { d.f with
      g := ⟨d.f.g.n, clearAcross (d.a.sccOffset s) d.a.clSize d.f.g.adj⟩
      par := if o.typed then clearAcross (d.a.sccOffset s) d.a.clSize d.f.par else d.f.par }) := by
  unfold Cl.updateFcg at h
  split_ifs at h <;> simp only [Option.some.injEq] at h <;> rw [← h]
  · exact ⟨rfl, .inl rfl⟩
  · exact ⟨rfl, .inr (by simp_all)⟩
  · exact ⟨rfl, .inr (by simp_all)⟩

theorem paintSucc_spec (c v : Nat) (l : List Nat) : ∀ d : Cl, (Cl.paintSucc c v l d).a = d.a ∧
    (Cl.paintSucc c v l d).coloured = d.coloured ∧ (Cl.paintSucc c v l d).rebuild = d.rebuild ∧ (Cl.paintSucc c v l d).f = d.f := by
  induction l with
  | nil => intro d; exact ⟨rfl, rfl, rfl, rfl⟩
  | cons t ts ih =>
    intro d
    simp only [Cl.paintSucc]
    split
    · rename_i j _
      obtain ⟨h1, h2, h3, h4⟩ := ih (d.paintPar c t (d.a.sccOffset t + j))
      exact ⟨h1, h2, h3, h4⟩
    · exact ih d

theorem greedy_spec (c s : Nat) (d : Cl) : (d.greedy c s).1.a = d.a ∧ (d.greedy c s).1.coloured = d.coloured ∧
    (d.greedy c s).1.rebuild = d.rebuild ∧ (d.greedy c s).1.f = d.f := by
  unfold Cl.greedy
  simp only
  split
  · exact ⟨rfl, rfl, rfl, rfl⟩
  · split_ifs
    · exact ⟨rfl, rfl, rfl, rfl⟩
    · split
      · exact ⟨rfl, rfl, rfl, rfl⟩
      · exact paintSucc_spec _ _ _ _

theorem tryLoops_spec (o : ClOpts) (c s n : Nat) : ∀ (disc : List Nat) (d : Cl), (Cl.tryLoops o c s n disc d).1 =
    { d with colour := (Cl.tryLoops o c s n disc d).1.colour } := by
  induction n with
  | zero => intro disc d; rfl
  | succ n ih =>
    intro disc d
    rw [Cl.tryLoops]
    split
    · rfl
    · dsimp only
      split_ifs
      · exact ih _ _
      · exact ih _ _
      · exact ih _ _
      · rfl
      · exact ih _ _

section
variable {k : Prog} {L : Libs} {o : ClOpts} {fcgOf : ClBuild} {fuse : Fuse} {d d' : Cl} {c s : Nat}
  (hE : EmptyOracle L.isEmpty) (hk : SkelOK k)

theorem clUpdateFcg_step {a : Auto} (hg : Grow k d.a a) (h : Cl.updateFcg o fuse s { d with a := a } = some d') : CStep k d d' := by
  have e := (clUpdateFcg_spec h).1
  rw [e]
  exact ⟨hg, rfl, rfl⟩

include hE hk

theorem clColourScc_step (hc : CInv True k d.a) {ok : Bool} (h : Cl.colourScc L.isEmpty o fuse c s d = some (d', ok)) : CStep k d d' := by
  have gr : ∀ e : Cl, CStep k d e → CStep k d (e.greedy c s).1 := by
    intro e he
    obtain ⟨h1, h2, h3, _⟩ := greedy_spec c s e
    exact ⟨by rw [h1]; exact he.grow, h2.trans he.coloured, h3.trans he.rebuild⟩
  unfold Cl.colourScc at h
  simp only [Option.bind_eq_bind] at h
  split_ifs at h
  · simp only [Option.some.injEq, Prod.mk.injEq] at h
    rw [← h.1]; exact .refl hc
  · simp only [Option.some.injEq, Prod.mk.injEq] at h
    rw [← h.1]; exact .refl hc
  · obtain ⟨a1, h1, h2⟩ := Option.bind_eq_some_iff.mp h
    simp only [Option.pure_def, Option.some.injEq, Prod.mk.injEq] at h2
    rw [← h2.1]
    exact ⟨cutAround_grow hE hk _ _ _ _ _ hc h1, rfl, rfl⟩
  · rw [Option.some.injEq] at h
    have := gr d (.refl hc)
    rw [h] at this
    exact this
  · obtain ⟨a1, h1, h2⟩ := Option.bind_eq_some_iff.mp h
    obtain ⟨d2, h3, h4⟩ := Option.bind_eq_some_iff.mp h2
    have st := clUpdateFcg_step (d := d) (cutFromPred_grow hE hk _ _ _ _ hc h1) h3
    simp only [Option.pure_def, Option.some.injEq] at h4
    have := gr d2 st
    rw [h4] at this
    exact this
  · rw [Option.some.injEq] at h
    have := tryLoops_spec o c s (d.a.width s) [] d
    rw [h] at this
    dsimp only at this
    rw [this]
    exact ⟨.refl hc, rfl, rfl⟩

theorem clDistribute_step (hc : CInv True k d.a) (h : Cl.distribute L.isEmpty o fuse s d = some d') : CStep k d d' := by
  unfold Cl.distribute at h
  split_ifs at h
  · rw [Option.bind_eq_bind, Option.bind_eq_some_iff] at h
    obtain ⟨d1, h1, h⟩ := h
    rw [Option.bind_eq_bind, Option.bind_eq_some_iff] at h
    obtain ⟨⟨p2, n⟩, h2, h⟩ := h
    simp only [Option.pure_def, Option.some.injEq] at h
    have e1 := (clUpdateFcg_spec h1).1
    rw [e1] at h2
    have g := scalar_grow hE hk hc (fun i => if d.a.scc i < (s : Int) then 0 else 1) (by
      intro dd hd
      have := hc.mono trivial dd hd
      split_ifs <;> omega) h2
    subst h
    rw [e1]
    exact ⟨g, rfl, rfl⟩
  · simp only [Option.some.injEq] at h
    rw [← h]; exact .refl hc

theorem separate_step {t : Nat} (hc : CInv True k d.a) (h : Cl.separate L.isEmpty o fuse t s d = some d') : CStep k d d' := by
  unfold Cl.separate at h
  split_ifs at h
  · rw [Option.bind_eq_bind, Option.bind_eq_some_iff] at h
    obtain ⟨⟨a1, n⟩, h1, h2⟩ := h
    exact clUpdateFcg_step (cutBetween_grow hE hk hc h1) h2
  · simp only [Option.some.injEq] at h
    rw [← h]
    exact ⟨scalar_plain hk hc s, rfl, rfl⟩
  · simp only [Option.some.injEq] at h
    rw [← h]; exact .refl hc

theorem typedCut_step {pc : Bool} {prev : Option Nat} (hc : CInv True k d.a)
    (h : Cl.typedCut L.isEmpty o fuse pc prev s d = some d') : CStep k d d' := by
  unfold Cl.typedCut at h
  split at h
  · simp only [Option.some.injEq] at h
    rw [← h]; exact .refl hc
  · split_ifs at h
    · exact separate_step hE hk hc h
    · simp only [Option.some.injEq] at h
      rw [← h]; exact .refl hc

theorem clCutIfNoFuse_step (hc : CInv True k d.a) (h : Cl.cutIfNoFuse L.isEmpty fuse d = some d') :
    CStep k d d' ∧ d' = { d with a := d'.a } := by
  unfold Cl.cutIfNoFuse at h
  split_ifs at h
  · obtain ⟨⟨a1, n⟩, h1, h2⟩ := Option.map_eq_some_iff.mp h
    subst h2
    exact ⟨⟨cutAll_grow hE hk hc h1, rfl, rfl⟩, rfl⟩
  · simp only [Option.some.injEq] at h
    rw [← h]; exact ⟨.refl hc, rfl⟩

theorem clCutAndUpdate_step {prev : Option Nat} (hc : CInv True k d.a) (h : Cl.cutAndUpdate L.isEmpty o fuse prev s d = some d') :
    CStep k d d' := by
  unfold Cl.cutAndUpdate at h
  split_ifs at h
  · rw [Option.bind_eq_bind, Option.bind_eq_some_iff] at h
    obtain ⟨⟨a1, n⟩, h1, h⟩ := h
    exact clUpdateFcg_step (cutAll_grow hE hk hc h1) h
  · split at h
    · simp only [Option.bind_eq_bind, Option.bind_eq_some_iff] at h
      obtain ⟨⟨a1, n⟩, h1, h⟩ := h
      exact clUpdateFcg_step (cutBetween_grow hE hk hc h1) h
    · exact clUpdateFcg_step (d := d) (.refl hc) h

/-- The components are computed again. -/
theorem update_cinv {a a' : Auto} (hc : CInv True k a) (h : ({ a with g := ddgUpdate a.g a.p } : Auto).computeScc = some a') :
    CInv True k a' ∧ a'.p = a.p := by
  have hai : AInv True k ({ a with g := ddgUpdate a.g a.p } : Auto) := by
    refine ⟨hc.inv, hc.gn, ?_, edges_update hc.inv.sk⟩
    intro _
    apply update_edge
    · exact hc.gn
    · intro e he
      exact ⟨(hk.dep hc.inv.sk he).src, (hk.dep hc.inv.sk he).dest⟩
  exact ⟨computeScc_spec hai h, (scc_facts h).1⟩

end

/-- Invariant, rows and number of levels after any step of the colouring. -/
structure CKeep (k : Prog) (d d' : Cl) : Prop where
  inv : CInv True k d'.a
  rows : ∀ i, rowsAt d.a.p i ⊆ rowsAt d'.a.p i
  coloured : d'.coloured = d.coloured

theorem CStep.keep {k : Prog} {d d' : Cl} (h : CStep k d d') : CKeep k d d' := ⟨h.grow.inv, h.grow.rows, h.coloured⟩

theorem CKeep.refl {k : Prog} {d : Cl} (h : CInv True k d.a) : CKeep k d d := ⟨h, fun _ => List.Subset.refl _, rfl⟩

theorem CKeep.trans {k : Prog} {d e f : Cl} (h1 : CKeep k d e) (h2 : CKeep k e f) : CKeep k d f :=
  ⟨h2.inv, fun i => List.Subset.trans (h1.rows i) (h2.rows i), h2.coloured.trans h1.coloured⟩

/-- The state that colouring goes on with. -/
def ClNext.state : ClNext → Cl
  | .go d => d
  | .again d => d

section
variable {k : Prog} {L : Libs} {o : ClOpts} {fcgOf : ClBuild} {fuse : Fuse} {d d' : Cl} {c s : Nat}
  (hE : EmptyOracle L.isEmpty) (hk : SkelOK k)
include hE hk

theorem rebuildFcg_keep (hc : CInv True k d.a) (h : Cl.rebuildFcg fcgOf c d = some d') : CKeep k d d' := by
  unfold Cl.rebuildFcg at h
  rw [Option.bind_eq_bind, Option.bind_eq_some_iff] at h
  obtain ⟨a1, h1, h2⟩ := h
  simp only [Option.pure_def, Option.some.injEq] at h2
  rw [← h2]
  obtain ⟨g1, g2⟩ := update_cinv hE hk hc h1
  refine ⟨g1, fun i => ?_, rfl⟩
  rw [show rowsAt a1.p i = rowsAt d.a.p i by rw [g2]]
  exact List.Subset.refl _

theorem clLastTry_step (hc : CInv True k d.a) (h : Cl.lastTry L.isEmpty o fcgOf fuse c s d = some d') : CKeep k d d' := by
  unfold Cl.lastTry at h
  simp only [Option.bind_eq_bind] at h
  obtain ⟨⟨p4, n⟩, h4, h⟩ := Option.bind_eq_some_iff.mp h
  obtain ⟨⟨d5, ok5⟩, h5, h⟩ := Option.bind_eq_some_iff.mp h
  have g4 := precise_grow hE hk hc h4
  simp only at h
  split_ifs at h
  simp only [Option.pure_def, Option.some.injEq] at h
  rw [← h]
  have st := clColourScc_step (d := { d with a := { d.a with p := p4 }, f := fcgOf { d.a with p := p4 } d.colour c d.hasPar d.stencil, rebuild := false })
    hE hk g4.inv h5
  exact ⟨st.grow.inv, fun i => List.Subset.trans (g4.rows i) (st.grow.rows i), st.coloured⟩

theorem clColourOne_keep {pc : Bool} {prev : Option Nat} {n : ClNext} (hc : CInv True k d.a)
    (h : Cl.colourOne L.isEmpty o fcgOf fuse c pc prev s d = some n) : CKeep k d n.state := by
  unfold Cl.colourOne at h
  simp only [Option.bind_eq_bind] at h
  obtain ⟨d1, h1, h⟩ := Option.bind_eq_some_iff.mp h
  obtain ⟨d2, h2, h⟩ := Option.bind_eq_some_iff.mp h
  obtain ⟨⟨d3, ok3⟩, h3, h⟩ := Option.bind_eq_some_iff.mp h
  have s1 := clDistribute_step hE hk hc h1
  have s2 := s1.trans (typedCut_step hE hk s1.grow.inv h2)
  have s3 := s2.trans (clColourScc_step hE hk s2.grow.inv h3)
  simp only at h
  split_ifs at h
  · simp only [Option.pure_def, Option.some.injEq] at h
    rw [← h]
    exact ⟨s3.grow.inv, s3.grow.rows, s3.coloured⟩
  · obtain ⟨d4, h4, h⟩ := Option.bind_eq_some_iff.mp h
    obtain ⟨d5, h5, h⟩ := Option.bind_eq_some_iff.mp h
    simp only [Option.pure_def, Option.some.injEq] at h
    rw [← h]
    have s4 := s3.trans (clCutIfNoFuse_step hE hk s3.grow.inv h4).1
    exact s4.keep.trans (rebuildFcg_keep hE hk s4.grow.inv h5)
  · obtain ⟨d4, h4, h⟩ := Option.bind_eq_some_iff.mp h
    obtain ⟨⟨d5, ok5⟩, h5, h⟩ := Option.bind_eq_some_iff.mp h
    have s4 := s3.trans (clCutAndUpdate_step hE hk s3.grow.inv h4)
    have s5 := s4.trans (clColourScc_step hE hk s4.grow.inv h5)
    simp only at h
    split_ifs at h
    · simp only [Option.pure_def, Option.some.injEq] at h
      rw [← h]
      exact ⟨s5.grow.inv, s5.grow.rows, s5.coloured⟩
    · obtain ⟨d6, h6, h⟩ := Option.bind_eq_some_iff.mp h
      simp only [Option.pure_def, Option.some.injEq] at h
      rw [← h]
      have s6 := s5.keep.trans (clLastTry_step hE hk s5.grow.inv h6)
      exact ⟨s6.inv, s6.rows, s6.coloured⟩

theorem clColourFcg_keep (fuel : Nat) : ∀ (pc : Bool) (prev : Option Nat) (s : Nat) (d d' : Cl), CInv True k d.a →
    Cl.colourFcg L.isEmpty o fcgOf fuse c fuel pc prev s d = some d' → CKeep k d d' := by
  induction fuel with
  | zero => intro pc prev s d d' _ h; simp [Cl.colourFcg] at h
  | succ fuel ih =>
    intro pc prev s d d' hc h
    rw [Cl.colourFcg] at h
    split_ifs at h
    · simp only [Option.some.injEq] at h
      rw [← h]; exact .refl hc
    · exact ih _ _ _ _ _ hc h
    all_goals
      rw [Option.bind_eq_bind, Option.bind_eq_some_iff] at h
      obtain ⟨n, h1, h2⟩ := h
      have s1 := clColourOne_keep hE hk hc h1
      cases n with
      | go d1 => exact s1.trans (ih _ _ _ _ _ s1.inv h2)
      | again d1 => exact s1.trans (ih _ _ _ _ _ s1.inv h2)

end

end Pluto
