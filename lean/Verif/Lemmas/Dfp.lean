import Verif.Model.Dfp
import Verif.Lemmas.AutoMoves
import Verif.Lemmas.Fcg

/-! The steps of the search with `--dfp` keep the invariant of the automatic transformation. -/

namespace Pluto

/-- Schedule rows of statement `i`. -/
def rowsAt (p : Prog) (i : Nat) : List (List Int) := (p.stmts[i]?.map (·.trans)).getD []

theorem rowsAt_appended {p p' : Prog} {f : Nat → List Int} (h : Appended p p' f) (i : Nat) : rowsAt p i ⊆ rowsAt p' i := by
  unfold rowsAt
  rw [h.trans i]
  cases p.stmts[i]? with
  | none => simp
  | some st => simp

theorem rowsAt_last {p p' : Prog} {f : Nat → List Int} (h : Appended p p' f) {i : Nat} (hi : i < p.stmts.length) : f i ∈ rowsAt p' i := by
  unfold rowsAt
  rw [h.trans i, List.getElem?_eq_getElem hi]
  simp

/-- Rows of the schedule are never lost. -/
theorem rows_moves {isEmpty : Cst → Bool} (hE : EmptyOracle isEmpty) {k : Prog} (hk : SkelOK k) (T : Nat → List (List Int)) :
    Moves isEmpty k True False (fun p => ∀ i, T i ⊆ rowsAt p i) where
  hyper := fun p sol _ hI _ _ i => List.Subset.trans (hI i) (rowsAt_appended (addHyperplane_appended p sol) i)
  scalar := fun p f c _ hI hf _ i => List.Subset.trans (hI i) (rowsAt_appended (scalar_appended f c hf) i)
  update := by
    intro p p' l n hi hI hl h i
    obtain ⟨_, e, _⟩ := hi.update hE hk hl h
    rw [e]
    exact hI i
  drop := fun p ds _ hI _ i => hI i
  precise := by
    intro _ p p' n hi hI h i
    obtain ⟨_, e, _⟩ := hi.precise hE hk h
    rw [e]
    exact hI i

/-- The state after a step that does not recompute the components. -/
structure Grow (k : Prog) (a a' : Auto) : Prop where
  inv : CInv True k a'
  rows : ∀ i, rowsAt a.p i ⊆ rowsAt a'.p i
  scc : a'.scc = a.scc
  num : a'.num = a.num

theorem Grow.refl {k : Prog} {a : Auto} (h : CInv True k a) : Grow k a a := ⟨h, fun _ => List.Subset.refl _, rfl, rfl⟩

theorem Grow.trans {k : Prog} {a b c : Auto} (h1 : Grow k a b) (h2 : Grow k b c) : Grow k a c :=
  ⟨h2.inv, fun i => List.Subset.trans (h1.rows i) (h2.rows i), h2.scc.trans h1.scc, h2.num.trans h1.num⟩

section
variable {k : Prog} {L : Libs} {a a' : Auto} (hE : EmptyOracle L.isEmpty) (hk : SkelOK k)
include hE hk

theorem cutAll_grow (hc : CInv True k a) {n : Nat} (h : a.cutAll L.isEmpty = some (a', n)) : Grow k a a' := by
  obtain ⟨h1, h2, h3⟩ := cutAll_spec hE hk hc h
  exact ⟨h1, cutAll_keeps hE hk (rows_moves hE hk (rowsAt a.p)) hc (fun _ => List.Subset.refl _) h, h2, h3⟩

theorem cutBetween_grow (hc : CInv True k a) {c1 c2 : Int} {n : Nat} (h : a.cutBetween L.isEmpty c1 c2 = some (a', n)) : Grow k a a' := by
  obtain ⟨h1, h2, h3⟩ := cutBetween_spec hE hk hc h
  exact ⟨h1, cutBetween_keeps hE hk (rows_moves hE hk (rowsAt a.p)) hc (fun _ => List.Subset.refl _) h, h2, h3⟩

/-- A scalar row, without updating the graph. -/
theorem scalar_grow (hc : CInv True k a) (c : Nat → Int) (hm : ∀ d, Live a.p d → c d.src ≤ c d.dest) {p2 : Prog} {n : Nat}
    (h : satUpdateLast L.isEmpty (addScalarRows a.p (fun i => [c i])) = some (p2, n)) : Grow k a { a with p := p2 } := by
  obtain ⟨h1, h2, h3, h4⟩ := scalar_update hE hk hc (fun i => [c i]) c (fun _ _ => rfl) (fun _ => hm) h
  have hap := scalar_appended (p := a.p) (fun i => [c i]) c (fun _ _ => rfl)
  have hinv := scalar_inv hk hc.inv (fun i => [c i]) c (fun _ _ => rfl) (fun _ => hm)
  obtain ⟨_, _, g3, _⟩ := hinv.update hE hk (by rw [hap.hlen]; omega) h4
  have hlen : p2.stmts.length = a.p.stmts.length := by rw [h2]; exact hap.len
  have hlive : ∀ d', Live p2 d' → ∃ d, Live a.p d ∧ skelDep d' = skelDep d := by
    intro d' hd'
    rw [h2] at hd'
    obtain ⟨d, hd, e⟩ := g3.live hd'
    exact ⟨d, (live_appended hap d).mp hd, e⟩
  refine ⟨⟨⟨h1.inv, by show a.g.n = p2.stmts.length; rw [hlen]; exact hc.gn, ?_, hc.edges⟩, h1.range, h1.mono⟩, ?_, rfl, rfl⟩
  · intro hX d' hd'
    obtain ⟨d, hd, e⟩ := hlive d' hd'
    rw [skel_src e, skel_dest e]
    exact hc.cover hX d hd
  · exact scalar_update_keeps hE hk (rows_moves hE hk (rowsAt a.p)) hc (fun _ => List.Subset.refl _) (fun i => [c i]) c (fun _ _ => rfl) hm h

theorem precise_grow (hc : CInv True k a) {p2 : Prog} {n : Nat} (h : computeDepSatisfactionPrecise L.isEmpty a.p = some (p2, n)) :
    Grow k a { a with p := p2 } := by
  obtain ⟨h1, h2, h3⟩ := hc.inv.precise hE hk h
  have hlive : ∀ d', Live p2 d' → ∃ d, Live a.p d ∧ skelDep d' = skelDep d := by
    intro d' hd'
    rw [h2] at hd'
    exact (h3 trivial).live hd'
  have hlen : p2.stmts.length = a.p.stmts.length := by rw [h2]
  refine ⟨⟨⟨h1, by show a.g.n = p2.stmts.length; rw [hlen]; exact hc.gn, ?_, hc.edges⟩, ?_, ?_⟩, ?_, rfl, rfl⟩
  · intro hX d' hd'
    obtain ⟨d, hd, e⟩ := hlive d' hd'
    rw [skel_src e, skel_dest e]
    exact hc.cover hX d hd
  · intro i hi
    exact hc.range i (by rw [← hlen]; exact hi)
  · intro hX d' hd'
    obtain ⟨d, hd, e⟩ := hlive d' hd'
    rw [skel_src e, skel_dest e]
    exact hc.mono hX d hd
  · exact (rows_moves hE hk (rowsAt a.p)).precise trivial _ _ _ hc.inv (fun _ => List.Subset.refl _) h

theorem colourCut_grow (fuse : Fuse) (s : Nat) (l : List Nat) : ∀ (a a' : Auto), CInv True k a →
    colourCut L.isEmpty fuse s l a = some a' → Grow k a a' := by
  induction l with
  | nil =>
    intro a a' hc h
    simp only [colourCut, Option.some.injEq] at h
    rw [← h]
    exact .refl hc
  | cons j js ih =>
    intro a a' hc h
    have all : ∀ (b b' : Auto), CInv True k b → (b.cutAll L.isEmpty).map (·.1) = some b' → Grow k b b' := by
      intro b b' hb hh
      obtain ⟨⟨b1, n⟩, h3, h4⟩ := Option.map_eq_some_iff.mp hh
      subst h4
      exact cutAll_grow hE hk hb h3
    simp only [colourCut, Option.bind_eq_bind] at h
    split_ifs at h
    · exact ih a a' hc h
    · obtain ⟨⟨a1, n⟩, h1, h2⟩ := Option.bind_eq_some_iff.mp h
      have g1 := cutAll_grow hE hk hc h1
      exact g1.trans (ih a1 a' g1.inv h2)
    · obtain ⟨⟨a1, n⟩, h1, h2⟩ := Option.bind_eq_some_iff.mp h
      have g1 := cutBetween_grow hE hk hc h1
      simp only at h2
      split_ifs at h2
      · exact g1.trans (all a1 a' g1.inv h2)
      · simp only [Option.some.injEq] at h2
        rw [← h2]
        exact g1
    · exact all a a' hc h
    · obtain ⟨⟨b1, n⟩, h3, h4⟩ := Option.map_eq_some_iff.mp h
      subst h4
      exact cutBetween_grow hE hk hc h3
    · exact ih a a' hc h

end

/-- Fusion conflict graphs have a vertex per loop and entries 0 and 1. -/
structure FcgOK (k : Prog) (g : Graph) : Prop where
  n : g.n = fcgSize k
  bits : ∀ i j, g.adj i j = 0 ∨ g.adj i j = 1

/-- The state after a step of the colouring of a level. -/
structure DStep (k : Prog) (d d' : Dfp) : Prop where
  grow : Grow k d.a d'.a
  coloured : d'.coloured = d.coloured
  fcg : FcgOK k d.fcg → FcgOK k d'.fcg

theorem DStep.refl {k : Prog} {d : Dfp} (h : CInv True k d.a) : DStep k d d := ⟨.refl h, rfl, id⟩

theorem DStep.trans {k : Prog} {d e f : Dfp} (h1 : DStep k d e) (h2 : DStep k e f) : DStep k d f :=
  ⟨h1.grow.trans h2.grow, h2.coloured.trans h1.coloured, h2.fcg ∘ h1.fcg⟩

theorem clearEdges_bits {adj : Nat → Nat → Nat} (h : ∀ i j, adj i j = 0 ∨ adj i j = 1) (b1 b2 : Block) :
    ∀ i j, clearEdges adj b1 b2 i j = 0 ∨ clearEdges adj b1 b2 i j = 1 := by
  intro i j
  unfold clearEdges
  split_ifs
  · exact .inl rfl
  · exact h i j

theorem updateFcgNoFuse_bits (p : Prog) (l : List (Nat × Nat)) : ∀ (adj adj' : Nat → Nat → Nat),
    (∀ i j, adj i j = 0 ∨ adj i j = 1) → updateFcgNoFuse p adj l = some adj' → ∀ i j, adj' i j = 0 ∨ adj' i j = 1 := by
  induction l with
  | nil =>
    intro adj adj' h e
    simp only [updateFcgNoFuse, Option.some.injEq] at e
    rw [← e]; exact h
  | cons x l ih =>
    intro adj adj' h e
    simp only [updateFcgNoFuse, Option.bind_eq_bind, Option.bind_eq_some_iff] at e
    obtain ⟨x1, _, y1, _, e⟩ := e
    split_ifs at e
    · exact ih _ _ (clearEdges_bits h _ _) e
    · exact ih _ _ h e

theorem updateFcgCut_bits (a : Auto) (s : Nat) (l : List (Nat × Nat)) : ∀ (adj : Nat → Nat → Nat),
    (∀ i j, adj i j = 0 ∨ adj i j = 1) → ∀ i j, updateFcgCut a s adj l i j = 0 ∨ updateFcgCut a s adj l i j = 1 := by
  induction l with
  | nil => intro adj h; exact h
  | cons x l ih =>
    intro adj h
    simp only [updateFcgCut]
    split_ifs
    · exact ih _ (clearEdges_bits h _ _)
    · exact ih _ h

/-- Updating the conflict graph changes only the graph. -/
theorem updateFcg_spec {k : Prog} {fuse : Fuse} {s : Nat} {d d' : Dfp} (h : Dfp.updateFcg fuse s d = some d') :
    d'.a = d.a ∧ d'.colour = d.colour ∧ d'.coloured = d.coloured ∧ (FcgOK k d.fcg → FcgOK k d'.fcg) := by
  unfold Dfp.updateFcg at h
  split_ifs at h
  · simp only [Option.some.injEq] at h
    rw [← h]; exact ⟨rfl, rfl, rfl, id⟩
  · rw [Option.bind_eq_bind, Option.bind_eq_some_iff] at h
    obtain ⟨adj, h1, h2⟩ := h
    simp only [Option.pure_def, Option.some.injEq] at h2
    rw [← h2]
    exact ⟨rfl, rfl, rfl, fun hf => ⟨hf.n, updateFcgNoFuse_bits _ _ _ _ hf.bits h1⟩⟩
  · simp only [Option.some.injEq] at h
    rw [← h]
    exact ⟨rfl, rfl, rfl, fun hf => ⟨hf.n, updateFcgCut_bits _ _ _ _ hf.bits⟩⟩

section
variable {k : Prog} {L : Libs} {fcgOf : Auto → List Nat → Nat → Graph} {fuse : Fuse} {d d' : Dfp} {c s : Nat}
  (hE : EmptyOracle L.isEmpty) (hk : SkelOK k) (hF : ∀ a colour c, skel a.p = k → FcgOK k (fcgOf a colour c))
include hE hk

omit hE hk in
theorem updateFcg_step {a : Auto} (hg : Grow k d.a a) (h : Dfp.updateFcg fuse s { d with a := a } = some d') :
    DStep k d d' ∧ d'.colour = d.colour := by
  obtain ⟨h1, h2, h3, h4⟩ := updateFcg_spec (k := k) h
  exact ⟨⟨by rw [h1]; exact hg, h3, h4⟩, h2⟩

theorem colourScc_step (hc : CInv True k d.a) {ok : Bool} (h : Dfp.colourScc L.isEmpty fuse c s d = some (d', ok)) : DStep k d d' := by
  unfold Dfp.colourScc at h
  simp only at h
  split_ifs at h
  · simp only [Option.some.injEq, Prod.mk.injEq] at h
    rw [← h.1]; exact .refl hc
  · simp only [Option.some.injEq, Prod.mk.injEq] at h
    rw [← h.1]; exact .refl hc
  · rw [Option.bind_eq_bind, Option.bind_eq_some_iff] at h
    obtain ⟨a1, h1, h2⟩ := h
    simp only [Option.pure_def, Option.some.injEq, Prod.mk.injEq] at h2
    rw [← h2.1]
    exact ⟨colourCut_grow hE hk _ _ _ _ _ hc h1, rfl, id⟩
  · simp only [Option.some.injEq, Prod.mk.injEq] at h
    rw [← h.1]; exact .refl hc
  · simp only [Option.some.injEq, Prod.mk.injEq] at h
    rw [← h.1]
    exact ⟨.refl hc, rfl, id⟩

theorem distribute_step (hc : CInv True k d.a) (h : Dfp.distribute L.isEmpty fuse s d = some d') : DStep k d d' ∧ d'.colour = d.colour := by
  unfold Dfp.distribute at h
  split_ifs at h
  · rw [Option.bind_eq_bind, Option.bind_eq_some_iff] at h
    obtain ⟨d1, h1, h⟩ := h
    rw [Option.bind_eq_bind, Option.bind_eq_some_iff] at h
    obtain ⟨⟨p2, n⟩, h2, h⟩ := h
    simp only [Option.pure_def, Option.some.injEq] at h
    obtain ⟨e1, e2, e3, e4⟩ := updateFcg_spec (k := k) h1
    rw [e1] at h2
    have g := scalar_grow hE hk hc (fun i => if d.a.scc i < (s : Int) then 0 else 1) (by
      intro dd hd
      have := hc.mono trivial dd hd
      split_ifs <;> omega) h2
    subst h
    exact ⟨⟨⟨by simpa [e1] using g.inv, by simpa [e1] using g.rows, by simp [e1], by simp [e1]⟩, e3, e4⟩, e2⟩
  · simp only [Option.some.injEq] at h
    rw [← h]; exact ⟨.refl hc, rfl⟩

theorem cutAndUpdate_step (hc : CInv True k d.a) (h : Dfp.cutAndUpdate L.isEmpty fuse s d = some d') :
    DStep k d d' ∧ d'.colour = d.colour := by
  unfold Dfp.cutAndUpdate at h
  split_ifs at h
  · rw [Option.bind_eq_bind, Option.bind_eq_some_iff] at h
    obtain ⟨⟨a1, n⟩, h1, h⟩ := h
    exact updateFcg_step (cutAll_grow hE hk hc h1) h
  · cases hf : (List.range s).reverse.find? (fun j => d.a.connected j s) with
    | none =>
      rw [hf] at h
      exact updateFcg_step (d := d) (.refl hc) h
    | some j =>
      rw [hf] at h
      simp only [Option.bind_eq_bind, Option.bind_eq_some_iff] at h
      obtain ⟨⟨a1, n⟩, h1, h⟩ := h
      exact updateFcg_step (cutBetween_grow hE hk hc h1) h

theorem cutIfNoFuse_step (hc : CInv True k d.a) (h : Dfp.cutIfNoFuse L.isEmpty fuse d = some d') :
    DStep k d d' ∧ d'.colour = d.colour := by
  unfold Dfp.cutIfNoFuse at h
  split_ifs at h
  · obtain ⟨⟨a1, n⟩, h1, h2⟩ := Option.map_eq_some_iff.mp h
    subst h2
    exact ⟨⟨cutAll_grow hE hk hc h1, rfl, id⟩, rfl⟩
  · simp only [Option.some.injEq] at h
    rw [← h]; exact ⟨.refl hc, rfl⟩

include hF

omit hE hk in
theorem build_step (hc : CInv True k d.a) : DStep k d (Dfp.build fcgOf c d) ∧ (Dfp.build fcgOf c d).colour = d.colour :=
  ⟨⟨.refl hc, rfl, fun _ => hF _ _ _ hc.inv.sk⟩, rfl⟩

/-- Every attempt at colouring a component is a call of `colourScc`; in between the colours stay. -/
inductive Tries (k : Prog) (isEmpty : Cst → Bool) (fuse : Fuse) (c s : Nat) : Dfp → Dfp → Bool → Prop
  | one (d e d' : Dfp) (ok : Bool) : DStep k d e → e.colour = d.colour → Dfp.colourScc isEmpty fuse c s e = some (d', ok) →
      Tries k isEmpty fuse c s d d' ok
  | next (d e d' : Dfp) (ok : Bool) : Tries k isEmpty fuse c s d e false → Tries k isEmpty fuse c s e d' ok →
      Tries k isEmpty fuse c s d d' ok

omit hF in
theorem Tries.step {ok : Bool} (h : Tries k L.isEmpty fuse c s d d' ok) : CInv True k d.a → DStep k d d' := by
  induction h with
  | one d e d' ok h1 h2 h3 => exact fun _ => h1.trans (colourScc_step hE hk h1.grow.inv h3)
  | next d e d' ok _ _ ih1 ih2 => exact fun hc => (ih1 hc).trans (ih2 (ih1 hc).grow.inv)

theorem retry_tries (hc : CInv True k d.a) {ok : Bool} (h : Dfp.retry L.isEmpty fcgOf fuse c s d = some (d', ok)) :
    Tries k L.isEmpty fuse c s d d' ok := by
  have two : ∀ e f : Dfp, CInv True k e.a → ((Dfp.cutAndUpdate L.isEmpty fuse s e).bind
      (fun d => Dfp.colourScc L.isEmpty fuse c s d)) = some (f, ok) → Tries k L.isEmpty fuse c s e f ok := by
    intro e f he hh
    obtain ⟨d1, h1, h2⟩ := Option.bind_eq_some_iff.mp hh
    obtain ⟨g1, g2⟩ := cutAndUpdate_step hE hk he h1
    exact .one _ _ _ _ g1 g2 h2
  unfold Dfp.retry at h
  simp only [Option.bind_eq_bind] at h
  split_ifs at h
  · obtain ⟨d1, h1, h⟩ := Option.bind_eq_some_iff.mp h
    obtain ⟨⟨d2, ok2⟩, h2, h⟩ := Option.bind_eq_some_iff.mp h
    obtain ⟨g1, g2⟩ := cutIfNoFuse_step hE hk hc h1
    obtain ⟨g3, g4⟩ := build_step (c := c) (k := k) hF g1.grow.inv
    have t1 : Tries k L.isEmpty fuse c s d d2 ok2 := .one _ _ _ _ (g1.trans g3) (g4.trans g2) h2
    simp only at h
    split_ifs at h with hok
    · simp only [Option.pure_def, Option.some.injEq, Prod.mk.injEq] at h
      rw [← h.1, ← h.2]; exact t1
    · have : ok2 = false := by
        cases ok2
        · rfl
        · exact absurd (.inl rfl) hok
      subst this
      exact .next _ _ _ _ t1 (two _ _ (t1.step hE hk hc).grow.inv h)
  · exact two _ _ hc h

theorem colourOne_tries (hc : CInv True k d.a) (h : Dfp.colourOne L.isEmpty fcgOf fuse c s d = some d') :
    Tries k L.isEmpty fuse c s d d' true := by
  unfold Dfp.colourOne at h
  simp only [Option.bind_eq_bind] at h
  obtain ⟨d1, h1, h⟩ := Option.bind_eq_some_iff.mp h
  obtain ⟨⟨d2, ok2⟩, h2, h⟩ := Option.bind_eq_some_iff.mp h
  obtain ⟨g1, g2⟩ := distribute_step hE hk hc h1
  have t1 : Tries k L.isEmpty fuse c s d d2 ok2 := .one _ _ _ _ g1 g2 h2
  simp only at h
  cases ok2 with
  | true =>
    simp only [if_true, Option.pure_def, Option.some.injEq] at h
    rw [← h]; exact t1
  | false =>
    simp only [Bool.false_eq_true, if_false] at h
    obtain ⟨⟨d3, ok3⟩, h3, h⟩ := Option.bind_eq_some_iff.mp h
    have t2 := retry_tries hE hk hF (t1.step hE hk hc).grow.inv h3
    have t3 := Tries.next _ _ _ _ t1 t2
    simp only at h
    cases ok3 with
    | true =>
      simp only [if_true, Option.pure_def, Option.some.injEq] at h
      rw [← h]; exact t3
    | false =>
      simp only [Bool.false_eq_true, if_false] at h
      unfold Dfp.lastTry at h
      simp only [Option.bind_eq_bind] at h
      obtain ⟨⟨p4, n⟩, h4, h⟩ := Option.bind_eq_some_iff.mp h
      obtain ⟨⟨d5, ok5⟩, h5, h⟩ := Option.bind_eq_some_iff.mp h
      have c3 := (t3.step hE hk hc).grow.inv
      have g4 := precise_grow hE hk c3 h4
      simp only at h
      cases ok5 with
      | false => simp at h
      | true =>
        simp only [if_true, Option.pure_def, Option.some.injEq] at h
        rw [← h]
        refine .next _ _ _ _ t3 (.one _ (Dfp.build fcgOf c { d3 with a := { d3.a with p := p4 } }) _ _ ?_ rfl h5)
        exact ⟨g4, rfl, fun _ => hF _ _ _ g4.inv.inv.sk⟩

end

end Pluto
