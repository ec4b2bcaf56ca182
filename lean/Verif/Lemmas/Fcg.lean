import Verif.Model.Fcg
namespace Pluto

theorem colourOf_set (colour : List Nat) (v c u : Nat) (h : v < colour.length) :
    colourOf (colour.set v c) u = if u = v then c else colourOf colour u := by
  unfold colourOf
  rw [List.getD_eq_getElem?_getD, List.getD_eq_getElem?_getD, List.getElem?_set]
  by_cases e : v = u
  · subst e; simp [h]
  · rw [if_neg e, if_neg (fun x => e x.symm)]

theorem set_back (colour : List Nat) (v c : Nat) (h0 : colourOf colour v = 0) :
    (colour.set v c).set v 0 = colour := by
  rw [List.set_set]
  apply List.ext_getElem?
  intro i
  rw [List.getElem?_set]
  by_cases e : v = i
  · subst e
    by_cases h : v < colour.length
    · unfold colourOf at h0
      rw [List.getD_eq_getElem?_getD, List.getElem?_eq_getElem h] at h0
      simp [h] at h0 ⊢
      exact h0.symm
    · simp [h]
  · rw [if_neg e]

theorem set_zero (colour : List Nat) (v : Nat) (h0 : colourOf colour v = 0) : colour.set v 0 = colour := by
  have := set_back colour v 0 h0
  rwa [List.set_set] at this

theorem isAdjacent_iff (g : Graph) (u v : Nat) : g.isAdjacent u v = true ↔ Joined g.adj u v := by
  simp [Graph.isAdjacent, Joined]

theorem Joined.symm {adj : Nat → Nat → Nat} {u v : Nat} (h : Joined adj u v) : Joined adj v u := Or.symm h

theorem isValidColour_iff (g : Graph) (h01 : ∀ i j, g.adj i j = 0 ∨ g.adj i j = 1) (v c : Nat) (colour : List Nat) :
    isValidColour g (fun _ _ => 0) v c colour false = true ↔
      ∀ u < g.n, colourOf colour u = c → ¬ Joined g.adj u v := by
  unfold isValidColour
  rw [List.all_eq_true]
  constructor
  · intro h u hu hc hj
    have := h u (List.mem_range.mpr hu)
    simp only [Bool.false_and, Bool.not_false, Bool.and_true, Bool.not_eq_true', Bool.and_eq_false_iff,
      Bool.or_eq_false_iff, beq_eq_false_iff_ne, ne_eq] at this
    rcases this with ⟨h1, h2⟩ | h1
    · rcases hj with hj | hj
      · exact (h01 u v).elim hj h1
      · exact (h01 v u).elim hj h2
    · exact h1 hc
  · intro h u hu
    simp only [Bool.false_and, Bool.not_false, Bool.and_true, Bool.not_eq_true', Bool.and_eq_false_iff,
      Bool.or_eq_false_iff, beq_eq_false_iff_ne, ne_eq]
    by_cases hc : colourOf colour u = c
    · left
      have := h u (List.mem_range.mp hu) hc
      unfold Joined at this
      push Not at this
      constructor
      · rw [this.1]; decide
      · rw [this.2]; decide
    · exact Or.inr hc

theorem isDiscarded_iff (v : Nat) (l : List Nat) : isDiscarded v l = true ↔ v ∈ l := by
  simp [isDiscarded]

theorem nextMinVertex_has (b : Block) (allowed : Nat → Bool) (l : List Nat) (hb : 0 < b.count) :
    b.Has (b.first + nextMinVertex b allowed l) := by
  unfold Block.Has nextMinVertex
  cases e : (List.range b.count).find? (fun i => !isDiscarded (b.first + i) l && allowed (b.first + i)) with
  | none => simp; omega
  | some i =>
    have := List.mem_of_find?_eq_some e
    simp at this ⊢
    omega

/-- Vertices of the block that are allowed and not discarded. -/
def leftDims (b : Block) (allowed : Nat → Bool) (l : List Nat) : List Nat :=
  ((List.range b.count).map (b.first + ·)).filter (fun v => !isDiscarded v l && allowed v)

theorem mem_leftDims (b : Block) (allowed : Nat → Bool) (l : List Nat) (v : Nat) :
    v ∈ leftDims b allowed l ↔ b.Has v ∧ v ∉ l ∧ allowed v = true := by
  unfold leftDims
  rw [List.mem_filter]
  simp only [List.mem_map, List.mem_range, Bool.and_eq_true, Bool.not_eq_true', Block.Has]
  rw [← Bool.not_eq_true, isDiscarded_iff]
  constructor
  · rintro ⟨⟨i, hi, rfl⟩, h1, h2⟩; exact ⟨by omega, h1, h2⟩
  · rintro ⟨⟨h1, h2⟩, h3, h4⟩; exact ⟨⟨v - b.first, by omega, by omega⟩, h3, h4⟩

theorem nextMinVertex_left (b : Block) (allowed : Nat → Bool) (l : List Nat) (hl : leftDims b allowed l ≠ []) :
    b.first + nextMinVertex b allowed l ∈ leftDims b allowed l := by
  obtain ⟨w, hw⟩ := List.exists_mem_of_ne_nil _ hl
  rw [mem_leftDims] at hw ⊢
  unfold nextMinVertex
  cases e : (List.range b.count).find? (fun i => !isDiscarded (b.first + i) l && allowed (b.first + i)) with
  | none =>
    exfalso
    have := List.find?_eq_none.mp e (w - b.first) (by have := hw.1; unfold Block.Has at this; simp; omega)
    have ew : b.first + (w - b.first) = w := by have := hw.1; unfold Block.Has at this; omega
    rw [ew] at this
    simp only [Bool.and_eq_true, Bool.not_eq_true', not_and] at this
    rw [← Bool.not_eq_true, isDiscarded_iff] at this
    exact this hw.2.1 hw.2.2
  | some i =>
    have h1 := List.mem_of_find?_eq_some e
    have h2 := List.find?_some e
    simp only [Bool.and_eq_true, Bool.not_eq_true'] at h2
    rw [← Bool.not_eq_true, isDiscarded_iff] at h2
    simp at h1
    exact ⟨by unfold Block.Has; simp; omega, h2.1, h2.2⟩

theorem leftDims_shrink (b : Block) (allowed : Nat → Bool) (l : List Nat) :
    leftDims b allowed (l ++ [b.first + nextMinVertex b allowed l]) = [] ∨
      (leftDims b allowed (l ++ [b.first + nextMinVertex b allowed l])).length < (leftDims b allowed l).length := by
  by_cases hl : leftDims b allowed l = []
  · left
    rw [List.eq_nil_iff_forall_not_mem]
    intro v hv
    rw [mem_leftDims] at hv
    have : v ∈ leftDims b allowed l := by
      rw [mem_leftDims]; exact ⟨hv.1, fun h => hv.2.1 (List.mem_append_left _ h), hv.2.2⟩
    rw [hl] at this
    cases this
  · right
    have h := nextMinVertex_left b allowed l hl
    have e : leftDims b allowed (l ++ [b.first + nextMinVertex b allowed l]) =
        (leftDims b allowed l).filter (fun v => v != b.first + nextMinVertex b allowed l) := by
      unfold leftDims
      rw [List.filter_filter]
      apply List.filter_congr
      intro v _
      simp only [isDiscarded, List.any_append, List.any_cons, List.any_nil, Bool.or_false, Bool.not_or]
      by_cases hv : b.first + nextMinVertex b allowed l = v
      · simp [hv]
      · have : (v != b.first + nextMinVertex b allowed l) = true := by simp [Ne.symm hv]
        have h2 : (b.first + nextMinVertex b allowed l == v) = false := by simpa using hv
        simp [this, h2]
    rw [e]
    rw [List.length_filter_lt_length_iff_exists]
    exact ⟨_, h, by simp⟩

/-- What `colour_scc` asks of a vertex. -/
structure Fits (g : Graph) (c : Nat) (colour : List Nat) (pv : Option Nat) (v : Nat) : Prop where
  free : colourOf colour v = 0
  self : ¬ Joined g.adj v v
  prev : ∀ u ∈ pv, ¬ Joined g.adj v u
  old : ∀ u < g.n, colourOf colour u = c → ¬ Joined g.adj u v

theorem tryDims_spec (g : Graph) (h01 : ∀ i j, g.adj i j = 0 ∨ g.adj i j = 1) (c : Nat) (b : Block)
    (allowed : Nat → Bool) (pv : Option Nat) (rest : Nat → List Nat → Bool × List Nat) (colour : List Nat)
    (hb : 0 < b.count) (hc : ∀ v, b.Has v → colourOf colour v ≠ c)
    (hrest : ∀ v, b.Has v → Fits g c colour pv v → (rest v (colour.set v c)).1 = false →
      (rest v (colour.set v c)).2 = colour.set v c) (k : Nat) :
    ∀ l, ((tryDims g c b allowed pv rest k l colour).1 = true →
        ∃ v, b.Has v ∧ Fits g c colour pv v ∧ (rest v (colour.set v c)).1 = true ∧
          (tryDims g c b allowed pv rest k l colour).2 = (rest v (colour.set v c)).2) ∧
      ((tryDims g c b allowed pv rest k l colour).1 = false →
        (tryDims g c b allowed pv rest k l colour).2 = colour ∧
        ((leftDims b allowed l).length ≤ k → ∀ v ∈ leftDims b allowed l, Fits g c colour pv v →
          (rest v (colour.set v c)).1 = false)) := by
  induction k with
  | zero =>
    intro l
    refine ⟨nofun, fun _ => ⟨rfl, fun h v hv => ?_⟩⟩
    have := List.length_pos_of_mem hv
    omega
  | succ k ih =>
    intro l
    have hv := nextMinVertex_has b allowed l hb
    have hs := leftDims_shrink b allowed l
    have hnl := nextMinVertex_left b allowed l
    unfold tryDims
    simp only
    generalize b.first + nextMinVertex b allowed l = v at *
    -- the vertex is not used
    have skip : ((Fits g c colour pv v → (rest v (colour.set v c)).1 = false)) →
        ((tryDims g c b allowed pv rest k (l ++ [v]) colour).1 = true →
        ∃ w, b.Has w ∧ Fits g c colour pv w ∧ (rest w (colour.set w c)).1 = true ∧
          (tryDims g c b allowed pv rest k (l ++ [v]) colour).2 = (rest w (colour.set w c)).2) ∧
      ((tryDims g c b allowed pv rest k (l ++ [v]) colour).1 = false →
        (tryDims g c b allowed pv rest k (l ++ [v]) colour).2 = colour ∧
        ((leftDims b allowed l).length ≤ k + 1 → ∀ w ∈ leftDims b allowed l, Fits g c colour pv w →
          (rest w (colour.set w c)).1 = false)) := by
      intro hno
      obtain ⟨i1, i2⟩ := ih (l ++ [v])
      refine ⟨i1, fun hf => ⟨(i2 hf).1, fun hk w hw hfit => ?_⟩⟩
      by_cases e : w = v
      · exact e ▸ hno (e ▸ hfit)
      · have hw' : w ∈ leftDims b allowed (l ++ [v]) := by
          rw [mem_leftDims] at hw ⊢
          exact ⟨hw.1, by simp [hw.2.1, e], hw.2.2⟩
        refine (i2 hf).2 ?_ w hw' hfit
        rcases hs with hs | hs
        · rw [hs]; simp
        · omega
    split_ifs with c1 c2 c3 c4 c5
    · apply skip
      intro hf
      simp only [Bool.and_eq_true, decide_eq_true_eq] at c1
      have := hf.free
      omega
    · apply skip
      intro hf
      exact absurd (Or.inl (by simpa using c2)) hf.self
    · apply skip
      intro hf
      cases pv with
      | none => cases c3
      | some u =>
        simp only [Option.any_some] at c3
        exact absurd ((isAdjacent_iff g v u).mp c3) (hf.prev u rfl)
    all_goals
      have f0 : colourOf colour v = 0 := by
        have := hc v hv
        simp only [Bool.and_eq_true, decide_eq_true_eq, bne_iff_ne, ne_eq] at c1
        omega
    · refine ⟨fun _ => ⟨v, hv, ⟨f0, ?_, ?_, ?_⟩, c5, rfl⟩, nofun⟩
      · simp at c2
        unfold Joined
        simp [c2]
      · intro u hu hj
        cases pv with
        | none => cases hu
        | some w =>
          cases hu
          exact c3 (by simpa using (isAdjacent_iff g v u).mpr hj)
      · exact (isValidColour_iff g h01 v c colour).mp c4
    · have hfit : Fits g c colour pv v := by
        refine ⟨f0, ?_, ?_, (isValidColour_iff g h01 v c colour).mp c4⟩
        · simp at c2
          unfold Joined
          simp [c2]
        · intro u hu hj
          cases pv with
          | none => cases hu
          | some w =>
            cases hu
            exact c3 (by simpa using (isAdjacent_iff g v u).mpr hj)
      have c5' : (rest v (colour.set v c)).1 = false := by simpa using c5
      rw [hrest v hv hfit c5', set_back colour v c f0]
      exact skip (fun _ => c5')
    · rw [set_zero colour v f0]
      apply skip
      intro hf
      exact absurd ((isValidColour_iff g h01 v c colour).mpr hf.old) c4

theorem forall₂_right_mem {α β : Type} {R : α → β → Prop} {l : List α} {m : List β} (h : List.Forall₂ R l m) {y : β}
    (hy : y ∈ m) : ∃ x ∈ l, R x y := by
  induction h with
  | nil => cases hy
  | cons h0 _ ih =>
    rcases List.mem_cons.mp hy with rfl | hy
    · exact ⟨_, List.mem_cons_self, h0⟩
    · obtain ⟨x, hx, hr⟩ := ih hy
      exact ⟨x, List.mem_cons_of_mem _ hx, hr⟩

theorem leftDims_length (b : Block) (allowed : Nat → Bool) (l : List Nat) :
    (leftDims b allowed l).length ≤ b.count := by
  unfold leftDims
  refine (List.length_filter_le _ _).trans ?_
  simp

theorem colourBlocks_spec (g : Graph) (h01 : ∀ i j, g.adj i j = 0 ∨ g.adj i j = 1) (nvar c : Nat) (hc0 : c ≠ 0)
    (allowed : Nat → Bool) (bs : List Block) : ∀ (pv : Option Nat) (colour : List Nat), colour.length = g.n →
    Blocks g.n bs → (∀ b ∈ bs, 0 < b.count ∧ b.count ≤ nvar) →
    (∀ b ∈ bs, ∀ v, b.Has v → colourOf colour v ≠ c) → (∀ u ∈ pv, u < g.n ∧ colourOf colour u = c) →
    ((colourBlocks g nvar c allowed bs pv colour).1 = true →
      ∃ vs, Extends g.adj g.n c (colourOf colour) bs vs ∧
        (colourBlocks g nvar c allowed bs pv colour).2 = vs.foldl (fun x v => x.set v c) colour) ∧
    ((colourBlocks g nvar c allowed bs pv colour).1 = false →
      (colourBlocks g nvar c allowed bs pv colour).2 = colour ∧
      ∀ vs, Extends g.adj g.n c (colourOf colour) bs vs → ∃ v ∈ vs, allowed v = false) := by
  induction bs with
  | nil =>
    intro pv colour _ _ _ _ _
    refine ⟨fun _ => ⟨[], ⟨.nil, ?_, .nil, ?_, ?_⟩, rfl⟩, nofun⟩ <;> simp
  | cons b bs ih =>
    intro pv colour hlen hB hdim hc hpv
    have hB' : Blocks g.n bs := ⟨fun x hx => hB.inside x (List.mem_cons_of_mem _ hx), (List.pairwise_cons.mp hB.apart).2⟩
    have hdis := (List.pairwise_cons.mp hB.apart).1
    have hlt : ∀ v, b.Has v → v < colour.length := by
      intro v hv
      have := hB.inside b List.mem_cons_self
      have := hv.2
      omega
    have ihv : ∀ v, b.Has v → _ := fun v hv => ih (some v) (colour.set v c) (by rw [List.length_set]; exact hlen) hB'
      (fun x hx => hdim x (List.mem_cons_of_mem _ hx))
      (by
        intro x hx w hw
        rw [colourOf_set _ _ _ _ (hlt v hv), if_neg (show ¬ w = v from fun e => hdis x hx v hv (e ▸ hw))]
        exact hc x (List.mem_cons_of_mem _ hx) w hw)
      (by
        intro u hu
        cases hu
        exact ⟨by have := hlt v hv; omega, by rw [colourOf_set _ _ _ _ (hlt v hv), if_pos rfl]⟩)
    obtain ⟨t1, t2⟩ := tryDims_spec g h01 c b allowed pv (fun v => colourBlocks g nvar c allowed bs (some v)) colour
      (hdim b List.mem_cons_self).1 (hc b List.mem_cons_self) (fun v hv _ hf => ((ihv v hv).2 hf).1) nvar []
    refine ⟨fun h => ?_, fun h => ⟨(t2 h).1, fun vs hvs => ?_⟩⟩
    · obtain ⟨v, hv, hf, h1, h2⟩ := t1 h
      obtain ⟨vs, hE, e⟩ := (ihv v hv).1 h1
      have hset := fun u => colourOf_set colour v c u (hlt v hv)
      have hset' : ∀ u, colourOf (colour.set v c) u = c ↔ u = v ∨ colourOf colour u = c := by
        intro u
        rw [hset]
        split_ifs with e
        · simp [e]
        · simp [e]
      refine ⟨v :: vs, ⟨.cons hv hE.one, ?_, List.pairwise_cons.mpr ⟨?_, hE.apart⟩, ?_, ?_⟩, ?_⟩
      · intro w hw
        rcases List.mem_cons.mp hw with rfl | hw
        · exact hf.free
        · have := hE.free w hw
          rw [hset] at this
          split_ifs at this
          · exact absurd this hc0
          · exact this
      · intro w hw
        exact hE.old w hw v (by have := hlt v hv; omega) ((hset' v).mpr (Or.inl rfl))
      · intro w hw
        rcases List.mem_cons.mp hw with rfl | hw
        · exact hf.self
        · exact hE.self w hw
      · intro w hw u hu huc
        rcases List.mem_cons.mp hw with rfl | hw
        · exact hf.old u hu huc
        · exact hE.old w hw u hu ((hset' u).mpr (Or.inr huc))
      · unfold colourBlocks
        rw [h2, e]
        rfl
    · obtain ⟨one, free, apart, self, old⟩ := hvs
      cases one with
      | @cons _ v _ vs hv one =>
        by_contra hall
        push Not at hall
        have hal : ∀ w ∈ v :: vs, allowed w = true := fun w hw => by simpa using hall w hw
        have hvl : v ∈ leftDims b allowed [] := (mem_leftDims _ _ _ _).mpr ⟨hv, by simp, hal v List.mem_cons_self⟩
        have hf : Fits g c colour pv v := by
          refine ⟨free v List.mem_cons_self, self v List.mem_cons_self, ?_, fun u hu hc => old v List.mem_cons_self u hu hc⟩
          intro u hu hj
          exact old v List.mem_cons_self u (hpv u hu).1 (hpv u hu).2 hj.symm
        have hr := (t2 h).2 ((leftDims_length b allowed []).trans (hdim b List.mem_cons_self).2) v hvl hf
        have hset := fun u => colourOf_set colour v c u (hlt v hv)
        have hE : Extends g.adj g.n c (colourOf (colour.set v c)) bs vs := by
          refine ⟨one, ?_, (List.pairwise_cons.mp apart).2, fun w hw => self w (List.mem_cons_of_mem _ hw), ?_⟩
          · intro w hw
            rw [hset]
            obtain ⟨x, hx, hxw⟩ := forall₂_right_mem one hw
            rw [if_neg (show ¬ w = v from fun e => hdis x hx v hv (e ▸ hxw))]
            exact free w (List.mem_cons_of_mem _ hw)
          · intro w hw u hu huc
            rw [hset] at huc
            split_ifs at huc with e
            · rw [e]; exact (List.pairwise_cons.mp apart).1 w hw
            · exact old w (List.mem_cons_of_mem _ hw) u hu huc
        obtain ⟨w, hw, ha⟩ := ((ihv v hv).2 hr).2 vs hE
        exact absurd (hal w (List.mem_cons_of_mem _ hw)) (by simp [ha])

theorem colourOf_paint (c : Nat) (vs : List Nat) : ∀ (colour : List Nat), (∀ v ∈ vs, v < colour.length) → ∀ u,
    colourOf (vs.foldl (fun x v => x.set v c) colour) u = if u ∈ vs then c else colourOf colour u := by
  induction vs with
  | nil => intro colour _ u; simp
  | cons v vs ih =>
    intro colour h u
    rw [List.foldl_cons, ih _ (by intro w hw; rw [List.length_set]; exact h w (List.mem_cons_of_mem _ hw)),
      colourOf_set _ _ _ _ (h v List.mem_cons_self)]
    by_cases e : u ∈ vs
    · simp [e]
    · by_cases e2 : u = v
      · simp [e2]
      · simp [e, e2]

theorem paint_length (c : Nat) (vs : List Nat) (colour : List Nat) :
    (vs.foldl (fun x v => x.set v c) colour).length = colour.length := by
  induction vs generalizing colour with
  | nil => rfl
  | cons v vs ih => rw [List.foldl_cons, ih, List.length_set]

end Pluto
