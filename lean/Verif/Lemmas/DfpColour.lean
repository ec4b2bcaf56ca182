import Verif.Lemmas.Dfp

/-! Colours of the loops in the search with `--dfp`. -/

namespace Pluto

theorem dims_skel {k p : Prog} (h : skel p = k) : k.stmts.map (·.dimOrig) = p.stmts.map (·.dimOrig) := by
  subst h
  simp [skel, skelStmt]

theorem fcgSize_skel {k p : Prog} (h : skel p = k) : fcgSize p = fcgSize k := by
  unfold fcgSize
  rw [dims_skel h]

theorem fcgOffset_skel {k p : Prog} (h : skel p = k) (i : Nat) : fcgOffset p i = fcgOffset k i := by
  unfold fcgOffset
  rw [List.map_take, List.map_take, dims_skel h]

/-- Number of loops of statement `i`. -/
def loopsOf (p : Prog) (i : Nat) : Nat := (p.stmts[i]?.map (·.dimOrig)).getD 0

theorem loopsOf_skel {k p : Prog} (h : skel p = k) (i : Nat) : loopsOf p i = loopsOf k i := by
  unfold loopsOf
  rw [← List.getElem?_map, ← List.getElem?_map, dims_skel h]

theorem stmtBlock_skel {k p : Prog} (h : skel p = k) (i : Nat) : stmtBlock p i = stmtBlock k i := by
  have := loopsOf_skel h i
  unfold stmtBlock
  unfold loopsOf at this
  rw [fcgOffset_skel h, this]

theorem fcgOffset_succ (p : Prog) (i : Nat) : fcgOffset p (i + 1) = fcgOffset p i + loopsOf p i := by
  unfold fcgOffset loopsOf
  rw [List.take_add_one]
  cases p.stmts[i]? <;> simp

theorem fcgOffset_mono (p : Prog) {i j : Nat} (h : i ≤ j) : fcgOffset p i ≤ fcgOffset p j := by
  induction j with
  | zero => rw [Nat.le_zero.mp h]
  | succ j ih =>
    by_cases e : i = j + 1
    · rw [e]
    · have := ih (by omega)
      rw [fcgOffset_succ]
      omega

theorem fcgOffset_end (p : Prog) : fcgOffset p p.stmts.length = fcgSize p := by
  unfold fcgOffset fcgSize
  rw [List.take_length]

theorem stmtBlock_has {p : Prog} {i v : Nat} : (stmtBlock p i).Has v ↔ fcgOffset p i ≤ v ∧ v < fcgOffset p (i + 1) := by
  rw [fcgOffset_succ]
  exact Iff.rfl

theorem stmtBlock_inside {p : Prog} {i : Nat} (hi : i < p.stmts.length) : (stmtBlock p i).first + (stmtBlock p i).count ≤ fcgSize p := by
  have h1 := fcgOffset_mono p (show i + 1 ≤ p.stmts.length by omega)
  rw [fcgOffset_end, fcgOffset_succ] at h1
  exact h1

theorem stmtBlock_apart {p : Prog} {i j v : Nat} (h : i ≠ j) (h1 : (stmtBlock p i).Has v) : ¬ (stmtBlock p j).Has v := by
  rw [stmtBlock_has] at h1 ⊢
  rcases Nat.lt_or_gt_of_ne h with hl | hl
  · have := fcgOffset_mono p (show i + 1 ≤ j by omega)
    omega
  · have := fcgOffset_mono p (show j + 1 ≤ i by omega)
    omega

theorem stmtBlocks {p : Prog} {l : List Nat} (hn : l.Nodup) (hl : ∀ i ∈ l, i < p.stmts.length) :
    Blocks (fcgSize p) (l.map (stmtBlock p)) := by
  refine ⟨?_, ?_⟩
  · intro b hb
    obtain ⟨i, hi, rfl⟩ := List.mem_map.mp hb
    exact stmtBlock_inside (hl i hi)
  · rw [List.pairwise_map]
    exact hn.imp (fun h v h1 => stmtBlock_apart h h1)

theorem maxDim_ge (a : Auto) (s : Nat) {i : Nat} (hi : i < a.p.stmts.length) (hs : a.scc i = (s : Int)) :
    (loopsOf a.p i : Int) ≤ a.maxDim s := by
  have key : ∀ (l : List (Int × Nat)) (m : Int), m ≤ l.foldl (fun m x => if x.1 = (s : Int) then max m (x.2 : Int) else m) m ∧
      ∀ x ∈ l, x.1 = (s : Int) → (x.2 : Int) ≤ l.foldl (fun m x => if x.1 = (s : Int) then max m (x.2 : Int) else m) m := by
    intro l
    induction l with
    | nil => intro m; simp
    | cons y l ih =>
      intro m
      rw [List.foldl_cons]
      obtain ⟨h1, h2⟩ := ih (if y.1 = (s : Int) then max m (y.2 : Int) else m)
      refine ⟨?_, ?_⟩
      · refine le_trans ?_ h1
        split_ifs <;> omega
      · intro x hx hxs
        rcases List.mem_cons.mp hx with rfl | hx
        · rw [if_pos hxs] at h1 ⊢
          omega
        · exact h2 x hx hxs
  refine (key _ (-1)).2 (a.scc i, loopsOf a.p i) ?_ hs
  rw [List.mem_iff_getElem?]
  refine ⟨i, ?_⟩
  rw [List.getElem?_mapIdx, List.getElem?_eq_getElem hi]
  simp [loopsOf, List.getElem?_eq_getElem hi]

/-- The colours after colouring the statements in `S` at level `c`. -/
structure Coloured (k : Prog) (c : Nat) (S : Nat → Prop) (colour : List Nat) : Prop where
  len : colour.length = fcgSize k
  le : ∀ v, colourOf colour v ≤ c
  inj : ∀ i < k.stmts.length, ∀ u v, (stmtBlock k i).Has u → (stmtBlock k i).Has v → colourOf colour u = colourOf colour v →
    colourOf colour u ≠ 0 → u = v
  old : ∀ i < k.stmts.length, ∀ c', 1 ≤ c' → c' < c → c' ≤ loopsOf k i → ∃ v, (stmtBlock k i).Has v ∧ colourOf colour v = c'
  cur : ∀ i < k.stmts.length, S i → c ≤ loopsOf k i → ∃ v, (stmtBlock k i).Has v ∧ colourOf colour v = c
  fresh : ∀ i < k.stmts.length, ¬ S i → ∀ v, (stmtBlock k i).Has v → colourOf colour v ≠ c

/-- Only uncoloured vertices get colours. -/
def Kept (c : Nat) (x y : List Nat) : Prop :=
  ∀ v, colourOf y v = colourOf x v ∨ (colourOf x v = 0 ∧ colourOf y v = c)

theorem Kept.refl (c : Nat) (x : List Nat) : Kept c x x := fun _ => .inl rfl

theorem Kept.trans {c : Nat} {x y z : List Nat} (h1 : Kept c x y) (h2 : Kept c y z) : Kept c x z := by
  intro v
  rcases h1 v with a | ⟨a, b⟩ <;> rcases h2 v with d | ⟨d, e⟩
  · exact .inl (d.trans a)
  · exact .inr ⟨a ▸ d, e⟩
  · exact .inr ⟨a, d.trans b⟩
  · exact .inr ⟨a, e⟩

section
variable {k : Prog} {L : Libs} {fuse : Fuse} {d d' : Dfp} {c s : Nat}
  (hk : SkelOK k) (hpos : ∀ i < k.stmts.length, 0 < loopsOf k i) (hc0 : c ≠ 0)

theorem mem_sccStmts {a : Auto} {i : Nat} : i ∈ a.sccStmts s ↔ i < a.p.stmts.length ∧ a.scc i = (s : Int) := by
  simp [Auto.sccStmts]

/-- Statements of a component that need no more loops count as coloured. -/
theorem Coloured.skip (hx : Coloured k c (fun i => d.a.scc i < (s : Int)) d.colour)
    (h : ∀ i < k.stmts.length, d.a.scc i = (s : Int) → loopsOf k i < c) :
    Coloured k c (fun i => d.a.scc i < ((s + 1 : Nat) : Int)) d.colour := by
  refine ⟨hx.len, hx.le, hx.inj, hx.old, ?_, ?_⟩
  · intro i hi hS hl
    by_cases e : d.a.scc i = (s : Int)
    · have := h i hi e; omega
    · exact hx.cur i hi (by push_cast at hS; omega) hl
  · intro i hi hS
    exact hx.fresh i hi (by push_cast at hS; omega)

include hk hpos hc0 in
theorem colourScc_colour (hc : CInv True k d.a) (hg : FcgOK k d.fcg) (hcol : d.coloured + 1 = c)
    (hx : Coloured k c (fun i => d.a.scc i < (s : Int)) d.colour) {ok : Bool}
    (h : Dfp.colourScc L.isEmpty fuse c s d = some (d', ok)) :
    (ok = false → d'.colour = d.colour) ∧
    (ok = true → Coloured k c (fun i => d.a.scc i < ((s + 1 : Nat) : Int)) d'.colour ∧ Kept c d.colour d'.colour) := by
  have hlen := sk_len hc.inv.sk
  have hmax : ∀ i < k.stmts.length, d.a.scc i = (s : Int) → (loopsOf k i : Int) ≤ d.a.maxDim s := by
    intro i hi hs
    rw [← loopsOf_skel hc.inv.sk]
    exact maxDim_ge d.a s (by omega) hs
  unfold Dfp.colourScc at h
  simp only at h
  split_ifs at h with h1 h2 h3 h4
  · simp only [Option.some.injEq, Prod.mk.injEq] at h
    rw [← h.1, ← h.2]
    refine ⟨nofun, fun _ => ⟨hx.skip ?_, .refl _ _⟩⟩
    intro i hi hs
    have : i ∈ d.a.sccStmts s := mem_sccStmts.mpr ⟨by omega, hs⟩
    rw [h1] at this
    cases this
  · simp only [Option.some.injEq, Prod.mk.injEq] at h
    rw [← h.1, ← h.2]
    refine ⟨nofun, fun _ => ⟨hx.skip ?_, .refl _ _⟩⟩
    intro i hi hs
    have := hmax i hi hs
    omega
  · rw [Option.bind_eq_bind, Option.bind_eq_some_iff] at h
    obtain ⟨a1, _, h6⟩ := h
    simp only [Option.pure_def, Option.some.injEq, Prod.mk.injEq] at h6
    rw [← h6.1, ← h6.2]
    refine ⟨nofun, fun _ => ⟨hx.skip ?_, .refl _ _⟩⟩
    intro i hi hs
    have := hmax i hi hs
    omega
  · simp only [Option.some.injEq, Prod.mk.injEq] at h
    rw [← h.1, ← h.2]
    refine ⟨nofun, fun _ => ⟨hx.skip ?_, .refl _ _⟩⟩
    intro i hi hs
    have := hmax i hi hs
    omega
  · simp only [Option.some.injEq, Prod.mk.injEq] at h
    have hbs : (d.a.sccStmts s).map (stmtBlock d.a.p) = (d.a.sccStmts s).map (stmtBlock k) := by
      apply List.map_congr_left
      intro i _
      exact stmtBlock_skel hc.inv.sk i
    rw [hbs] at h
    have hmem : ∀ i ∈ d.a.sccStmts s, i < k.stmts.length ∧ d.a.scc i = (s : Int) := by
      intro i hi
      have := mem_sccStmts.mp hi
      exact ⟨by omega, this.2⟩
    have hnd : (d.a.sccStmts s).Nodup := List.Nodup.filter _ List.nodup_range
    have hB := stmtBlocks hnd (fun i hi => (hmem i hi).1)
    have hdim : ∀ b ∈ (d.a.sccStmts s).map (stmtBlock k), 0 < b.count ∧ b.count ≤ d.a.p.nvar := by
      intro b hb
      obtain ⟨i, hi, rfl⟩ := List.mem_map.mp hb
      have hi' := (hmem i hi).1
      refine ⟨hpos i hi', ?_⟩
      have := (hk.stmts _ (List.getElem_mem hi')).2.1
      rw [sk_nvar hc.inv.sk] at this
      show (k.stmts[i]?.map (·.dimOrig)).getD 0 ≤ _
      rw [List.getElem?_eq_getElem hi']
      exact this
    have hfr : ∀ b ∈ (d.a.sccStmts s).map (stmtBlock k), ∀ v, b.Has v → colourOf d.colour v ≠ c := by
      intro b hb v hv
      obtain ⟨i, hi, rfl⟩ := List.mem_map.mp hb
      obtain ⟨hi', hs⟩ := hmem i hi
      exact hx.fresh i hi' (by rw [hs]; simp) v hv
    obtain ⟨g1, g2⟩ := colourBlocks_spec d.fcg hg.bits d.a.p.nvar c hc0 (fun _ => true)
      ((d.a.sccStmts s).map (stmtBlock k)) none d.colour (by rw [hx.len, hg.n]) (by rw [hg.n]; exact hB) hdim hfr (by simp)
    rw [← h.1, ← h.2]
    refine ⟨fun he => (g2 he).1, fun he => ?_⟩
    obtain ⟨vs, hv, hcolour⟩ := g1 he
    simp only [hcolour]
    have hone := hv.one
    rw [List.forall₂_map_left_iff] at hone
    have hvs : ∀ v ∈ vs, ∃ i ∈ d.a.sccStmts s, (stmtBlock k i).Has v := by
      intro v hvv
      obtain ⟨i, hi, hh⟩ := forall₂_right_mem hone hvv
      exact ⟨i, hi, hh⟩
    have hlt : ∀ v ∈ vs, v < d.colour.length := by
      intro v hvv
      obtain ⟨i, hi, hh⟩ := hvs v hvv
      have := stmtBlock_inside (hmem i hi).1
      have h7 := hh.2
      rw [hx.len]
      omega
    have hp := colourOf_paint c vs d.colour hlt
    have hkept : Kept c d.colour (vs.foldl (fun x v => x.set v c) d.colour) := by
      intro v
      rw [hp]
      split_ifs with hm
      · exact .inr ⟨hv.free v hm, rfl⟩
      · exact .inl rfl
    -- the vertex chosen in a block is unique
    have huniq : ∀ i ∈ d.a.sccStmts s, ∃ v ∈ vs, (stmtBlock k i).Has v ∧ ∀ u ∈ vs, (stmtBlock k i).Has u → u = v := by
      intro i hi
      obtain ⟨j, hj, rfl⟩ := List.getElem_of_mem hi
      have hf := List.forall₂_iff_get.mp hone
      have hj' : j < vs.length := by rw [← hf.1]; exact hj
      refine ⟨vs[j], List.getElem_mem hj', hf.2 j hj hj', ?_⟩
      intro u hu hhu
      obtain ⟨j2, hj2, rfl⟩ := List.getElem_of_mem hu
      have hh := hf.2 j2 (by rw [hf.1]; exact hj2) hj2
      by_cases e : j2 = j
      · simp only [e]
      · exfalso
        refine stmtBlock_apart ?_ hh hhu
        intro he
        exact e ((List.Nodup.getElem_inj_iff hnd).mp he)
    refine ⟨⟨?_, ?_, ?_, ?_, ?_, ?_⟩, hkept⟩
    · rw [paint_length, hx.len]
    · intro v
      rw [hp]
      split_ifs
      · exact le_refl _
      · exact hx.le v
    · intro i hi u v hu hv' he hne
      have two : ∀ u v, (stmtBlock k i).Has u → (stmtBlock k i).Has v → u ∈ vs → v ∉ vs → colourOf d.colour v ≠ c := by
        intro u v hu hv' hmu _
        obtain ⟨j, hj, hh⟩ := hvs u hmu
        have : j = i := by
          by_contra hne
          exact stmtBlock_apart hne hh hu
        subst this
        exact hx.fresh j hi (by rw [(hmem j hj).2]; simp) v hv'
      rw [hp, hp] at he
      rw [hp] at hne
      by_cases mu : u ∈ vs <;> by_cases mv : v ∈ vs
      · obtain ⟨j, hj, hh⟩ := hvs u mu
        have : j = i := by
          by_contra hne
          exact stmtBlock_apart hne hh hu
        subst this
        obtain ⟨w, _, _, hw⟩ := huniq j hj
        rw [hw u mu hu, hw v mv hv']
      · rw [if_pos mu, if_neg mv] at he
        exact absurd he.symm (two u v hu hv' mu mv)
      · rw [if_neg mu, if_pos mv] at he
        exact absurd he (two v u hv' hu mv mu)
      · rw [if_neg mu, if_neg mv] at he
        rw [if_neg mu] at hne
        exact hx.inj i hi u v hu hv' he hne
    · intro i hi c' h1 h2 h3
      obtain ⟨v, hv1, hv2⟩ := hx.old i hi c' h1 h2 h3
      refine ⟨v, hv1, ?_⟩
      rcases hkept v with e | ⟨e, _⟩
      · rw [e, hv2]
      · omega
    · intro i hi hS hl
      by_cases e : d.a.scc i = (s : Int)
      · obtain ⟨v, hv1, hv2, _⟩ := huniq i (mem_sccStmts.mpr ⟨by omega, e⟩)
        exact ⟨v, hv2, by rw [hp, if_pos hv1]⟩
      · obtain ⟨v, hv1, hv2⟩ := hx.cur i hi (by push_cast at hS; omega) hl
        refine ⟨v, hv1, ?_⟩
        rcases hkept v with e | ⟨e, _⟩
        · rw [e, hv2]
        · omega
    · intro i hi hS v hv'
      have hfi := hx.fresh i hi (by push_cast at hS; omega) v hv'
      rw [hp, if_neg]
      · exact hfi
      · intro hm
        obtain ⟨j, hj, hh⟩ := hvs v hm
        have : j = i := by
          by_contra hne
          exact stmtBlock_apart hne hh hv'
        subst this
        have := (hmem j hj).2
        push_cast at hS
        omega

include hk hpos hc0 in
theorem Tries.colours (hE : EmptyOracle L.isEmpty) {ok : Bool} (h : Tries k L.isEmpty fuse c s d d' ok) :
    CInv True k d.a → FcgOK k d.fcg → d.coloured + 1 = c → Coloured k c (fun i => d.a.scc i < (s : Int)) d.colour →
    (ok = false → d'.colour = d.colour) ∧
    (ok = true → Coloured k c (fun i => d.a.scc i < ((s + 1 : Nat) : Int)) d'.colour ∧ Kept c d.colour d'.colour) := by
  induction h with
  | one d e d' ok h1 h2 h3 =>
    intro hc hg hcol hx
    have := colourScc_colour hk hpos hc0 h1.grow.inv (h1.fcg hg) (by rw [h1.coloured]; exact hcol)
      (by rw [h1.grow.scc, h2]; exact hx) h3
    rw [h1.grow.scc, h2] at this
    exact this
  | next d e d' ok t1 t2 ih1 ih2 =>
    intro hc hg hcol hx
    have st := t1.step hE hk hc
    have e1 := (ih1 hc hg hcol hx).1 rfl
    have := ih2 st.grow.inv (st.fcg hg) (by rw [st.coloured]; exact hcol) (by rw [st.grow.scc, e1]; exact hx)
    rw [st.grow.scc, e1] at this
    exact this

theorem colourFcg_step (hE : EmptyOracle L.isEmpty) (hk : SkelOK k) {fcgOf : Auto → List Nat → Nat → Graph}
    (hF : ∀ a colour c, skel a.p = k → FcgOK k (fcgOf a colour c)) (l : List Nat) : ∀ (d d' : Dfp), CInv True k d.a →
    Dfp.colourFcg L.isEmpty fcgOf fuse c l d = some d' → DStep k d d' := by
  induction l with
  | nil =>
    intro d d' hc h
    simp only [Dfp.colourFcg, Option.some.injEq] at h
    rw [← h]; exact .refl hc
  | cons s l ih =>
    intro d d' hc h
    simp only [Dfp.colourFcg, Option.bind_eq_bind] at h
    obtain ⟨d1, h1, h2⟩ := Option.bind_eq_some_iff.mp h
    have t := (colourOne_tries hE hk hF hc h1).step hE hk hc
    exact t.trans (ih d1 d' t.grow.inv h2)

include hk hpos hc0 in
theorem colourFcg_colours (hE : EmptyOracle L.isEmpty) {fcgOf : Auto → List Nat → Nat → Graph}
    (hF : ∀ a colour c, skel a.p = k → FcgOK k (fcgOf a colour c)) (m : Nat) : ∀ (s : Nat) (d d' : Dfp), CInv True k d.a →
    FcgOK k d.fcg → d.coloured + 1 = c → Coloured k c (fun i => d.a.scc i < (s : Int)) d.colour →
    Dfp.colourFcg L.isEmpty fcgOf fuse c (List.range' s m) d = some d' →
    Coloured k c (fun i => d.a.scc i < ((s + m : Nat) : Int)) d'.colour ∧ Kept c d.colour d'.colour := by
  induction m with
  | zero =>
    intro s d d' hc hg hcol hx h
    simp only [List.range'_zero, Dfp.colourFcg, Option.some.injEq] at h
    rw [← h]
    exact ⟨hx, .refl _ _⟩
  | succ m ih =>
    intro s d d' hc hg hcol hx h
    simp only [List.range'_succ, Dfp.colourFcg, Option.bind_eq_bind] at h
    obtain ⟨d1, h1, h2⟩ := Option.bind_eq_some_iff.mp h
    have t := colourOne_tries hE hk hF hc h1
    have st := t.step hE hk hc
    obtain ⟨x1, x2⟩ := (t.colours hk hpos hc0 hE hc hg hcol hx).2 rfl
    obtain ⟨y1, y2⟩ := ih (s + 1) d1 d' st.grow.inv (st.fcg hg) (by rw [st.coloured]; exact hcol)
      (by rw [st.grow.scc]; exact x1) h2
    rw [st.grow.scc] at y1
    refine ⟨?_, x2.trans y2⟩
    rw [show s + (m + 1) = s + 1 + m by omega]
    exact y1

end

end Pluto
