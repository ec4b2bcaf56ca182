import Verif.Props.TileSizes
import Verif.Props.Words

/-! C70: tile sizes from any source, and the selection of tile sizes. -/

namespace Pluto

theorem tileStmt_max {p : Prog} {i f k n : Nat} {z : Int} {r : Prog × Nat} (h : tileStmt p i f k n z = some r) :
    tileStmt p i f k n (max 1 z) = some r := by
  rw [← h]
  unfold tileStmt at h ⊢
  obtain ⟨st, h1, h⟩ := Option.bind_eq_some_iff.mp h
  obtain ⟨ty, h2, h⟩ := Option.bind_eq_some_iff.mp h
  simp only [h1, h2, Option.bind_eq_bind, Option.bind_some]
  by_cases c : ty ≠ .scalar
  · rw [if_pos c] at h
    by_cases c2 : z < 1
    · rw [if_pos c2] at h; cases h
    · rw [max_eq_right (by omega)]
  · rw [if_neg c, if_neg c]

theorem tileDepth_max {f k : Nat} {z : Int} : ∀ {l : List (Nat × Nat)} {p : Prog} {r : Prog × List (Nat × Nat)},
    tileDepth f k z p l = some r → tileDepth f k (max 1 z) p l = some r
  | [], _, _, h => h
  | (i, n) :: l, p, r, h => by
    unfold tileDepth at h ⊢
    obtain ⟨x, h1, h⟩ := Option.bind_eq_some_iff.mp h
    obtain ⟨y, h2, h⟩ := Option.bind_eq_some_iff.mp h
    rw [tileStmt_max h1]
    show (tileDepth f k (max 1 z) x.1 l >>= _) = _
    rw [tileDepth_max h2]
    exact h

theorem tileLoop_max {f : Nat} {z : Nat → Int} : ∀ {n k : Nat} {p p' : Prog} {l : List (Nat × Nat)},
    tileLoop f z n k p l = some p' → tileLoop f (fun m => max 1 (z m)) n k p l = some p'
  | 0, _, _, _, _, h => h
  | n + 1, k, p, p', l, h => by
    unfold tileLoop at h ⊢
    obtain ⟨x, h1, h⟩ := Option.bind_eq_some_iff.mp h
    rw [tileDepth_max h1]
    exact tileLoop_max h

theorem tileWith_sizes {select : Prog → Band → List Int × List Int → Option (List Int × List Int)} {second : Bool} :
    ∀ (l : List Band) (k : Nat) (s s' : Prog × List Int × List Int), l.foldlM (tileBandWith select second) s = some s' →
      ∃ S : Nat → Nat → Int, (∀ n m, 1 ≤ S n m) ∧ (l.zipIdx k).foldlM (fun p b => tileBand p b.1 (S b.2)) s.1 = some s'.1 := by
  intro l
  induction l with
  | nil => intro k s s' h; cases h; exact ⟨fun _ _ => 1, by simp, rfl⟩
  | cons b l ih =>
    intro k s s' h
    rw [List.foldlM_cons] at h
    obtain ⟨s1, h1, h⟩ := Option.bind_eq_some_iff.mp h
    obtain ⟨S, hS, e⟩ := ih (k + 1) s1 s' h
    unfold tileBandWith at h1
    obtain ⟨a, _, h1⟩ := Option.bind_eq_some_iff.mp h1
    by_cases c : (if second then a.2 else a.1).length < b.width
    · simp only [if_pos c] at h1; cases h1
    · simp only [if_neg c] at h1
      obtain ⟨p1, h2, h1⟩ := Option.bind_eq_some_iff.mp h1
      cases h1
      refine ⟨fun n m => if n = k then max 1 ((if second then a.2 else a.1).getD m 0) else S n m, fun n m => ?_, ?_⟩
      · show 1 ≤ ite _ _ _
        by_cases c2 : n = k
        · rw [if_pos c2]; exact le_max_left _ _
        · rw [if_neg c2]; exact hS n m
      · rw [List.zipIdx_cons, List.foldlM_cons]
        have : tileBand s.1 b (fun m => if k = k then max 1 ((if second then a.2 else a.1).getD m 0) else S k m) = some p1 := by
          simp only [if_true]
          exact tileLoop_max h2
        show Option.bind _ _ = _
        rw [show tileBand s.1 (b, k).1 _ = some p1 from this]
        show List.foldlM _ p1 _ = _
        rw [← e]
        refine foldlM_congr_mem (fun q c hc => ?_)
        have hne : c.2 ≠ k := by
          have := List.le_snd_of_mem_zipIdx hc
          omega
        simp only [if_neg hne]

theorem tileScatteringWith_sizes {select : Prog → Band → List Int × List Int → Option (List Int × List Int)} {second : Bool} {p p' : Prog}
    {bands : List Band} (h : tileScatteringWith select second p bands = some p') :
    ∃ S : Nat → Nat → Int, (∀ n m, 1 ≤ S n m) ∧ tileScatteringDims p bands S = some p' := by
  unfold tileScatteringWith at h
  obtain ⟨s, h1, h⟩ := Option.bind_eq_some_iff.mp h
  obtain ⟨S, hS, e⟩ := tileWith_sizes bands 0 _ s h1
  refine ⟨S, hS, ?_⟩
  unfold tileScatteringDims
  rw [e]
  exact h

/-- C70. Whatever the sizes and wherever they come from (`tile.sizes` with any contents, `--ft` and `--lt`, or
`--determine-tile-size`), if `pluto_tile` comes to an end without a failed assertion, the result runs the same instances and
keeps all dependences.
Missing: as for `C50_tile_partial`. -/
theorem C70_any_sizes_partial (isEmpty : Cst → Bool) (hE : EmptyOracle isEmpty) (best : Prog → List Loop → Option Loop)
    (hbest : ∀ p ls L, best p ls = some L → L ∈ ls) (o : TileOpts) (hip : o.innerpar = false)
    (select : Prog → Band → List Int × List Int → Option (List Int × List Int))
    (p : Prog) (hok : p.OK) (hi : p.Info) (hst : Stepwise p) (hT : TypesRight p)
    (hU : Uniform p 0 p.hProps.length (List.range p.stmts.length)) (hps : PureScalars p)
    (hfw : o.parallel = true → ∀ bands, tileBands p = some bands → ∀ b ∈ bands, Forward p b)
    (p' : Prog) (h : plutoTileWith isEmpty best select o p = some p') :
    ∃ T, p'.OK ∧ p'.Legal ∧ SameRuns p p' T ∧
      ∀ d ∈ p.deps, d.rar = false → ∀ s t q, p.Inst d s t q →
        LexBefore (p'.timestamp d.src (T d.src s q ++ s) q) (p'.timestamp d.dest (T d.dest t q ++ t) q) := by
  have hall := h
  unfold plutoTileWith at h
  obtain ⟨bands, hb, h⟩ := Option.bind_eq_some_iff.mp h
  obtain ⟨p1, e1, h⟩ := Option.bind_eq_some_iff.mp h
  obtain ⟨S, hS, e2⟩ := tileScatteringWith_sizes e1
  have hS2 : ∃ S2 : Nat → Nat → Int, (∀ n m, 1 ≤ S2 n m) ∧ (o.secondLevel = true →
      tileScatteringWith select true p1 bands = tileScatteringDims p1 bands S2) := by
    by_cases c : o.secondLevel = true
    · rw [if_pos c] at h
      obtain ⟨x, e3, -⟩ := Option.bind_eq_some_iff.mp h
      obtain ⟨p2, e4, -⟩ := Option.map_eq_some_iff.mp e3
      obtain ⟨S2, hS2, e5⟩ := tileScatteringWith_sizes e4
      exact ⟨S2, hS2, fun _ => by rw [e4, e5]⟩
    · exact ⟨fun _ _ => 1, by simp, fun h => absurd h c⟩
  obtain ⟨S2, hS2, e5⟩ := hS2
  obtain ⟨p2, T, h1, h2⟩ := C50_tile_partial isEmpty hE best hbest o hip S S2 hS hS2 p hok hi hst hT hU hps hfw
  have : plutoTile isEmpty best o S S2 p = plutoTileWith isEmpty best select o p := by
    unfold plutoTileWith plutoTile tileLevels
    simp only [hb, e1, e2, Option.bind_eq_bind, Option.bind_some]
    cases c : o.secondLevel with
    | false => rfl
    | true => rw [if_pos rfl, if_pos rfl, e5 c]; cases tileScatteringDims p1 bands S2 <;> rfl
  rw [this, hall] at h1
  cases h1
  exact ⟨T, h2⟩

theorem mapM_each {α β : Type} {P : β → Prop} {f : α → Option β} : ∀ {l : List α} {ys : List β}, l.mapM f = some ys →
    (∀ x ∈ l, ∀ y, f x = some y → P y) → ys.length = l.length ∧ ∀ y ∈ ys, P y
  | [], _, h, _ => by cases h; simp
  | x :: l, ys, h, hP => by
    rw [List.mapM_cons] at h
    obtain ⟨y, h1, h⟩ := Option.bind_eq_some_iff.mp h
    obtain ⟨ys', h2, h⟩ := Option.bind_eq_some_iff.mp h
    cases h
    obtain ⟨k1, k2⟩ := mapM_each h2 (fun z hz => hP z (List.mem_cons_of_mem x hz))
    refine ⟨by simp [k1], fun z hz => ?_⟩
    rcases List.mem_cons.mp hz with rfl | hz
    · exact hP x (by simp) _ h1
    · exact k2 z hz

/-- A size the selection may give: 32, 512, or a size rounded to the unroll factor. -/
def ChosenSize (ufactor x : BitVec 32) : Prop := x = 32 ∨ x = 512 ∨ ∃ s, roundTileSize s ufactor = some x

theorem inferSizes_all {ar : SizeArith} {reuse : List Nat} {vd par : Nat} {wave : Bool} {u : BitVec 32} {root : Nat} {v : List (BitVec 32)}
    (h : inferSizes ar reuse vd par wave u root = some v) : v.length = reuse.length ∧ ∀ x ∈ v, ChosenSize u x := by
  unfold inferSizes at h
  by_cases c : (minReuseDim reuse vd par).1 = reuse.length
  · simp only [if_pos c] at h; cases h
  · simp only [if_neg c] at h
    obtain ⟨s, h1, h⟩ := Option.bind_eq_some_iff.mp h
    obtain ⟨base, h2, h⟩ := Option.bind_eq_some_iff.mp h
    obtain ⟨k1, k2⟩ := mapM_each (P := ChosenSize u) h (fun i _ y hy => by
      by_cases c1 : wave = true ∧ (i = 0 ∨ i = 1)
      · rw [if_pos c1] at hy; cases hy; exact Or.inl rfl
      rw [if_neg c1] at hy
      by_cases c2 : i = vd
      · rw [if_pos c2] at hy; cases hy; exact Or.inr (Or.inl rfl)
      rw [if_neg c2] at hy
      by_cases c3 : i = par
      · rw [if_pos c3] at hy; cases hy; exact Or.inl rfl
      rw [if_neg c3] at hy
      by_cases c4 : i = (minReuseDim reuse vd par).1
      · rw [if_pos c4] at hy; cases hy; exact Or.inr (Or.inr ⟨s, h2⟩)
      rw [if_neg c4] at hy
      obtain ⟨s', _, h4⟩ := Option.bind_eq_some_iff.mp hy
      exact Or.inr (Or.inr ⟨s', h4⟩))
    exact ⟨by simpa using k1, k2⟩

theorem foldlM_holds {α β : Type} {P : β → Prop} {f : β → α → Option β} : ∀ {l : List α} {b b' : β}, l.foldlM f b = some b' → P b →
    (∀ b x b', f b x = some b' → P b → P b') → P b'
  | [], _, _, h, hb, _ => by cases h; exact hb
  | x :: l, b, b', h, hb, hs => by
    rw [List.foldlM_cons] at h
    obtain ⟨b1, h1, h⟩ := Option.bind_eq_some_iff.mp h
    exact foldlM_holds h (hs b x b1 h1 hb) hs

theorem dimReuseOf_length {p : Prog} {A : Accs} {b : Band} {r : List Nat} (h : dimReuseOf p A b = some r) : r.length = b.width := by
  unfold dimReuseOf at h
  obtain ⟨ls, _, h⟩ := Option.bind_eq_some_iff.mp h
  refine foldlM_holds (P := fun r : List Nat => r.length = b.width) h (by simp) (fun r l r' hr hl => ?_)
  obtain ⟨n, _, hr⟩ := Option.bind_eq_some_iff.mp hr
  by_cases c : l.depth - b.loop.depth < r.length
  · simp only [if_pos c] at hr; cases hr; rw [List.length_set]; exact hl
  · simp only [if_neg c] at hr; cases hr

theorem vectorDims_spec {p : Prog} {A : Accs} {it dia : Bool} {b : Band} {v : List Bool} (h : vectorDims p A it dia b = some v) :
    v.length = b.width ∧ v.getD 0 false = false := by
  unfold vectorDims at h
  have h0 : (List.replicate b.width false).getD 0 false = false := by cases b.width <;> rfl
  cases it with
  | false => cases h; exact ⟨by simp, h0⟩
  | true =>
    simp only [if_true] at h
    obtain ⟨gs, _, h⟩ := Option.bind_eq_some_iff.mp h
    refine foldlM_holds (P := fun v : List Bool => v.length = b.width ∧ v.getD 0 false = false) h ⟨by simp, h0⟩ (fun v g v' hv hl => ?_)
    unfold markVectorDim at hv
    obtain ⟨ls, _, hv⟩ := Option.bind_eq_some_iff.mp hv
    obtain ⟨x, _, hv⟩ := Option.bind_eq_some_iff.mp hv
    obtain ⟨l, _, hv⟩ := Option.bind_eq_some_iff.mp hv
    by_cases c1 : l.depth - b.loop.depth = 0
    · simp only [if_pos c1] at hv; cases hv; exact hl
    simp only [if_neg c1] at hv
    by_cases c2 : dia = true ∧ l.depth - b.loop.depth ≤ 1
    · simp only [if_pos c2] at hv; cases hv; exact hl
    simp only [if_neg c2] at hv
    by_cases c3 : l.depth - b.loop.depth < v.length
    · simp only [if_pos c3] at hv; cases hv
      refine ⟨by rw [List.length_set]; exact hl.1, ?_⟩
      rw [List.getD_eq_getElem?_getD, List.getElem?_set_ne (by omega), ← List.getD_eq_getElem?_getD]
      exact hl.2
    · simp only [if_neg c3] at hv; cases hv

/-- C70. `--determine-tile-size`: if the selection comes to an end, it gives a size for every level of the band (the assertion in
`find_tile_sizes` holds), and every size is 32, 512, or a multiple of the unroll factor that is at least that factor.
Missing: the case that rounding wraps around (`C43_violated`); that the selection comes to an end (`C70_violated_find`);
the relation of the sizes to the cache (floating point, not modelled). -/
theorem C70_find_partial (ar : SizeArith) (root : Prog → Band → Option Nat) (A : Prog → Accs) (it dia : Bool) (u : BitVec 32) (hu : u ≠ 0)
    (hu2 : u.toNat ≤ 2 ^ 31) (p : Prog) (b : Band) (v : List (BitVec 32)) (h : findSizes ar root A it dia u p b = some v) :
    v.length = b.width ∧ ∀ x ∈ v, x = 32 ∨ x = 512 ∨ (u.toNat ∣ x.toNat ∧ u.toNat ≤ x.toNat) ∨
      ∃ s : BitVec 32, 2 ^ 32 ≤ s.toNat + u.toNat ∧ roundTileSize s u = some x := by
  have key : v.length = b.width ∧ ∀ x ∈ v, ChosenSize u x := by
    unfold findSizes at h
    by_cases c : b.width = 1
    · rw [if_pos c] at h; cases h; exact ⟨c.symm, by simp [ChosenSize]⟩
    rw [if_neg c] at h
    obtain ⟨dims, h1, h⟩ := Option.bind_eq_some_iff.mp h
    obtain ⟨par, h2, h⟩ := Option.bind_eq_some_iff.mp h
    have hd := (vectorDims_spec h1).1
    by_cases c1 : dims.length ≤ par
    · simp only [if_pos c1] at h; cases h
    simp only [if_neg c1] at h
    obtain ⟨wave, h3, h⟩ := Option.bind_eq_some_iff.mp h
    by_cases c2 : wave = true ∧ b.width = 2
    · simp only [if_pos c2] at h; cases h; exact ⟨c2.2.symm, by simp [ChosenSize]⟩
    simp only [if_neg c2] at h
    obtain ⟨reuse, h4, h⟩ := Option.bind_eq_some_iff.mp h
    have hr := dimReuseOf_length h4
    by_cases c3 : reuse.foldl max 0 = 0
    · simp only [if_pos c3] at h; cases h
      refine ⟨?_, fun x hx => ?_⟩
      · cases wave <;> simp [hd]
      · obtain ⟨y, _, rfl⟩ := List.mem_map.mp hx
        cases y
        · exact Or.inl rfl
        · exact Or.inr (Or.inl rfl)
    simp only [if_neg c3] at h
    obtain ⟨r, h5, h⟩ := Option.bind_eq_some_iff.mp h
    obtain ⟨k1, k2⟩ := inferSizes_all h
    refine ⟨?_, k2⟩
    rw [k1, ← hr]
    cases dia <;> simp
  refine ⟨key.1, fun x hx => ?_⟩
  rcases key.2 x hx with h' | h' | ⟨s, hs⟩
  · exact Or.inl h'
  · exact Or.inr (Or.inl h')
  · by_cases c : s.toNat + u.toNat < 2 ^ 32
    · obtain ⟨m, m1, m2, m3, -⟩ := C43_round_partial s u hu c hu2
      rw [hs] at m1
      cases m1
      exact Or.inr (Or.inr (Or.inl ⟨m2, m3⟩))
    · exact Or.inr (Or.inr (Or.inr ⟨s, by omega, hs⟩))

/-- C70 is violated by `find_tile_sizes`: for any band of two or more levels without a loop that is parallel for each statement,
an element past the end of `vectorizableDims` is read. -/
theorem C70_violated_find (ar : SizeArith) (root : Prog → Band → Option Nat) (A : Prog → Accs) (it dia : Bool) (u : BitVec 32) (p : Prog) (b : Band)
    (hw : b.width ≠ 1) (hpar : parLoopDepth p b = some b.width) : findSizes ar root A it dia u p b = none := by
  unfold findSizes
  rw [if_neg hw]
  cases h1 : vectorDims p (A p) it dia b with
  | none => rfl
  | some dims =>
    have hd := (vectorDims_spec h1).1
    simp only [hpar, Option.bind_eq_bind, Option.bind_some]
    rw [if_pos (by omega)]

theorem foldl_unchanged {α β : Type} {f : β → α → β} {b : β} : ∀ {l : List α}, (∀ x ∈ l, f b x = b) → l.foldl f b = b
  | [], _ => rfl
  | x :: l, h => by
    rw [List.foldl_cons, h x (by simp)]
    exact foldl_unchanged (fun y hy => h y (List.mem_cons_of_mem x hy))

/-- C70 is violated by `infer_tile_sizes`, which is meant to start from the dimension with the least reuse: because of the test
`!vectorDim` it takes the dimension with the greatest reuse, unless dimension 0 is the one to be vectorized. -/
theorem C70_violated_least (reuse : List Nat) (vd par : Nat) (h : vd ≠ 0) : (minReuseDim reuse vd par).2 = reuse.foldl max 0 := by
  have key : reuse.foldl (fun m r => if 0 < r ∧ vd = 0 ∧ r < m then r else m) (reuse.foldl max 0) = reuse.foldl max 0 :=
    foldl_unchanged (fun x _ => if_neg (fun c => h c.2.1))
  unfold minReuseDim
  simp only [key]
  split_ifs <;> rfl

end Pluto
