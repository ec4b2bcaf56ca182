import Verif.Lemmas.TileSizes
import Verif.Lemmas.TileAll
import Verif.Lemmas.Polyloop

/-! Lemmas on tiling with selected tile sizes. -/

namespace Pluto

/-- Both arrays have `n` positive entries. -/
structure GoodSizes (n : Nat) (a : List Int × List Int) : Prop where
  len : a.1.length = n
  len2 : a.2.length = n
  pos : ∀ v ∈ a.1, 1 ≤ v
  pos2 : ∀ v ∈ a.2, 1 ≤ v

theorem goodSizes_default (p : Prog) : GoodSizes p.hProps.length (defaultSizes p) := by
  refine ⟨by simp [defaultSizes], by simp [defaultSizes], ?_, ?_⟩ <;> intro v hv <;>
    rw [List.eq_of_mem_replicate hv] <;> decide

theorem pos_set {a : List Int} {i : Nat} {v : Int} (h : ∀ w ∈ a, 1 ≤ w) (hv : 1 ≤ v) : ∀ w ∈ a.set i v, 1 ≤ w := by
  intro w hw
  rcases List.mem_or_eq_of_mem_set hw with h' | rfl
  · exact h w h'
  · exact hv

theorem pos_getD {a : List Int} {i : Nat} (h : ∀ w ∈ a, 1 ≤ w) (hi : i < a.length) : 1 ≤ a.getD i 0 := by
  rw [List.getD_eq_getElem _ _ hi]
  exact h _ (List.getElem_mem hi)

theorem scan_pos {be : Bool} {s : SizeStream} (h : ∀ v, some v ∈ s.toks → (1 : Int) ≤ v) :
    (∀ v, (scanInt be s).1 = some v → 1 ≤ v) ∧ ∀ v, some v ∈ (scanInt be s).2.toks → (1 : Int) ≤ v := by
  obtain ⟨toks, e⟩ := s
  rcases toks with _ | ⟨_ | v, r⟩
  · exact ⟨by simp [scanInt], by simp [scanInt]⟩
  · exact ⟨by simp [scanInt], h⟩
  · refine ⟨fun w hw => ?_, fun w hw => h w (by simp only [scanInt] at hw; simp [hw])⟩
    simp only [scanInt, Option.some.injEq] at hw
    exact hw ▸ h v (by simp)

theorem getD_scan_pos {be : Bool} {s : SizeStream} {a : List Int} {i : Nat} (h : ∀ v, some v ∈ s.toks → (1 : Int) ≤ v)
    (ha : ∀ w ∈ a, 1 ≤ w) (hi : i < a.length) : 1 ≤ (scanInt be s).1.getD (a.getD i 0) := by
  cases e : (scanInt be s).1 with
  | none => exact pos_getD ha hi
  | some v => exact (scan_pos h).1 v e

theorem readSizes_keep {be : Bool} {isLoop : Nat → Option Bool} : ∀ (n i : Nat) (s : SizeStream) (sizes : List Int),
    (∀ k, i ≤ k → k < i + n → ∃ b, isLoop k = some b) → i + n ≤ sizes.length → (∀ v, some v ∈ s.toks → (1 : Int) ≤ v) → (∀ v ∈ sizes, 1 ≤ v) →
    ∃ i' s' sizes', readSizes be isLoop n i s sizes = some (i', s', sizes') ∧ sizes'.length = sizes.length ∧
      (∀ v, some v ∈ s'.toks → (1 : Int) ≤ v) ∧ ∀ v ∈ sizes', 1 ≤ v := by
  intro n
  induction n with
  | zero => intro i s sizes _ _ h1 h2; exact ⟨i, s, sizes, rfl, rfl, h1, h2⟩
  | succ n ih =>
    intro i s sizes hl hlen h1 h2
    by_cases hE : s.eof = true
    · exact ⟨i, s, sizes, by rw [readSizes, if_pos hE], rfl, h1, h2⟩
    · obtain ⟨b, hb⟩ := hl i (le_refl _) (by omega)
      have hi : i < sizes.length := by omega
      cases b with
      | true =>
        obtain ⟨i', s', z', g1, g2, g3, g4⟩ := ih (i + 1) (scanInt be s).2 (sizes.set i ((scanInt be s).1.getD (sizes.getD i 0)))
          (fun k k1 k2 => hl k (by omega) (by omega)) (by rw [List.length_set]; omega) (scan_pos h1).2 (pos_set h2 (getD_scan_pos h1 h2 hi))
        refine ⟨i', s', z', ?_, by rw [g2, List.length_set], g3, g4⟩
        rw [readSizes, if_neg hE, hb, ← g1]
        simp only [Option.bind_eq_bind, Option.bind_some, putAt_some _ hi]
        rfl
      | false =>
        obtain ⟨i', s', z', g1, g2, g3, g4⟩ := ih (i + 1) s (sizes.set i 42)
          (fun k k1 k2 => hl k (by omega) (by omega)) (by rw [List.length_set]; omega) h1 (pos_set h2 (by decide))
        refine ⟨i', s', z', ?_, by rw [g2, List.length_set], g3, g4⟩
        rw [readSizes, if_neg hE, hb, ← g1]
        simp only [Option.bind_eq_bind, Option.bind_some, putAt_some _ hi]
        rfl

theorem readRatios_keep {be : Bool} : ∀ (n i : Nat) (s : SizeStream) (ratios : List Int),
    i + n ≤ ratios.length → (∀ v, some v ∈ s.toks → (1 : Int) ≤ v) → (∀ v ∈ ratios, 1 ≤ v) →
    ∃ i' s' ratios', readRatios be n i s ratios = some (i', s', ratios') ∧ ratios'.length = ratios.length ∧ ∀ v ∈ ratios', 1 ≤ v := by
  intro n
  induction n with
  | zero => intro i s ratios _ h1 h2; exact ⟨i, s, ratios, rfl, rfl, h2⟩
  | succ n ih =>
    intro i s ratios hlen h1 h2
    by_cases hE : s.eof = true
    · exact ⟨i, s, ratios, by rw [readRatios, if_pos hE], rfl, h2⟩
    · have hi : i < ratios.length := by omega
      obtain ⟨i', s', z', g1, g2, g3⟩ := ih (i + 1) (scanInt be s).2 (ratios.set i ((scanInt be s).1.getD (ratios.getD i 0)))
        (by rw [List.length_set]; omega) (scan_pos h1).2 (pos_set h2 (getD_scan_pos h1 h2 hi))
      refine ⟨i', s', z', ?_, by rw [g2, List.length_set], g3⟩
      rw [readRatios, if_neg hE, ← g1]
      simp only [Option.bind_eq_bind, putAt_some _ hi]
      rfl

/-- Reading any file with positive numbers keeps the arrays positive. -/
theorem readTileSizes_keep {file : Option SizeFile} {ft lt : Int} {p : Prog} {b : Band} {a : List Int × List Int} {n : Nat}
    (hf : ∀ f, file = some f → f.Positive) (hn : numTileDims ft lt b.width ≤ n) (ha : GoodSizes n a)
    (hl : ∀ k < numTileDims ft lt b.width, ∃ v, anyLoopAt p b.loop.stmts (b.loop.depth + k) = some v) :
    ∃ a' r, readTileSizes file ft lt p b a = some (a', r) ∧ GoodSizes n a' := by
  cases file with
  | none => exact ⟨a, false, rfl, ha⟩
  | some f =>
    have hp := hf f rfl
    obtain ⟨i, s, sizes, g1, g2, g3, g4⟩ := readSizes_keep (be := f.blankEnd) (isLoop := fun i => anyLoopAt p b.loop.stmts (b.loop.depth + i))
      (numTileDims ft lt b.width) 0 ⟨f.toks, false⟩ a.1 (fun k _ h2 => hl k (by omega)) (by rw [ha.len]; omega) hp ha.pos
    unfold readTileSizes
    simp only [g1, Option.bind_eq_bind, Option.bind_some]
    by_cases c : i < numTileDims ft lt b.width
    · rw [if_pos c]
      exact ⟨_, _, rfl, ⟨by rw [g2, ha.len], ha.len2, g4, ha.pos2⟩⟩
    · rw [if_neg c]
      obtain ⟨j, s', ratios, k1, k2, k3⟩ := readRatios_keep (be := f.blankEnd) (numTileDims ft lt b.width) 0 s a.2 (by rw [ha.len2]; omega) g3 ha.pos2
      simp only [k1, Option.bind_some]
      by_cases c2 : j < numTileDims ft lt b.width
      · rw [if_pos c2, if_pos (by rw [k2, ha.len2]; exact hn)]
        refine ⟨_, _, rfl, ⟨by rw [g2, ha.len], ?_, g4, ?_⟩⟩
        · simp only [List.length_append, List.length_replicate, List.length_drop, k2, ha.len2]; omega
        · intro v hv
          rcases List.mem_append.mp hv with hv | hv
          · rw [List.eq_of_mem_replicate hv]; decide
          · exact k3 v (List.mem_of_mem_drop hv)
      · rw [if_neg c2]
        exact ⟨_, _, rfl, ⟨by rw [g2, ha.len], by rw [k2, ha.len2], g4, k3⟩⟩

/-- `tileLoop` uses only the sizes of the levels of the band. -/
theorem tileLoop_congr {f : Nat} {z z' : Nat → Int} : ∀ (n k : Nat) (p : Prog) (l : List (Nat × Nat)),
    (∀ m, k ≤ m → m < k + n → z m = z' m) → tileLoop f z n k p l = tileLoop f z' n k p l := by
  intro n
  induction n with
  | zero => intro k p l _; rfl
  | succ n ih =>
    intro k p l h
    simp only [tileLoop]
    rw [h k (le_refl _) (by omega)]
    cases tileDepth f k (z' k) p l with
    | none => rfl
    | some x => exact ih (k + 1) x.1 x.2 (fun m h1 h2 => h m (by omega) (by omega))

theorem tileBand_congr {p : Prog} {b : Band} {z z' : Nat → Int} (h : ∀ m < b.width, z m = z' m) : tileBand p b z = tileBand p b z' :=
  tileLoop_congr _ _ _ _ (fun m _ h2 => h m (by omega))

variable {p0 : Prog}

/-- A statement that has not been tiled has its old rows. -/
theorem TInv.scalarAt {a : Nat → TArg} {p : Prog} (h : TInv p0 a p) {i : Nat} (hi : i < p0.stmts.length) (hk : (a i).k = 0) (l : Nat) :
    Pluto.scalarAt p l i = Pluto.scalarAt p0 l i := by
  obtain ⟨st, h1, h2⟩ := h.stmts i p0.stmts[i] (List.getElem?_eq_getElem hi)
  have ht := h2.trans
  have hd := h2.dim
  rw [hk] at ht hd
  have ht' : st.trans = p0.stmts[i].trans := by rw [ht]; simp [tiledTrans, tileOffsets, zrow]
  have hd' : st.dim = p0.stmts[i].dim := by rw [hd]; simp [tileOffsets]
  unfold Pluto.scalarAt isHyperplaneScalar
  rw [h1, List.getElem?_eq_getElem hi]
  simp only [Option.bind_some, ht', hd']

theorem mapM_congr_mem {α β : Type} {f g : α → Option β} : ∀ {l : List α}, (∀ x ∈ l, f x = g x) → l.mapM f = l.mapM g
  | [], _ => rfl
  | x :: l, h => by
    simp only [List.mapM_cons]
    rw [h x (by simp), mapM_congr_mem (fun y hy => h y (by simp [hy]))]

theorem foldlM_congr_mem {α β : Type} {f g : β → α → Option β} : ∀ {l : List α} {b : β}, (∀ b, ∀ x ∈ l, f b x = g b x) → l.foldlM f b = l.foldlM g b
  | [], _, _ => rfl
  | x :: l, b, h => by
    simp only [List.foldlM_cons]
    rw [h b x (by simp)]
    cases g b x with
    | none => rfl
    | some c => exact foldlM_congr_mem (fun b y hy => h b y (by simp [hy]))

/-- The same levels of the band are loops in both programs. -/
def SameLevels (p0 p : Prog) (b : Band) : Prop := ∀ l, anyLoopAt p b.loop.stmts l = anyLoopAt p0 b.loop.stmts l

/-- Tiling with selected sizes, if the selection succeeds for programs whose levels are those of the program at the start. -/
theorem tileAllWith_spec (hok : p0.OK) {select : Prog → Band → List Int × List Int → Option (List Int × List Int)} {second : Bool}
    {Q : Band → List Int × List Int → Prop} :
    ∀ (l : List Band) (k : Nat) (a : Nat → TArg) (p : Prog) (ar : List Int × List Int),
      (∀ b ∈ l, (b.loop.depth + b.width ≤ p0.hProps.length ∧ ∀ i ∈ b.loop.stmts, i < p0.stmts.length) ∧ b.loop.stmts.Nodup ∧
        (∀ i ∈ b.loop.stmts, (a i).k = 0) ∧
        ∀ p ar, SameLevels p0 p b → GoodSizes p0.hProps.length ar → ∃ ar', select p b ar = some ar' ∧ GoodSizes p0.hProps.length ar' ∧ Q b ar') →
      l.Pairwise (fun b c => ∀ i ∈ b.loop.stmts, i ∉ c.loop.stmts) → TInv p0 a p → GoodSizes p0.hProps.length ar →
      ∃ (S : Nat → Nat → Int) (p' : Prog) (ar' : List Int × List Int), l.foldlM (tileBandWith select second) (p, ar) = some (p', ar') ∧
        (l.zipIdx k).foldlM (fun p b => tileBand p b.1 (S b.2)) p = some p' ∧ (∀ n m, 1 ≤ S n m) ∧
        ∀ (n : Nat) (b : Band), l[n]? = some b → ∃ ar, Q b ar ∧ ∀ m < b.width, S (k + n) m = (if second then ar.2 else ar.1).getD m 0 := by
  intro l
  induction l with
  | nil => intro k a p ar _ _ _ _; exact ⟨fun _ _ => 1, p, ar, rfl, rfl, by simp, by simp⟩
  | cons b l ih =>
    intro k a p ar hb hd h har
    obtain ⟨⟨hr, hi⟩, hnd, ha, hs⟩ := hb b (by simp)
    obtain ⟨hd1, hd2⟩ := List.pairwise_cons.mp hd
    obtain ⟨ar1, s1, s2, s3⟩ := hs p ar (fun l => by
      unfold anyLoopAt
      rw [mapM_congr_mem (fun i hi' => h.scalarAt (hi i hi') (ha i hi') l)]) har
    have hz : ∀ m < b.width, 1 ≤ (if second then ar1.2 else ar1.1).getD m 0 := by
      intro m hm
      cases second
      · show 1 ≤ ar1.1.getD m 0
        exact pos_getD s2.pos (by rw [s2.len]; omega)
      · show 1 ≤ ar1.2.getD m 0
        exact pos_getD s2.pos2 (by rw [s2.len2]; omega)
    have hwl : ¬ (if second then ar1.2 else ar1.1).length < b.width := by
      cases second
      · show ¬ ar1.1.length < _
        rw [s2.len]; omega
      · show ¬ ar1.2.length < _
        rw [s2.len2]; omega
    obtain ⟨p1, e1, h1⟩ := tileBand_spec hok b (fun m => (if second then ar1.2 else ar1.1).getD m 0) a p hnd hz ha (fun i hi' => by
      have hl := hi i hi'
      refine ⟨p0.stmts[i], List.getElem?_eq_getElem hl, ?_⟩
      rw [hok.levels _ (List.getElem_mem hl)]; exact hr) h
    obtain ⟨S, p2, ar2, e2, e3, e4, e5⟩ := ih (k + 1) _ p1 ar1 (fun c hc => by
      obtain ⟨x1, x2, x3, x4⟩ := hb c (by simp [hc])
      refine ⟨x1, x2, fun i hi' => ?_, x4⟩
      unfold bandArgs
      rw [if_neg (fun h' => hd1 c hc i h' hi')]
      exact x3 i hi') hd2 h1 s2
    refine ⟨fun n m => if n = k then (if m < b.width then (if second then ar1.2 else ar1.1).getD m 0 else 1) else S n m, p2, ar2, ?_, ?_, ?_, ?_⟩
    · rw [List.foldlM_cons]
      have : tileBandWith select second (p, ar) b = some (p1, ar1) := by
        unfold tileBandWith
        simp only [s1, Option.bind_eq_bind, Option.bind_some, if_neg hwl, e1]
        rfl
      rw [this]
      exact e2
    · rw [List.zipIdx_cons, List.foldlM_cons]
      have : tileBand p b (fun m => if k = k then (if m < b.width then (if second then ar1.2 else ar1.1).getD m 0 else 1) else S k m) = some p1 := by
        rw [← e1]
        exact tileBand_congr (fun m hm => by simp only [if_true, if_pos hm])
      show Option.bind _ _ = _
      rw [show tileBand p (b, k).1 _ = some p1 from this]
      show List.foldlM _ p1 _ = _
      rw [← e3]
      refine foldlM_congr_mem (fun q c hc => ?_)
      have hne : c.2 ≠ k := by
        have := List.le_snd_of_mem_zipIdx hc
        omega
      simp only [if_neg hne]
    · intro n m
      show 1 ≤ ite _ _ _
      by_cases c : n = k
      · rw [if_pos c]
        by_cases c2 : m < b.width
        · rw [if_pos c2]; exact hz m c2
        · rw [if_neg c2]
      · rw [if_neg c]; exact e4 n m
    · intro n c hn
      cases n with
      | zero =>
        simp only [List.getElem?_cons_zero, Option.some.injEq] at hn
        subst hn
        exact ⟨ar1, s3, fun m hm => by simp only [Nat.add_zero, if_true, if_pos hm]⟩
      | succ n =>
        rw [List.getElem?_cons_succ] at hn
        obtain ⟨ar, q1, q2⟩ := e5 n c hn
        refine ⟨ar, q1, fun m hm => ?_⟩
        have e : k + (n + 1) = k + 1 + n := by omega
        have ne : k + 1 + n ≠ k := by omega
        rw [e, ← q2 m hm]
        exact if_neg ne

end Pluto
