import Verif.Lemmas.TileSelect
import Verif.Props.Tile
import Verif.Props.Pipeline

/-! C70: tile sizes. -/

namespace Pluto

theorem mapM_defined {α β : Type} {f : α → Option β} : ∀ {l : List α}, (∀ x ∈ l, ∃ y, f x = some y) → ∃ ys, l.mapM f = some ys
  | [], _ => ⟨[], rfl⟩
  | x :: l, h => by
    obtain ⟨y, hy⟩ := h x (by simp)
    obtain ⟨ys, hys⟩ := mapM_defined (fun z hz => h z (List.mem_cons_of_mem x hz))
    exact ⟨y :: ys, by simp [hy, hys]⟩

theorem anyLoopAt_defined {p : Prog} (hok : p.OK) {stmts : List Nat} {l : Nat} (hs : ∀ i ∈ stmts, i < p.stmts.length) (hl : l < p.hProps.length) :
    ∃ v, anyLoopAt p stmts l = some v := by
  obtain ⟨bs, hbs⟩ := mapM_defined (f := scalarAt p l) (l := stmts) (fun i hi => by
    have h := hs i hi
    have h' := hok.levels _ (List.getElem_mem h)
    unfold scalarAt isHyperplaneScalar
    rw [List.getElem?_eq_getElem h, Option.bind_some, List.getElem?_eq_getElem (by omega)]
    exact ⟨_, rfl⟩)
  exact ⟨_, by unfold anyLoopAt; rw [hbs]; rfl⟩

theorem anyLoopAt_iff {p : Prog} {stmts : List Nat} {l : Nat} {v : Bool} (h : anyLoopAt p stmts l = some v) :
    v = true ↔ ∃ i ∈ stmts, ¬ p.Scalar l i := by
  unfold anyLoopAt at h
  obtain ⟨bs, h1, h2⟩ := Option.bind_eq_some_iff.mp h
  cases h2
  clear h
  induction stmts generalizing bs with
  | nil => cases h1; simp
  | cons i stmts ih =>
    rw [List.mapM_cons] at h1
    obtain ⟨b, e1, h1⟩ := Option.bind_eq_some_iff.mp h1
    obtain ⟨bs', e2, h1⟩ := Option.bind_eq_some_iff.mp h1
    cases h1
    have := scalarAt_iff e1
    rw [List.any_cons, Bool.or_eq_true, ih bs' e2]
    constructor
    · rintro (h | ⟨j, hj, hn⟩)
      · exact ⟨i, by simp, fun hs => by rw [this.mpr hs] at h; simp at h⟩
      · exact ⟨j, by simp [hj], hn⟩
    · rintro ⟨j, hj, hn⟩
      rcases List.mem_cons.mp hj with rfl | hj
      · left
        cases b with
        | false => rfl
        | true => exact absurd (this.mp rfl) hn
      · exact Or.inr ⟨j, hj, hn⟩

theorem SizeFile.Holds.positive {f : SizeFile} {ns : List Int} (h : f.Holds ns) (hp : ∀ v ∈ ns, 1 ≤ v) : f.Positive := by
  intro v hv
  rw [h, List.mem_map] at hv
  obtain ⟨w, hw, e⟩ := hv
  cases e
  exact hp _ hw

open Classical in
/-- Reading a file of numbers, for a band whose levels exist. -/
theorem readTileSizes_numbers {p p1 : Prog} {b : Band} (hok : p.OK) (hr : b.loop.depth + b.width ≤ p.hProps.length)
    (hs : ∀ i ∈ b.loop.stmts, i < p.stmts.length) (hsl : SameLevels p p1 b) {f : SizeFile} {ns : List Int} (hf : f.Holds ns) {ft lt : Int}
    (hft : ft < 0 ∨ lt < 0) {a : List Int × List Int} {n : Nat} (hn : b.width ≤ n) (h1 : a.1.length = n) (h2 : a.2.length = n)
    (hc : p.loopsBelow b b.width ≤ ns.length) :
    ∃ a' r, readTileSizes (some f) ft lt p1 b a = some (a', r) ∧
      (∀ m < b.width, p.LoopLevel b m → a'.1.getD m 0 = ns.getD (p.loopsBelow b m) 0) ∧
      (p.loopsBelow b b.width + b.width ≤ ns.length → r = true ∧ ∀ m < b.width, a'.2.getD m 0 = ns.getD (p.loopsBelow b b.width + m) 0) ∧
      (ns ≠ [] → ns.length + (if f.blankEnd then 1 else 0) < p.loopsBelow b b.width + b.width →
        (∀ m < b.width, a.2.getD m 0 = 8) → ∀ m < b.width, a'.2.getD m 0 = 8) := by
  have hnum : numTileDims ft lt b.width = b.width := if_neg (by omega)
  have hl : ∀ k, k < b.width → anyLoopAt p1 b.loop.stmts (b.loop.depth + k) = some (decide (p.LoopLevel b k)) := by
    intro k hk
    obtain ⟨v, hv⟩ := anyLoopAt_defined hok hs (l := b.loop.depth + k) (by omega)
    rw [hsl, hv]
    congr 1
    have := anyLoopAt_iff hv
    cases v with
    | true => exact (decide_eq_true (p := p.LoopLevel b k) (this.mp rfl)).symm
    | false => exact (decide_eq_false (p := p.LoopLevel b k) (fun h => by simpa using this.mpr h)).symm
  have hcnt : ∀ m, (List.range' 0 m).countP (fun k => decide (p.LoopLevel b k)) = p.loopsBelow b m := by
    intro m
    rw [← List.range_eq_range']
    rfl
  obtain ⟨i, e, sizes, g1, g2, g3, g4, g5, g6, g7, g8⟩ := readSizes_spec (be := f.blankEnd)
    (isLoop := fun i => anyLoopAt p1 b.loop.stmts (b.loop.depth + i)) (lp := fun k => decide (p.LoopLevel b k)) b.width 0 ns false a.1
    (fun k _ hk => hl k (by omega)) (by omega) (by simp) (by rw [hcnt]; exact hc)
  rw [hcnt] at g1 g7 g8
  have hf' : f.toks = ns.map some := hf
  have hsz : ∀ m < b.width, p.LoopLevel b m → sizes.getD m 0 = ns.getD (p.loopsBelow b m) 0 := by
    intro m hm hL
    rw [g4 m (by omega) (by omega) (decide_eq_true hL), hcnt, Nat.sub_zero]
  unfold readTileSizes
  simp only [hnum, hf', g1, Option.bind_eq_bind, Option.bind_some]
  by_cases c : i < b.width
  · rw [if_pos c]
    refine ⟨_, _, rfl, hsz, fun h => ?_, fun _ _ h => h⟩
    have := (g7 (g6 (by omega))).1
    omega
  · rw [if_neg c]
    by_cases c2 : p.loopsBelow b b.width + b.width ≤ ns.length
    · obtain ⟨s, ratios, k1, k2, k3, k4⟩ := readRatios_enough (be := f.blankEnd) b.width 0 (ns.drop (p.loopsBelow b b.width)) a.2 (by omega)
        (by rw [List.length_drop]; omega)
      rw [k1 e (fun he => by
        have := (g7 he).1
        rw [List.drop_eq_nil_iff]; omega)]
      simp only [Option.bind_some]
      rw [if_neg (by omega)]
      refine ⟨_, _, rfl, hsz, fun _ => ⟨rfl, fun m hm => ?_⟩, fun _ h => by omega⟩
      show ratios.getD m 0 = _
      rw [k3 m (by omega) (by omega), Nat.sub_zero, List.getD_eq_getElem?_getD, List.getElem?_drop, ← List.getD_eq_getElem?_getD]
    · by_cases c3 : ns ≠ [] ∧ ns.length + (if f.blankEnd then 1 else 0) < p.loopsBelow b b.width + b.width
      · obtain ⟨j, s, ratios, k1, k2, k3, k4⟩ := readRatios_short (be := f.blankEnd) b.width 0 (ns.drop (p.loopsBelow b b.width)) e a.2
          (by omega) (fun he => by
            have := (g7 he).1
            rw [List.drop_eq_nil_iff]; omega) (fun h hbe => by
            rw [List.drop_eq_nil_iff] at h
            exact g8 (fun h0 => absurd h0 c3.1) hbe (by omega)) (by rw [List.length_drop]; omega)
        rw [k1]
        simp only [Option.bind_some]
        rw [if_pos (by omega), if_pos (by omega)]
        refine ⟨_, _, rfl, hsz, fun h => absurd h c2, fun _ _ _ m hm => ?_⟩
        show (List.replicate b.width (8 : Int) ++ ratios.drop b.width).getD m 0 = 8
        rw [List.getD_eq_getElem?_getD, List.getElem?_append_left (by simpa using hm)]
        simp [hm]
      · obtain ⟨j, s, ratios, k1, k2⟩ := readRatios_defined (be := f.blankEnd) b.width 0 ⟨(ns.drop (p.loopsBelow b b.width)).map some, e⟩ a.2 (by omega)
        rw [k1]
        simp only [Option.bind_some]
        by_cases c4 : j < b.width
        · rw [if_pos c4, if_pos (by omega)]
          exact ⟨_, _, rfl, hsz, fun h => absurd h c2, fun h h' => absurd ⟨h, h'⟩ c3⟩
        · rw [if_neg c4]
          exact ⟨_, _, rfl, hsz, fun h => absurd h c2, fun h h' => absurd ⟨h, h'⟩ c3⟩

/-- C70. Without a file the sizes are 32 and the ratios of the second level 8. -/
theorem C70_default (p : Prog) (hok : p.OK) (bands : List Band) (hb : BandsOK p bands) (ft lt : Int) (second : Bool) :
    tileScatteringWith (readSelect none ft lt) second p bands = tileScatteringDims p bands (fun _ _ => if second then 8 else 32) ∧
    ∃ p', tileScatteringDims p bands (fun _ _ => if second then 8 else 32) = some p' := by
  obtain ⟨p2, k1, -⟩ := C18_exactly_once p hok bands (fun _ _ => if second then 8 else 32) hb (fun _ _ _ _ _ => by cases second <;> decide)
  refine ⟨?_, p2, k1⟩
  have hw : ∀ b ∈ bands, b.width ≤ p.hProps.length := fun b h => by have := (hb.range b h).1; omega
  unfold tileScatteringWith tileScatteringDims
  have key : ∀ (l : List Band) (k : Nat) (q : Prog), (∀ b ∈ l, b.width ≤ p.hProps.length) →
      l.foldlM (tileBandWith (readSelect none ft lt) second) (q, defaultSizes p) =
        ((l.zipIdx k).foldlM (fun p b => tileBand p b.1 (fun _ => if second then 8 else 32)) q).map (·, defaultSizes p) := by
    intro l
    induction l with
    | nil => intro k q _; rfl
    | cons b l ih =>
      intro k q h
      have hb' := h b (by simp)
      rw [List.foldlM_cons, List.zipIdx_cons, List.foldlM_cons]
      have e : tileBandWith (readSelect none ft lt) second (q, defaultSizes p) b =
          (tileBand q b (fun _ => if second then 8 else 32)).map (·, defaultSizes p) := by
        unfold tileBandWith readSelect readTileSizes
        have hsz : (if second then (defaultSizes p).2 else (defaultSizes p).1) = List.replicate p.hProps.length (if second then 8 else 32) := by
          cases second <;> rfl
        simp only [Option.map_some, Option.bind_eq_bind, Option.bind_some, hsz, List.length_replicate]
        rw [if_neg (by omega), tileBand_congr (z' := fun _ => if second then 8 else 32) (fun m hm => by
          rw [List.getD_eq_getElem _ _ (by rw [List.length_replicate]; omega), List.getElem_replicate])]
        cases tileBand q b (fun _ => if second then 8 else 32) <;> rfl
      rw [e]
      show Option.bind _ _ = Option.map _ (Option.bind _ _)
      cases tileBand q b (fun _ => if second then 8 else 32) with
      | none => rfl
      | some q' => exact ih (k + 1) q' (fun c hc => h c (by simp [hc]))
  rw [key bands 0 p hw]
  cases (bands.zipIdx 0).foldlM (fun p b => tileBand p b.1 (fun _ => if second then 8 else 32)) p <;> rfl

/-- From the levels to the whole of `pluto_tile_scattering_dims`. -/
theorem tileScatteringWith_spec {p : Prog} (hok : p.OK) {bands : List Band} (hb : BandsOK p bands)
    {select : Prog → Band → List Int × List Int → Option (List Int × List Int)} {second : Bool} {Q : Band → List Int × List Int → Prop}
    (hs : ∀ b ∈ bands, ∀ p1 ar, SameLevels p p1 b → GoodSizes p.hProps.length ar →
      ∃ ar', select p1 b ar = some ar' ∧ GoodSizes p.hProps.length ar' ∧ Q b ar') :
    ∃ (S : Nat → Nat → Int) (p' : Prog), tileScatteringWith select second p bands = some p' ∧ tileScatteringDims p bands S = some p' ∧
      (∀ n m, 1 ≤ S n m) ∧
      ∀ (n : Nat) (b : Band), bands[n]? = some b → ∃ ar, Q b ar ∧ ∀ m < b.width, S n m = (if second then ar.2 else ar.1).getD m 0 := by
  obtain ⟨S, p1, ar, e1, e2, e3, e4⟩ := tileAllWith_spec hok (second := second) (Q := Q) bands 0 (fun _ => ⟨0, fun _ => 0, 0⟩) p (defaultSizes p)
    (fun b hbm => ⟨hb.range b hbm, hb.nodup b hbm, fun _ _ => rfl, hs b hbm⟩) hb.disjoint (TInv.init hok _ (fun _ => rfl)) (goodSizes_default p)
  obtain ⟨p', k1, -⟩ := C18_exactly_once p hok bands S hb (fun n _ _ m _ => e3 n m)
  refine ⟨S, p', ?_, k1, e3, fun n b hn => by simpa using e4 n b hn⟩
  unfold tileScatteringDims at k1
  rw [e2] at k1
  unfold tileScatteringWith
  rw [e1]
  exact k1

/-- C70. With any file whose numbers are positive (it may hold other text, and too few numbers), tiling succeeds, with sizes
that are at least 1. The options `--ft` and `--lt` are not used. -/
theorem C70_any_file (p : Prog) (hok : p.OK) (bands : List Band) (hb : BandsOK p bands) (file : Option SizeFile)
    (hf : ∀ f, file = some f → f.Positive) (ft lt : Int) (hft : ft < 0 ∨ lt < 0) (second : Bool) :
    ∃ (S : Nat → Nat → Int) (p' : Prog), tileScatteringWith (readSelect file ft lt) second p bands = some p' ∧
      tileScatteringDims p bands S = some p' ∧ ∀ n m, 1 ≤ S n m := by
  obtain ⟨S, p', h1, h2, h3, -⟩ := tileScatteringWith_spec hok hb (select := readSelect file ft lt) (second := second) (Q := fun _ _ => True)
    (fun b hbm p1 ar hl har => by
      have hr := hb.range b hbm
      have hnum : numTileDims ft lt b.width = b.width := if_neg (by omega)
      obtain ⟨a', r, e, g⟩ := readTileSizes_keep (file := file) (ft := ft) (lt := lt) (p := p1) (b := b) (a := ar) hf (by rw [hnum]; omega) har
        (fun k hk => by
          rw [hnum] at hk
          rw [hl]
          exact anyLoopAt_defined hok hr.2 (by omega))
      exact ⟨a', by unfold readSelect; rw [e]; rfl, g, trivial⟩)
  exact ⟨S, p', h1, h2, h3⟩

/-- C70. If the file holds numbers only, all positive, and at least as many as each band has loops, then each statement of
a band is tiled exactly once, and the tile size of the loop at a level of the band is the number in the file at the position of
this loop among the loops of the band.
Missing: comments, files with too few numbers (`C70_violated_comment`, `C70_violated_short`), and `--ft`, `--lt`
(`C70_violated_force`). -/
theorem C70_first_level_partial (p : Prog) (hok : p.OK) (bands : List Band) (hb : BandsOK p bands) (f : SizeFile) (ns : List Int)
    (hf : f.Holds ns) (hpos : ∀ v ∈ ns, 1 ≤ v) (ft lt : Int) (hft : ft < 0 ∨ lt < 0) (hc : ∀ b ∈ bands, p.loopsBelow b b.width ≤ ns.length) :
    ∃ (S : Nat → Nat → Int) (p' : Prog), tileScatteringWith (readSelect (some f) ft lt) false p bands = some p' ∧
      ∀ (n : Nat) (b : Band), bands[n]? = some b →
        (∀ m < b.width, p.LoopLevel b m → S n m = ns.getD (p.loopsBelow b m) 0) ∧
        ∀ i ∈ b.loop.stmts, ∀ st : Stmt, p.stmts[i]? = some st →
          ∃ st', p'.stmts[i]? = some st' ∧ TiledExactly p.npar b.loop.depth (S n) b.width st st' := by
  obtain ⟨S, p', h1, h2, h3, h4⟩ := tileScatteringWith_spec hok hb (select := readSelect (some f) ft lt) (second := false)
    (Q := fun b ar => ∀ m < b.width, p.LoopLevel b m → ar.1.getD m 0 = ns.getD (p.loopsBelow b m) 0)
    (fun b hbm p1 ar hl har => by
      have hr := hb.range b hbm
      have hnum : numTileDims ft lt b.width = b.width := if_neg (by omega)
      obtain ⟨a', r, e, g1, -⟩ := readTileSizes_numbers hok hr.1 hr.2 hl hf hft (n := p.hProps.length) (by omega) har.len har.len2 (hc b hbm)
      obtain ⟨a2, r2, e2, g2⟩ := readTileSizes_keep (file := some f) (ft := ft) (lt := lt) (p := p1) (b := b) (a := ar) (by
          rintro f' ⟨⟩
          exact hf.positive hpos) (by rw [hnum]; omega) har
        (fun k hk => by
          rw [hnum] at hk
          rw [hl]
          exact anyLoopAt_defined hok hr.2 (by omega))
      rw [e] at e2
      cases e2
      exact ⟨a', by unfold readSelect; rw [e]; rfl, g2, g1⟩)
  obtain ⟨p2, k1, k2, k3, k4, k5, -⟩ := C18_exactly_once p hok bands S hb (fun n _ _ m _ => h3 n m)
  rw [h2] at k1
  cases k1
  refine ⟨S, p', h1, fun n b hn => ⟨fun m hm hL => ?_, k5 n b hn⟩⟩
  obtain ⟨ar, q1, q2⟩ := h4 n b hn
  rw [q2 m hm]
  exact q1 m hm hL

/-- C70, second level. If further numbers follow, as many as the band is wide, they are the ratios of the second level, in
order. -/
theorem C70_second_level_partial (p : Prog) (hok : p.OK) (bands : List Band) (hb : BandsOK p bands) (f : SizeFile) (ns : List Int)
    (hf : f.Holds ns) (hpos : ∀ v ∈ ns, 1 ≤ v) (ft lt : Int) (hft : ft < 0 ∨ lt < 0)
    (hc : ∀ b ∈ bands, p.loopsBelow b b.width + b.width ≤ ns.length) :
    ∃ (S : Nat → Nat → Int) (p' : Prog), tileScatteringWith (readSelect (some f) ft lt) true p bands = some p' ∧
      ∀ (n : Nat) (b : Band), bands[n]? = some b →
        (∀ m < b.width, S n m = ns.getD (p.loopsBelow b b.width + m) 0) ∧
        ∀ i ∈ b.loop.stmts, ∀ st : Stmt, p.stmts[i]? = some st →
          ∃ st', p'.stmts[i]? = some st' ∧ TiledExactly p.npar b.loop.depth (S n) b.width st st' := by
  obtain ⟨S, p', h1, h2, h3, h4⟩ := tileScatteringWith_spec hok hb (select := readSelect (some f) ft lt) (second := true)
    (Q := fun b ar => ∀ m < b.width, ar.2.getD m 0 = ns.getD (p.loopsBelow b b.width + m) 0)
    (fun b hbm p1 ar hl har => by
      have hr := hb.range b hbm
      have hnum : numTileDims ft lt b.width = b.width := if_neg (by omega)
      obtain ⟨a', r, e, -, g1, -⟩ := readTileSizes_numbers hok hr.1 hr.2 hl hf hft (n := p.hProps.length) (by omega) har.len har.len2
        (by have := hc b hbm; omega)
      obtain ⟨a2, r2, e2, g2⟩ := readTileSizes_keep (file := some f) (ft := ft) (lt := lt) (p := p1) (b := b) (a := ar) (by
          rintro f' ⟨⟩
          exact hf.positive hpos) (by rw [hnum]; omega) har
        (fun k hk => by
          rw [hnum] at hk
          rw [hl]
          exact anyLoopAt_defined hok hr.2 (by omega))
      rw [e] at e2
      cases e2
      exact ⟨a', by unfold readSelect; rw [e]; rfl, g2, (g1 (hc b hbm)).2⟩)
  obtain ⟨p2, k1, k2, k3, k4, k5, -⟩ := C18_exactly_once p hok bands S hb (fun n _ _ m _ => h3 n m)
  rw [h2] at k1
  cases k1
  refine ⟨S, p', h1, fun n b hn => ⟨fun m hm => ?_, k5 n b hn⟩⟩
  obtain ⟨ar, q1, q2⟩ := h4 n b hn
  rw [q2 m hm]
  exact q1 m hm

/-- C70, second level. If there are numbers for the first level but too few for the second, the ratios stay 8: `read_tile_sizes`
leaves no other ratio in the array, if it held none before.
Missing: a file that ends with a newline and has one number too few; then the ratios that it has are used, with the old value
for the last (`C70_violated_ratios`). -/
theorem C70_ratios_partial (p : Prog) (hok : p.OK) (b : Band) (hr : b.loop.depth + b.width ≤ p.hProps.length)
    (hs : ∀ i ∈ b.loop.stmts, i < p.stmts.length) (f : SizeFile) (ns : List Int) (hf : f.Holds ns) (hn : ns ≠ []) (ft lt : Int) (hft : ft < 0 ∨ lt < 0)
    (a : List Int × List Int) (h1 : a.1.length = p.hProps.length) (h2 : a.2.length = p.hProps.length)
    (h8 : ∀ m < b.width, a.2.getD m 0 = 8) (hc : p.loopsBelow b b.width ≤ ns.length)
    (hshort : ns.length + (if f.blankEnd then 1 else 0) < p.loopsBelow b b.width + b.width) :
    ∃ a' r, readTileSizes (some f) ft lt p b a = some (a', r) ∧ ∀ m < b.width, a'.2.getD m 0 = 8 := by
  obtain ⟨a', r, e, -, -, g⟩ := readTileSizes_numbers hok hr hs (fun _ => rfl) hf hft (n := p.hProps.length) (by omega) h1 h2 hc
  exact ⟨a', r, e, g hn hshort h8⟩

/-- C70, composed with C50: `pluto_tile` with sizes from any file of positive numbers, or without a file, succeeds and gives a
program that runs the same instances and keeps all dependences.
Missing: as for `C50_tile_partial`; sizes below 1 and `--ft`, `--lt`. -/
theorem C70_tile_partial (isEmpty : Cst → Bool) (hE : EmptyOracle isEmpty) (best : Prog → List Loop → Option Loop)
    (hbest : ∀ p ls L, best p ls = some L → L ∈ ls) (o : TileOpts) (hip : o.innerpar = false) (file : Option SizeFile)
    (hf : ∀ f, file = some f → f.Positive) (ft lt : Int) (hft : ft < 0 ∨ lt < 0)
    (p : Prog) (hok : p.OK) (hi : p.Info) (hst : Stepwise p) (hT : TypesRight p)
    (hU : Uniform p 0 p.hProps.length (List.range p.stmts.length)) (hps : PureScalars p)
    (hfw : o.parallel = true → ∀ bands, tileBands p = some bands → ∀ b ∈ bands, Forward p b) :
    ∃ p' T, plutoTileWith isEmpty best (readSelect file ft lt) o p = some p' ∧ p'.OK ∧ p'.Legal ∧ SameRuns p p' T ∧
      ∀ d ∈ p.deps, d.rar = false → ∀ s t q, p.Inst d s t q →
        LexBefore (p'.timestamp d.src (T d.src s q ++ s) q) (p'.timestamp d.dest (T d.dest t q ++ t) q) := by
  obtain ⟨bands, hb, hB, hbase⟩ := tileBands_base hok hi hst hT hU hps
  obtain ⟨S, p1, e1, e2, hS⟩ := C70_any_file p hok bands hB file hf ft lt hft false
  obtain ⟨p1', f1, ok1, _, _, _, B1, _⟩ := tile_step hS hok (hst.legal hok) hT hps hB hbase
  rw [e2] at f1
  cases f1
  obtain ⟨S2, p2, e3, e4, hS2⟩ := C70_any_file p1 ok1 bands B1 file hf ft lt hft true
  obtain ⟨p', T, h1, h⟩ := C50_tile_partial isEmpty hE best hbest o hip S S2 hS hS2 p hok hi hst hT hU hps hfw
  refine ⟨p', T, ?_, h⟩
  rw [← h1]
  unfold plutoTileWith plutoTile tileLevels
  simp only [hb, e1, e2, e3, e4, Option.bind_eq_bind, Option.bind_some]
  cases o.secondLevel <;> rfl

end Pluto
