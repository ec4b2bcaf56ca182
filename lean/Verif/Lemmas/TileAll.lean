import Verif.Lemmas.TileBand
import Verif.Lemmas.Lex

/-! All bands, time stamps, and the rows added at the end. -/

namespace Pluto

variable {p0 : Prog}

theorem tileAll_spec (hok : p0.OK) (sizes : Nat → Nat → Int) :
    ∀ (l : List (Band × Nat)) (a : Nat → TArg) (p : Prog),
      (∀ b ∈ l, (b.1.loop.depth + b.1.width ≤ p0.hProps.length ∧ ∀ i ∈ b.1.loop.stmts, i < p0.stmts.length) ∧
        b.1.loop.stmts.Nodup ∧ (∀ m < b.1.width, 1 ≤ sizes b.2 m) ∧ ∀ i ∈ b.1.loop.stmts, (a i).k = 0) →
      l.Pairwise (fun b c => ∀ i ∈ b.1.loop.stmts, i ∉ c.1.loop.stmts) → TInv p0 a p →
      ∃ a' p', l.foldlM (fun p b => tileBand p b.1 (sizes b.2)) p = some p' ∧ TInv p0 a' p' ∧
        (∀ b ∈ l, ∀ i ∈ b.1.loop.stmts, a' i = ⟨b.1.loop.depth, sizes b.2, b.1.width⟩) ∧
        ∀ i, (∀ b ∈ l, i ∉ b.1.loop.stmts) → a' i = a i := by
  intro l
  induction l with
  | nil => intro a p _ _ h; exact ⟨a, p, rfl, h, by simp, by simp⟩
  | cons b l ih =>
    intro a p hb hd h
    obtain ⟨⟨hr, hi⟩, hnd, hz, ha⟩ := hb b (by simp)
    obtain ⟨hd1, hd2⟩ := List.pairwise_cons.mp hd
    obtain ⟨p1, e1, h1⟩ := tileBand_spec hok b.1 (sizes b.2) a p hnd hz ha (fun i hi' => by
      have hl := hi i hi'
      refine ⟨p0.stmts[i], List.getElem?_eq_getElem hl, ?_⟩
      rw [hok.levels _ (List.getElem_mem hl)]; exact hr) h
    obtain ⟨a2, p2, e2, h2, h3, h4⟩ := ih _ p1 (fun c hc => by
      obtain ⟨x1, x2, x3, x4⟩ := hb c (by simp [hc])
      refine ⟨x1, x2, x3, fun i hi' => ?_⟩
      unfold bandArgs
      rw [if_neg (fun h' => hd1 c hc i h' hi')]
      exact x4 i hi') hd2 h1
    refine ⟨a2, p2, ?_, h2, ?_, ?_⟩
    · simp only [List.foldlM_cons, e1, Option.bind_eq_bind, Option.bind_some]
      exact e2
    · intro c hc i hi'
      rcases List.mem_cons.mp hc with rfl | hc
      · rw [h4 i (fun d hd' => hd1 d hd' i hi')]
        simp [bandArgs, hi']
      · exact h3 c hc i hi'
    · intro i hi'
      rw [h4 i (fun c hc => hi' c (by simp [hc]))]
      unfold bandArgs
      rw [if_neg (hi' b (by simp))]

/-- Time stamp in the tiled program. -/
theorem tiled_time {npar f k : Nat} {sizes : Nat → Int} {st0 st : Stmt} (h : TStmt npar f sizes k st0 st)
    (hk : f + k ≤ st0.trans.length ∨ k = 0) {x q : List Int} :
    st.time (tileCoords st0 f sizes k x q ++ x) q =
      (st0.time x q).take f ++ tileTime st0 f sizes k x q ++ (st0.time x q).drop f := by
  unfold Stmt.time
  rw [h.trans]
  unfold tiledTrans
  simp only [List.map_append, List.map_map, List.append_assoc]
  have hz : ∀ r : List Int, aff (zrow (tileOffsets st0 f k).length ++ r) (tileCoords st0 f sizes k x q ++ (x ++ q)) =
      aff r (x ++ q) := fun r => aff_zrow_append _ _ _ _ (tileCoords_length _ _ _ _ _ _)
  congr 1
  · rw [List.map_take]
    congr 1
    exact List.map_congr_left (fun r _ => hz r)
  congr 1
  · unfold tileTime
    apply List.map_congr_left
    intro m hm
    have hm := List.mem_range.mp hm
    simp only [Function.comp]
    unfold tileRow
    split_ifs with hs
    · rw [hz]; rfl
    · have hlt := tileOffsets_lt st0 f m k hm hs
      unfold aff
      rw [dot_set_zrow _ _ _ _ (by omega)]
      rw [List.append_assoc, getD_append_left' _ _ _ (by rw [tileCoords_length]; exact hlt),
        tileCoords_get st0 f sizes m k x q hm hs]
      simp
  · rw [List.map_drop]
    congr 1
    exact List.map_congr_left (fun r _ => hz r)

/-- Statement `i` of `p'` is statement `i` of `p` up to types and zero rows at the end. -/
def SunkStmt (npar : Nat) (len : Nat) (st st' : Stmt) : Prop :=
  st'.dim = st.dim ∧ st'.dimOrig = st.dimOrig ∧ st'.domain = st.domain ∧
  st'.trans = st.trans ++ List.replicate (len - st.trans.length) (zrow (st.dim + npar + 1)) ∧
  st'.hypTypes = st'.trans.map (fun r => if (r.take st'.dim).all (fun v => v == 0) then HypType.scalar else HypType.loop)

theorem foldl_max_le (l : List Nat) (z : Nat) : z ≤ l.foldl max z ∧ ∀ x ∈ l, x ≤ l.foldl max z := by
  induction l generalizing z with
  | nil => simp
  | cons a l ih =>
    obtain ⟨h1, h2⟩ := ih (max z a)
    refine ⟨by simp only [List.foldl_cons]; omega, ?_⟩
    intro x hx
    simp only [List.foldl_cons]
    rcases List.mem_cons.mp hx with rfl | hx
    · omega
    · exact h2 x hx

theorem foldl_max_mem (l : List Nat) (z : Nat) : l.foldl max z = z ∨ l.foldl max z ∈ l := by
  induction l generalizing z with
  | nil => simp
  | cons a l ih =>
    simp only [List.foldl_cons, List.mem_cons]
    rcases ih (max z a) with h | h
    · rcases Nat.le_total z a with h' | h'
      · rw [h]; right; left; omega
      · rw [h]; left; omega
    · right; right; exact h

theorem mapM_isSome {α β : Type} (f : α → Option β) (l : List α) (h : ∀ a ∈ l, ∃ b, f a = some b) :
    ∃ bs, l.mapM f = some bs ∧ bs.length = l.length := by
  induction l with
  | nil => exact ⟨[], rfl, rfl⟩
  | cons a l ih =>
    obtain ⟨b, hb⟩ := h a (by simp)
    obtain ⟨bs, hbs, hl⟩ := ih (fun a ha => h a (by simp [ha]))
    exact ⟨b :: bs, by simp [List.mapM_cons, hb, hbs], by simp [hl]⟩

theorem sinkAll_spec (p : Prog) (hm : ∀ st ∈ p.stmts, p.hProps.length ≤ st.trans.length) :
    ∃ p', sinkAll p = some p' ∧ p'.nvar = p.nvar ∧ p'.npar = p.npar ∧ p'.deps = p.deps ∧
      p'.stmts.length = p.stmts.length ∧
      (∀ (i : Nat) (st : Stmt), p.stmts[i]? = some st → ∃ st', p'.stmts[i]? = some st' ∧
        SunkStmt p.npar p'.hProps.length st st' ∧ st.trans.length ≤ p'.hProps.length) := by
  unfold sinkAll
  set mx := (p.stmts.map (·.trans.length)).foldl max 0 with hmx
  have hle : ∀ st ∈ p.stmts, st.trans.length ≤ mx := fun st hst =>
    (foldl_max_le _ 0).2 _ (List.mem_map_of_mem hst)
  simp only
  unfold detectHyperplaneTypes
  simp only
  obtain ⟨hs, h1, h2⟩ := mapM_isSome (fun l => do
    let bs ← (p.stmts.map (fun st => sinkRows p.npar st (mx - st.trans.length))).mapM (isHyperplaneScalar · l)
    return if bs.all id then HypType.scalar else HypType.loop)
    (List.range (p.hProps ++ List.replicate (mx - p.hProps.length) HypType.unknown).length) (by
      intro l hl'
      have hl' := List.mem_range.mp hl'
      rw [List.length_append, List.length_replicate] at hl'
      obtain ⟨bs, hbs, _⟩ := mapM_isSome (isHyperplaneScalar · l)
        (p.stmts.map (fun st => sinkRows p.npar st (mx - st.trans.length))) (by
          intro st' hst'
          obtain ⟨st, hst, rfl⟩ := List.mem_map.mp hst'
          have hlt : l < (sinkRows p.npar st (mx - st.trans.length)).trans.length := by
            simp only [sinkRows, List.length_append, List.length_replicate]
            have := hle st hst
            have := hm st hst
            omega
          unfold isHyperplaneScalar
          rw [List.getElem?_eq_getElem hlt]
          exact ⟨_, rfl⟩)
      exact ⟨_, by simp [hbs]; rfl⟩)
  rw [h1]
  refine ⟨_, rfl, rfl, rfl, rfl, by simp [detectTypesStmtwise], ?_⟩
  intro i st hi
  have hlen : hs.length = mx := by
    have := hle st (List.mem_of_getElem? hi)
    have := hm st (List.mem_of_getElem? hi)
    rw [h2]; simp; omega
  refine ⟨_, by
    show ((p.stmts.map _).map _)[i]? = _
    rw [List.getElem?_map, List.getElem?_map, hi]; rfl, ?_, ?_⟩
  · refine ⟨rfl, rfl, rfl, ?_, rfl⟩
    show _ = st.trans ++ List.replicate (hs.length - _) _
    rw [hlen]; rfl
  · show _ ≤ hs.length
    rw [hlen]; exact hle st (List.mem_of_getElem? hi)

theorem TInv.levels {a : Nat → TArg} {p : Prog} (hok : p0.OK) (h : TInv p0 a p) :
    ∀ st ∈ p.stmts, p.hProps.length ≤ st.trans.length := by
  intro st hst
  obtain ⟨i, hi, rfl⟩ := List.getElem_of_mem hst
  have hi0 : i < p0.stmts.length := by rw [← h.len]; exact hi
  obtain ⟨st, h1, h2⟩ := h.stmts i p0.stmts[i] (List.getElem?_eq_getElem hi0)
  rw [List.getElem?_eq_getElem hi] at h1
  cases h1
  rw [h2.trans, h.props]
  have := hok.levels _ (List.getElem_mem hi0)
  simp only [tiledTrans, List.length_append, List.length_map, List.length_take, List.length_range, List.length_drop]
  omega

/-- The result of `pluto_tile_scattering_dims`. -/
structure Tiled (p0 : Prog) (a : Nat → TArg) (p' : Prog) : Prop where
  npar : p'.npar = p0.npar
  len : p'.stmts.length = p0.stmts.length
  stmts : ∀ (i : Nat) (st0 : Stmt), p0.stmts[i]? = some st0 → ∃ st st', p'.stmts[i]? = some st' ∧
    TStmt p0.npar (a i).f (a i).sizes (a i).k st0 st ∧ SunkStmt p0.npar p'.hProps.length st st' ∧
    st.trans.length ≤ p'.hProps.length
  deps : List.Forall₂ (TDep p0 a) p0.deps p'.deps

theorem tileScattering_spec (hok : p0.OK) {bands : List Band} {sizes : Nat → Nat → Int} (hb : BandsOK p0 bands)
    (hz : ∀ (n : Nat) (b : Band), bands[n]? = some b → ∀ m < b.width, 1 ≤ sizes n m) :
    ∃ a p', tileScatteringDims p0 bands sizes = some p' ∧ Tiled p0 a p' ∧
      (∀ (n : Nat) (b : Band), bands[n]? = some b → ∀ i ∈ b.loop.stmts, a i = ⟨b.loop.depth, sizes n, b.width⟩) ∧
      ∀ i, (∀ b ∈ bands, i ∉ b.loop.stmts) → a i = ⟨0, fun _ => 0, 0⟩ := by
  have hmem : ∀ b ∈ bands.zipIdx, bands[b.2]? = some b.1 := by
    rintro ⟨b, n⟩ hbn
    exact List.mem_zipIdx_iff_getElem?.mp hbn
  obtain ⟨a, p1, e1, h1, h2, h3⟩ := tileAll_spec hok sizes bands.zipIdx (fun _ => ⟨0, fun _ => 0, 0⟩) p0
    (fun b hbm => by
      have hm := hmem b hbm
      have hb' := List.mem_of_getElem? hm
      exact ⟨hb.range _ hb', hb.nodup _ hb', hz _ _ hm, fun _ _ => rfl⟩)
    (by
      have e : bands.zipIdx.map Prod.fst = bands := by simp
      have := hb.disjoint
      rw [← e, List.pairwise_map] at this
      exact this)
    (TInv.init hok _ (fun _ => rfl))
  obtain ⟨p', e2, _, g2, g3, g4, g5⟩ := sinkAll_spec p1 (h1.levels hok)
  refine ⟨a, p', ?_, ⟨by rw [g2, h1.npar], by rw [g4, h1.len], ?_, by rw [g3]; exact h1.deps⟩, ?_, ?_⟩
  · unfold tileScatteringDims
    rw [e1]
    simpa using e2
  · intro i st0 hi
    obtain ⟨st, k1, k2⟩ := h1.stmts i st0 hi
    obtain ⟨st', k3, k4, k5⟩ := g5 i st k1
    rw [h1.npar] at k4
    exact ⟨st, st', k3, k2, k4, k5⟩
  · intro n b hn i hi
    exact h2 (b, n) (List.mem_zipIdx_iff_getElem?.mpr hn) i hi
  · intro i hi
    exact h3 i (fun b hbm => hi _ (List.mem_of_getElem? (hmem b hbm)))

variable {a : Nat → TArg} {p' : Prog}

theorem tiled_row_length {npar f k : Nat} {st0 : Stmt} (hok : st0.OK npar) (hf : f + k ≤ st0.trans.length ∨ k = 0) :
    ∀ r ∈ tiledTrans npar st0 f k, r.length = (tileOffsets st0 f k).length + st0.dim + npar + 1 := by
  intro r hr
  unfold tiledTrans at hr
  simp only [List.mem_append, List.mem_map, List.mem_range] at hr
  rcases hr with (⟨r, hr, rfl⟩ | ⟨m, hm, rfl⟩) | ⟨r, hr, rfl⟩
  · rw [List.length_append, zrow_length, hok.trans r (List.mem_of_mem_take hr)]; omega
  · unfold tileRow
    split_ifs
    · have hl : f + m < st0.trans.length := by omega
      rw [List.length_append, zrow_length, List.getD_eq_getElem?_getD, List.getElem?_eq_getElem hl]
      have := hok.trans _ (List.getElem_mem hl)
      simp only [Option.getD_some]
      omega
    · simp [zrow]
  · rw [List.length_append, zrow_length, hok.trans r (List.mem_of_mem_drop hr)]; omega

/-- The tiled program is well-formed again. -/
theorem Tiled.ok (hok : p0.OK) (h : Tiled p0 a p')
    (hr : ∀ (i : Nat) (st0 : Stmt), p0.stmts[i]? = some st0 → (a i).f + (a i).k ≤ st0.trans.length ∨ (a i).k = 0) : p'.OK := by
  have hst : ∀ (st' : Stmt), st' ∈ p'.stmts → ∃ (i : Nat) (st0 st : Stmt), p0.stmts[i]? = some st0 ∧ p'.stmts[i]? = some st' ∧
      TStmt p0.npar (a i).f (a i).sizes (a i).k st0 st ∧ SunkStmt p0.npar p'.hProps.length st st' ∧
      st.trans.length ≤ p'.hProps.length := by
    intro st' hst
    obtain ⟨i, hi, rfl⟩ := List.getElem_of_mem hst
    have hi0 : i < p0.stmts.length := by rw [← h.len]; exact hi
    obtain ⟨st, st', h1, h2, h3, h4⟩ := h.stmts i p0.stmts[i] (List.getElem?_eq_getElem hi0)
    rw [List.getElem?_eq_getElem hi] at h1
    cases h1
    exact ⟨i, _, st, List.getElem?_eq_getElem hi0, List.getElem?_eq_getElem hi, h2, h3, h4⟩
  have hdim : ∀ (i : Nat) (st0 : Stmt), p0.stmts[i]? = some st0 → p'.dim i = (a i).n st0 + st0.dim := by
    intro i st0 hi
    obtain ⟨st, st', h1, h2, h3, _⟩ := h.stmts i st0 hi
    unfold Prog.dim
    rw [h1]
    show st'.dim = _
    rw [h3.1, h2.dim]; rfl
  refine ⟨?_, ?_, ?_⟩
  · intro st' hst'
    obtain ⟨i, st0, st, h0, h1, h2, ⟨s1, s2, s3, s4, s5⟩, h4⟩ := hst st' hst'
    refine ⟨by rw [s3]; exact h2.wf, by rw [s3, s1, h.npar]; exact h2.cols, ?_, by rw [s5, List.length_map]⟩
    intro r hr'
    rw [s4] at hr'
    rcases List.mem_append.mp hr' with hr' | hr'
    · rw [h2.trans] at hr'
      rw [tiled_row_length (hok.stmts st0 (List.mem_of_getElem? h0)) (hr i st0 h0) r hr', s1, h2.dim, h.npar]
    · rw [List.eq_of_mem_replicate hr', zrow_length, s1, h.npar]
  · intro st' hst'
    obtain ⟨i, st0, st, h0, h1, h2, ⟨s1, s2, s3, s4, s5⟩, h4⟩ := hst st' hst'
    rw [s4]; simp; omega
  · intro d hd
    obtain ⟨n, hn, rfl⟩ := List.getElem_of_mem hd
    have hl := h.deps.length_eq
    have hd0 := (List.forall₂_iff_get.mp h.deps).2 n (by omega) hn
    simp only [List.get_eq_getElem] at hd0
    obtain ⟨k1, k2, k3⟩ := hok.deps _ (List.getElem_mem (by omega : n < p0.deps.length))
    have hs := List.getElem?_eq_getElem k1
    have ht := List.getElem?_eq_getElem k2
    obtain ⟨w, c, _⟩ := hd0.sat _ _ hs ht
    refine ⟨by rw [hd0.src, h.len]; exact k1, by rw [hd0.dest, h.len]; exact k2, w, ?_⟩
    rw [c, hd0.src, hd0.dest, hdim _ _ hs, hdim _ _ ht, h.npar]

theorem Tiled.dim (h : Tiled p0 a p') {i : Nat} {st0 : Stmt} (hi : p0.stmts[i]? = some st0) :
    p'.dim i = (a i).n st0 + st0.dim := by
  obtain ⟨st, st', h1, h2, h3, _⟩ := h.stmts i st0 hi
  unfold Prog.dim
  rw [h1]
  show st'.dim = _
  rw [h3.1, h2.dim]; rfl

/-- Time stamps after tiling. -/
theorem Tiled.timestamp (h : Tiled p0 a p') {i : Nat} {st0 : Stmt} (hi : p0.stmts[i]? = some st0)
    (hr : (a i).f + (a i).k ≤ st0.trans.length ∨ (a i).k = 0) (x q : List Int) :
    ∃ n, p'.timestamp i ((a i).coords st0 x q ++ x) q =
      (p0.timestamp i x q).take (a i).f ++ (tileTime st0 (a i).f (a i).sizes (a i).k x q ++
        ((p0.timestamp i x q).drop (a i).f ++ List.replicate n 0)) := by
  obtain ⟨st, st', h1, h2, h3, _⟩ := h.stmts i st0 hi
  have e0 : p0.timestamp i x q = st0.time x q := by simp [Prog.timestamp, hi, Stmt.time]
  have e1 : ∀ y, p'.timestamp i y q = st'.time y q := fun y => by simp [Prog.timestamp, h1, Stmt.time]
  have e2 : ∀ y, st'.time y q = st.time y q ++ List.replicate (p'.hProps.length - st.trans.length) 0 := by
    intro y
    unfold Stmt.time
    rw [h3.2.2.2.1, List.map_append, List.map_replicate, aff_zrow]
  refine ⟨p'.hProps.length - st.trans.length, ?_⟩
  have := tiled_time h2 hr (x := x) (q := q)
  rw [e0, e1, e2]
  unfold TArg.coords
  rw [this]
  simp only [List.append_assoc]

end Pluto
