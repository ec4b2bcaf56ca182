import Verif.Lemmas.SameRuns

/-! `pluto_tile` as a whole. -/

namespace Pluto

theorem bandsOK_levels {p p' : Prog} {bands : List Band} (h : BandsOK p bands) (hl : p'.stmts.length = p.stmts.length)
    (hr : ∀ b ∈ bands, b.loop.depth + b.width ≤ p'.hProps.length) : BandsOK p' bands :=
  ⟨fun b hb => ⟨hr b hb, fun i hi => by rw [hl]; exact (h.range b hb).2 i hi⟩, h.nodup, h.disjoint⟩

/-- One level of tiling. -/
theorem tile_step {p : Prog} {bands : List Band} {sizes : Nat → Nat → Int} {k : Nat} (hz : ∀ n m, 1 ≤ sizes n m) (hok : p.OK)
    (hleg : p.Legal) (hT : TypesRight p) (hps : PureScalars p) (hB : BandsOK p bands) (hb : ∀ b ∈ bands, TBand p b k ∧ Permutable p b) :
    ∃ p', tileScatteringDims p bands sizes = some p' ∧ p'.OK ∧ p'.Legal ∧ TypesRight p' ∧ PureScalars p' ∧ BandsOK p' bands ∧
      (∀ b ∈ bands, TBand p' b (k + 1) ∧ Permutable p' b) ∧ ∀ b ∈ bands, Forward p b → Forward p' b := by
  obtain ⟨a, p', h1, h2, h3, h4⟩ := tileScattering_spec hok hB (fun n b _ m _ => hz n m)
  have H : TileSetup p a p' bands sizes := ⟨hok, hT, hps, hB, fun n b _ m _ => hz n m, h3, h4, h2⟩
  have hst := H.step hb
  refine ⟨p', h1, H.ok', ?_, H.types', H.pure', bandsOK_levels hB H.tiled.len (fun b hbm => ?_), hst, fun b hbm hf => ?_⟩
  · exact H.legal' hleg (fun b hbm => (hb b hbm).2) (fun b hbm => (hb b hbm).1.sep) (fun b hbm =>
      unmixed_of_uniform hT hps (hB.range b hbm).2 (hB.range b hbm).1 (hb b hbm).1.uni)
  · have := (hst b hbm).1.len
    have hw : b.width ≤ (k + 1 + 1) * b.width := Nat.le_mul_of_pos_left _ (by omega)
    omega
  · obtain ⟨n, hn⟩ := List.getElem?_of_mem hbm
    exact H.forward' hn hf

/-- The bands that are tiled. -/
theorem tileBands_base {p : Prog} (hok : p.OK) (hi : p.Info) (hst : Stepwise p) (hT : TypesRight p)
    (hU : Uniform p 0 p.hProps.length (List.range p.stmts.length)) (hps : PureScalars p) :
    ∃ bands, tileBands p = some bands ∧ BandsOK p bands ∧ ∀ b ∈ bands, TBand p b 0 ∧ Permutable p b := by
  obtain ⟨all, ha⟩ := C34_defined p hok (List.range p.stmts.length) List.nodup_range (by simp) 0
  have ha : getAllLoops p = some all := ha
  obtain ⟨bands, hb⟩ := tileBands_defined hok hi hst hU
  obtain ⟨done, hI⟩ := tileBands_inv ha hU hb
  have hB := inv_bandsOK ha hI
  have hs := all_spec ha
  refine ⟨bands, hb, hB, fun b hbm => ⟨?_, inv_permutable hi hT ha (fun L _ => hst.complete _) (fun L _ => hst.nonneg _) hI b hbm⟩⟩
  obtain ⟨r1, r2⟩ := hB.range b hbm
  have hm := hI.mem b hbm
  have hUL : Uniform p b.loop.depth p.hProps.length b.loop.stmts := by
    intro l h1 h2 i hiL j hjL hag hsc
    refine hU l (by omega) h2 i (by simpa using r2 i hiL) j (by simpa using r2 j hjL) ?_ hsc
    intro l' _ a2 a3 a4
    rcases Nat.lt_or_ge l' b.loop.depth with hlt | hge
    · exact C34_share_partial p _ List.nodup_range 0 all ha hU b.loop hm i hiL j hjL l' (by omega) hlt a3 a4
    · exact hag l' hge a2 a3 a4
  refine ⟨hs.ne _ hm, hB.nodup b hbm, r2, ?_, by simpa using r1, inv_separated hok (hst.legal hok) ha hU hps hI b hbm, hUL,
    by simpa using hUL, fun h => absurd h (by omega)⟩
  rcases hI.kind b hbm with h | ⟨h, _⟩
  · have := (permutableBand_spec h).2.1; omega
  · omega

/-- The bands that are tiled allow wavefronts if none of their levels is scalar for all statements. -/
theorem tileBands_forward {p : Prog} (hi : p.Info) (hst : Stepwise p)
    (hU : Uniform p 0 p.hProps.length (List.range p.stmts.length)) (hok : p.OK) {bands : List Band} (hb : tileBands p = some bands)
    {b : Band} (hbm : b ∈ bands) (hns : ∀ m < b.width, ∃ i ∈ b.loop.stmts, ¬ p.Scalar (b.loop.depth + m) i) : Forward p b := by
  obtain ⟨all, ha⟩ := C34_defined p hok (List.range p.stmts.length) List.nodup_range (by simp) 0
  have ha : getAllLoops p = some all := ha
  obtain ⟨done, hI⟩ := tileBands_inv ha hU hb
  rcases hI.kind b hbm with h | ⟨h, _⟩
  · exact C20_forward p hi hst b.loop b h hns
  · intro d _ _ _ _ s t q _ _ k hk
    obtain ⟨k1, k2, _⟩ := hk
    omega

/-- `pluto_tile`. -/
theorem plutoTile_stage {isEmpty : Cst → Bool} (hE : EmptyOracle isEmpty) {best : Prog → List Loop → Option Loop}
    (hbest : ∀ p ls L, best p ls = some L → L ∈ ls) (o : TileOpts) (hip : o.innerpar = false) {sizes sizes2 : Nat → Nat → Int}
    (hz : ∀ n m, 1 ≤ sizes n m) (hz2 : ∀ n m, 1 ≤ sizes2 n m) {p : Prog} (hok : p.OK) (hi : p.Info) (hst : Stepwise p) (hT : TypesRight p)
    (hU : Uniform p 0 p.hProps.length (List.range p.stmts.length)) (hps : PureScalars p) :
    ∃ bands, tileBands p = some bands ∧ ((o.parallel = true → ∀ b ∈ bands, Forward p b) →
      ∃ p', plutoTile isEmpty best o sizes sizes2 p = some p' ∧ Stage p' bands o.parallel ∧ Bits p' bands ∧ ∃ T, SameRuns p p' T) := by
  obtain ⟨bands, hb, hB, hbase⟩ := tileBands_base hok hi hst hT hU hps
  refine ⟨bands, hb, fun hfw => ?_⟩
  have hleg := hst.legal hok
  obtain ⟨p1, e1, ok1, leg1, ty1, pu1, B1, T1, F1⟩ := tile_step hz hok hleg hT hps hB hbase
  have hlev : ∃ pk k, tileLevels o sizes sizes2 p bands = some (pk, k) ∧ 0 < k ∧ pk.OK ∧ pk.Legal ∧ PureScalars pk ∧ BandsOK pk bands ∧
      (∀ b ∈ bands, TBand pk b k) ∧ (o.parallel = true → ∀ b ∈ bands, Forward pk b) ∧ ∃ T, SameRuns p pk T := by
    obtain ⟨T, hT1⟩ := tile_sameRuns hok hB hz e1
    unfold tileLevels
    simp only [e1, Option.bind_eq_bind, Option.bind_some]
    by_cases c : o.secondLevel = true
    · rw [if_pos c]
      obtain ⟨p2, e2, ok2, leg2, ty2, pu2, B2, T2, F2⟩ := tile_step hz2 ok1 leg1 ty1 pu1 B1 T1
      rw [e2]
      obtain ⟨T', hT2⟩ := tile_sameRuns ok1 B1 hz2 e2
      exact ⟨p2, 2, rfl, by omega, ok2, leg2, pu2, B2, fun b hbm => (T2 b hbm).1, fun hp b hbm => F2 b hbm (F1 b hbm (hfw hp b hbm)),
        _, hT1.trans hT2⟩
    · rw [if_neg c]
      exact ⟨p1, 1, rfl, by omega, ok1, leg1, pu1, B1, fun b hbm => (T1 b hbm).1, fun hp b hbm => F1 b hbm (hfw hp b hbm), T, hT1⟩
  obtain ⟨pk, k, e2, hk, okk, legk, puk, Bk, Tk, Fk, T, hTk⟩ := hlev
  obtain ⟨p2, e3, i2, q2, f2⟩ := recompute_spec hE okk
  have E2 := resat_edit q2 f2
  have ok2 := resat_ok q2 f2 okk
  have S2 : Stage p2 bands o.parallel := by
    refine ⟨ok2, resat_legal q2 f2 legk, i2.satLen, ?_, fun b hbm => (Tk b hbm).width, ?_, ?_⟩
    · exact ⟨fun b hbm => ⟨by rw [E2.levels]; exact (Bk.range b hbm).1, fun i hi => by rw [E2.len]; exact (Bk.range b hbm).2 i hi⟩,
        Bk.nodup, Bk.disjoint⟩
    · exact E2.separated okk ok2 Bk.disjoint (fun b hbm => (Tk b hbm).sep) (fun b hbm => by have := (Bk.range b hbm).1; omega)
        (fun _ _ _ => trivial)
    · intro hp b hbm
      exact E2.forward okk ok2 (Bk.range b hbm).2 (Bk.range b hbm).1 (fun _ _ _ _ => trivial) (Fk hp b hbm)
  have T2 : ∀ b ∈ bands, TBand p2 b k ∧ ParSound p2 b.loop.stmts := fun b hbm =>
    ⟨E2.tband okk ok2 (fun _ _ _ => trivial) (Tk b hbm) (S2.sep b hbm), i2.parSound _⟩
  have hin : ∃ p3, stepIf o.intraTile (fun p => intraTileBands isEmpty best k p bands) p2 = some p3 ∧ Stage p3 bands o.parallel ∧ p3.Info ∧ Same p2 p3 := by
    unfold stepIf
    by_cases c : o.intraTile = true
    · rw [if_pos c]
      obtain ⟨p3, e4, S3, _⟩ := intraFold hbest hk bands p2 S2 (resat_pure q2 puk) (fun _ h => h) S2.bandsOK.disjoint T2
      obtain ⟨p4, e5, i4, q4, f4⟩ := recompute_spec hE S3.ok
      refine ⟨p4, ?_, S3.resat i4 q4 f4, i4, (foldlM_same (fun _ _ _ => intraTileBand_same) e4).trans (resat_same q4 f4)⟩
      show intraTileBands isEmpty best k p2 bands = _
      unfold intraTileBands
      rw [e4]
      exact e5
    · rw [if_neg c]
      exact ⟨p2, rfl, S2, i2, .refl _⟩
  obtain ⟨p3, e4, S3, i3, same3⟩ := hin
  have hT3 : SameRuns p p3 T := (hTk.same (resat_same q2 f2)).same same3
  have hbits : ∀ done, Bits p3 done := fun done => ⟨fun d hd hr l _ hb s t q hin htied => bit_false i3 hd hr hb hin htied⟩
  unfold plutoTile
  simp only [hb, e2, e3, e4, Option.bind_eq_bind, Option.bind_some]
  unfold stepIf
  by_cases c : o.parallel = true
  · rw [if_pos c]
    rw [c] at S3 ⊢
    obtain ⟨p4, r, e5, S4, B4⟩ := waveFold o hip bands [] p3 false S3 (hbits []) (fun _ h => h) (by simpa using S3.bandsOK.disjoint)
    refine ⟨p4, ?_, S4, by simpa using B4, T, hT3.same (createTileSchedules_same e5)⟩
    show (createTileSchedules o p3 bands).map (·.1) = _
    unfold createTileSchedules
    rw [e5]
    rfl
  · rw [if_neg c]
    exact ⟨p3, rfl, S3, hbits bands, T, hT3⟩

/-- Loops that do not cut through a band at its first level: they have all of its statements or none. -/
def Aligned (bands : List Band) (L : Loop) : Prop :=
  ∀ b ∈ bands, L.depth = b.loop.depth → (∀ i ∈ b.loop.stmts, i ∈ L.stmts) ∨ ∀ i ∈ L.stmts, i ∉ b.loop.stmts

theorem parallel_sub {p : Prog} {L M : Loop} (h : loopIsParallel p L = some true) (hd : L.depth = M.depth) (hs : ∀ i ∈ M.stmts, i ∈ L.stmts) :
    loopIsParallel p M ≠ some false := by
  intro hM
  unfold loopIsParallel at hM
  simp only [Option.bind_eq_bind, Option.bind_eq_some_iff, pure, Option.some.injEq] at hM
  obtain ⟨bs, hbs, hall⟩ := hM
  have hf := mapM_forall₂ _ _ _ hbs
  simp only [List.all_eq_false, Bool.not_eq_true', Bool.not_eq_false] at hall
  obtain ⟨x, hx, hx2⟩ := hall
  obtain ⟨k, k3, hk⟩ := List.getElem_of_mem hx
  have k1 := k3
  rw [← hf.length_eq] at k1
  have hg := hf.get k1 k3
  simp only [List.get_eq_getElem, hk, hx2] at hg
  have hm := List.getElem_mem k1
  generalize (p.deps.filter (fun d => !d.rar && M.stmts.contains d.src && M.stmts.contains d.dest))[k] = d at hg hm
  simp only [List.mem_filter, Bool.and_eq_true, Bool.not_eq_true', List.contains_eq_mem, decide_eq_true_eq] at hm
  have := parallel_bit h hm.1 hm.2.1.1 (hs _ hm.2.1.2) (hs _ hm.2.2)
  rw [hd, hg] at this
  simp at this

theorem Bits.parallel {p : Prog} {bands : List Band} (hB : Bits p bands) {L : Loop} (hL : Aligned bands L)
    (hpar : loopIsParallel p L = some true) : ∀ d ∈ p.deps, d.rar = false → d.src ∈ L.stmts → d.dest ∈ L.stmts → ∀ s t q, p.Inst d s t q →
      p.TiedBelow d L.depth s t q → p.comp d L.depth s t q = 0 := by
  intro d hd hr hs ht s t q hin htied
  refine hB.ok d hd hr L.depth (fun b hb hnp hl h1 _ => ?_) (parallel_bit hpar hd hr hs ht) s t q hin htied
  rcases hL b hb hl with h | h
  · exact absurd hnp (parallel_sub hpar hl h)
  · exact h _ hs h1

end Pluto
