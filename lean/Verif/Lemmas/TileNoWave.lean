import Verif.Lemmas.PlutoTile

namespace Pluto

/-- `pluto_tile` without wavefronts leaves the satisfaction data right. -/
theorem plutoTile_info {isEmpty : Cst → Bool} (hE : EmptyOracle isEmpty) {best : Prog → List Loop → Option Loop}
    (hbest : ∀ p ls L, best p ls = some L → L ∈ ls) (o : TileOpts) (hnp : o.parallel = false) {sizes sizes2 : Nat → Nat → Int}
    (hz : ∀ n m, 1 ≤ sizes n m) (hz2 : ∀ n m, 1 ≤ sizes2 n m) {p : Prog} (hok : p.OK) (hi : p.Info) (hst : Stepwise p) (hT : TypesRight p)
    (hU : Uniform p 0 p.hProps.length (List.range p.stmts.length)) (hps : PureScalars p) :
    ∃ p', plutoTile isEmpty best o sizes sizes2 p = some p' ∧ p'.OK ∧ p'.Info := by
  obtain ⟨bands, hb, hB, hbase⟩ := tileBands_base hok hi hst hT hU hps
  have hfw : o.parallel = true → ∀ b ∈ bands, Forward p b := fun h => by rw [hnp] at h; cases h
  have hleg := hst.legal hok
  obtain ⟨p1, e1, ok1, leg1, ty1, pu1, B1, T1, F1⟩ := tile_step hz hok hleg hT hps hB hbase
  have hlev : ∃ pk k, tileLevels o sizes sizes2 p bands = some (pk, k) ∧ 0 < k ∧ pk.OK ∧ pk.Legal ∧ PureScalars pk ∧ BandsOK pk bands ∧
      (∀ b ∈ bands, TBand pk b k) ∧ (o.parallel = true → ∀ b ∈ bands, Forward pk b) ∧ ∃ T, SameRuns p pk T := by
    obtain ⟨T, hT1⟩ := tile_sameRuns hok hB hz e1
    unfold tileLevels
    simp only [e1, Option.bind_eq_bind, Option.bind_some]
    by_cases c : o.secondLevel = true
    · rw [if_pos c]
      obtain ⟨p2, e2, ok2, leg2, ty2, pu2, B2, T2, F2⟩ := tile_step hz2 ok1 leg1 ty1 pu1 B1 T1
      rw [e2]
      obtain ⟨T', hT2⟩ := tile_sameRuns ok1 B1 hz2 e2
      exact ⟨p2, 2, rfl, by omega, ok2, leg2, pu2, B2, fun b hbm => (T2 b hbm).1, fun hp b hbm => F2 b hbm (F1 b hbm (hfw hp b hbm)),
        _, hT1.trans hT2⟩
    · rw [if_neg c]
      exact ⟨p1, 1, rfl, by omega, ok1, leg1, pu1, B1, fun b hbm => (T1 b hbm).1, fun hp b hbm => F1 b hbm (hfw hp b hbm), T, hT1⟩
  obtain ⟨pk, k, e2, hk, okk, legk, puk, Bk, Tk, Fk, T, hTk⟩ := hlev
  obtain ⟨p2, e3, i2, q2, f2⟩ := recompute_spec hE okk
  have E2 := resat_edit q2 f2
  have ok2 := resat_ok q2 f2 okk
  have S2 : Stage p2 bands o.parallel := by
    refine ⟨ok2, resat_legal q2 f2 legk, i2.satLen, ?_, fun b hbm => (Tk b hbm).width, ?_, ?_⟩
    · exact ⟨fun b hbm => ⟨by rw [E2.levels]; exact (Bk.range b hbm).1, fun i hi => by rw [E2.len]; exact (Bk.range b hbm).2 i hi⟩,
        Bk.nodup, Bk.disjoint⟩
    · exact E2.separated okk ok2 Bk.disjoint (fun b hbm => (Tk b hbm).sep) (fun b hbm => by have := (Bk.range b hbm).1; omega)
        (fun _ _ _ => trivial)
    · intro hp b hbm
      exact E2.forward okk ok2 (Bk.range b hbm).2 (Bk.range b hbm).1 (fun _ _ _ _ => trivial) (Fk hp b hbm)
  have T2 : ∀ b ∈ bands, TBand p2 b k ∧ ParSound p2 b.loop.stmts := fun b hbm =>
    ⟨E2.tband okk ok2 (fun _ _ _ => trivial) (Tk b hbm) (S2.sep b hbm), i2.parSound _⟩
  have hin : ∃ p3, stepIf o.intraTile (fun p => intraTileBands isEmpty best k p bands) p2 = some p3 ∧ Stage p3 bands o.parallel ∧ p3.Info ∧ Same p2 p3 := by
    unfold stepIf
    by_cases c : o.intraTile = true
    · rw [if_pos c]
      obtain ⟨p3, e4, S3, _⟩ := intraFold hbest hk bands p2 S2 (resat_pure q2 puk) (fun _ h => h) S2.bandsOK.disjoint T2
      obtain ⟨p4, e5, i4, q4, f4⟩ := recompute_spec hE S3.ok
      refine ⟨p4, ?_, S3.resat i4 q4 f4, i4, (foldlM_same (fun _ _ _ => intraTileBand_same) e4).trans (resat_same q4 f4)⟩
      show intraTileBands isEmpty best k p2 bands = _
      unfold intraTileBands
      rw [e4]
      exact e5
    · rw [if_neg c]
      exact ⟨p2, rfl, S2, i2, .refl _⟩
  obtain ⟨p3, e4, S3, i3, same3⟩ := hin
  refine ⟨p3, ?_, S3.ok, i3⟩
  unfold plutoTile
  simp only [hb, e2, e3, e4, Option.bind_eq_bind, Option.bind_some]
  unfold stepIf
  rw [if_neg (by simp [hnp])]

end Pluto
