import Verif.Lemmas.Wavefront
import Verif.Props.TileBands

/-! C20: wavefronts of tiles. `createTileSchedule` is `pluto_create_tile_schedule_band`; its last argument
is the option `--innerpar`. `AllLoop`, `Added`, `SumAt`: Verif/Spec/Polyloop.lean. -/

namespace Pluto

/-- The dependences within the band that are not satisfied outside it have no negative component at the
levels of the band that are loops for all its statements. -/
def Forward (p : Prog) (b : Band) : Prop :=
  ∀ d ∈ p.deps, d.rar = false → d.src ∈ b.loop.stmts → d.dest ∈ b.loop.stmts → ∀ s t q, p.Inst d s t q →
    p.TiedBelow d b.loop.depth s t q → ∀ k, AllLoop p b k → 0 ≤ p.comp d k s t q

/-- C20, effect. Either nothing is changed, because the loop is parallel or no other level of the band is
a loop for all its statements, or else the first level of the band becomes the sum of it and all these
levels (with `--multipar`) or it and the first one of them; the other levels and statements stay. -/
theorem C20_effect (p : Prog) (hok : p.OK) (hi : p.Info) (b : Band) (hb : BandsOK p [b]) (hw : 0 < b.width) (multipar : Bool) :
    ∃ p' r, createTileSchedule p b multipar false = some (p', r) ∧ p'.OK ∧
      (r = false → p' = p ∧ (loopIsParallel p b.loop = some true ∨ ∀ k, ¬ AllLoop p b k)) ∧
      (r = true → ∃ ks, ks.Nodup ∧ ks ≠ [] ∧ (∀ k, k ∈ ks ↔ Added p b multipar k) ∧ SumAt p p' b.loop.stmts b.loop.depth ks ∧
        ∀ i, i ∉ b.loop.stmts → p'.stmts[i]? = p.stmts[i]?) := by
  obtain ⟨r1, r2⟩ := hb.range b (by simp)
  have hf : b.loop.depth < p.hProps.length := by omega
  obtain ⟨p', r, h, hc⟩ := createTileSchedule_spec hok hi.satLen (hb.nodup b (by simp)) r2 hf r1 multipar
  refine ⟨p', r, h, ?_⟩
  rcases hc with ⟨rfl, rfl, hc⟩ | ⟨rfl, _, ks, k1, k2, k3, k4⟩
  · exact ⟨hok, fun _ => ⟨rfl, hc⟩, by simp⟩
  · have hks : b.loop.depth ∉ ks := fun h => by have := ((k3 _).mp h).1.1; omega
    exact ⟨k4.ok hok hf hks, by simp, fun _ => ⟨ks, k1, k2, k3, k4.sumAt hok hf hks, k4.outside⟩⟩

/-- C20, order. If no dependence goes backwards on the levels that are loops for all statements of the
band, then the schedule stays legal, and dependent pairs of the same wavefront (equal at the new first
level and outside it) are not separated by the loops that were added in.
Missing for the full C20: bands with a scalar level inside, where a dependence satisfied by the scalar
level can be negative at a later loop; there the claim is false (`C20_violated`). -/
theorem C20_order_partial (p : Prog) (hok : p.OK) (hleg : p.Legal) (hi : p.Info) (b : Band) (hb : BandsOK p [b]) (hw : 0 < b.width)
    (hsep : Separated p b) (hfw : Forward p b) (multipar : Bool) (p' : Prog) (r : Bool)
    (h : createTileSchedule p b multipar false = some (p', r)) :
    p'.Legal ∧ (r = true → ∀ d ∈ p'.deps, d.rar = false → d.src ∈ b.loop.stmts → d.dest ∈ b.loop.stmts → ∀ s t q,
      p'.Inst d s t q → p'.TiedBelow d (b.loop.depth + 1) s t q → ∀ k, Added p b multipar k → p'.comp d k s t q = 0) := by
  obtain ⟨r1, r2⟩ := hb.range b (by simp)
  have hf : b.loop.depth < p.hProps.length := by omega
  obtain ⟨p1, r1', h1, hc⟩ := createTileSchedule_spec hok hi.satLen (hb.nodup b (by simp)) r2 hf r1 multipar
  rw [h] at h1; cases h1
  rcases hc with ⟨rfl, rfl, hc⟩ | ⟨rfl, _, ks, k1, k2, k3, k4⟩
  · exact ⟨hleg, by simp⟩
  · have hks : b.loop.depth ∉ ks := fun h => by have := ((k3 _).mp h).1.1; omega
    have hnn : ∀ d ∈ p.deps, d.rar = false → d.src ∈ b.loop.stmts → d.dest ∈ b.loop.stmts → ∀ s t q, p.Inst d s t q →
        p.TiedBelow d b.loop.depth s t q → ∀ k ∈ ks, 0 ≤ p.comp d k s t q :=
      fun d a1 a2 a3 a4 s t q a5 a6 k hk => hfw d a1 a2 a3 a4 s t q a5 a6 k ((k3 k).mp hk).1
    refine ⟨k4.legal hok hleg hf hks hsep hnn, fun _ d' hd' hr' hs' ht' s t q hin htied k hk => ?_⟩
    obtain ⟨d, hd, _, e⟩ := k4.dep hok hf hks hd'
    have es : d'.src = d.src := by rw [e]
    have et : d'.dest = d.dest := by rw [e]
    have hr : d.rar = false := by rw [e] at hr'; exact hr'
    rw [es] at hs'; rw [et] at ht'
    have hold : p.TiedBelow d b.loop.depth s t q := (k4.tied hok hf hks (le_refl _) s t q).mp
      (fun l hl => by rw [← comp_dep e]; exact htied l (by omega))
    have hz := (k4.same hok hleg hf hks hnn hd hr hs' ht' (k4.inst hok hf hks e hin) hold
      (by rw [← comp_dep e]; exact htied _ (by omega))).2 k ((k3 k).mpr hk)
    rw [comp_dep e, k4.comp_ne hok hf hks (fun e => hks (e ▸ (k3 k).mpr hk))]
    exact hz

/-- C20, parallel loops. After building a wavefront the parallelism test still reports only loops that
carry no dependence: for all loops but those that start at the level of the band and cut through it. -/
theorem C20_parallel_partial (p : Prog) (hok : p.OK) (hleg : p.Legal) (hi : p.Info) (b : Band) (hb : BandsOK p [b]) (hw : 0 < b.width)
    (hsep : Separated p b) (hfw : Forward p b) (multipar : Bool) (p' : Prog) (r : Bool)
    (h : createTileSchedule p b multipar false = some (p', r)) (L : Loop)
    (hL : L.depth = b.loop.depth → L = b.loop ∨ ∀ i ∈ L.stmts, i ∉ b.loop.stmts) (hpar : loopIsParallel p' L = some true) :
    ∀ d ∈ p'.deps, d.rar = false → d.src ∈ L.stmts → d.dest ∈ L.stmts → ∀ s t q, p'.Inst d s t q →
      p'.TiedBelow d L.depth s t q → p'.phi d.src L.depth s q = p'.phi d.dest L.depth t q := by
  obtain ⟨r1, r2⟩ := hb.range b (by simp)
  have hf : b.loop.depth < p.hProps.length := by omega
  obtain ⟨p1, r1', h1, hc⟩ := createTileSchedule_spec hok hi.satLen (hb.nodup b (by simp)) r2 hf r1 multipar
  rw [h] at h1; cases h1
  rcases hc with ⟨rfl, rfl, hc⟩ | ⟨rfl, hseq, ks, k1, k2, k3, k4⟩
  · exact parallel_spec hi hpar
  · intro d hd hr hs ht s t q hin htied
    have := k4.parallel hok hleg hi hf k1 (fun k hk => ((k3 k).mp hk).1.1) hsep
      (fun d a1 a2 a3 a4 s t q a5 a6 k hk => hfw d a1 a2 a3 a4 s t q a5 a6 k ((k3 k).mp hk).1) hseq hL hpar hd hr hs ht hin htied
    unfold Prog.comp at this
    omega

/-- With `--multipar` all levels of the band that are loops for all its statements are reported parallel
after the wavefront. -/
theorem C20_inner_parallel (p : Prog) (hok : p.OK) (hi : p.Info) (b : Band) (hb : BandsOK p [b]) (hw : 0 < b.width)
    (multipar : Bool) (p' : Prog) (h : createTileSchedule p b multipar false = some (p', true)) (L : Loop)
    (hL : ∀ i ∈ L.stmts, i ∈ b.loop.stmts) (hk : Added p b multipar L.depth) : loopIsParallel p' L = some true := by
  obtain ⟨r1, r2⟩ := hb.range b (by simp)
  have hf : b.loop.depth < p.hProps.length := by omega
  obtain ⟨p1, r1', h1, hc⟩ := createTileSchedule_spec hok hi.satLen (hb.nodup b (by simp)) r2 hf r1 multipar
  rw [h] at h1; cases h1
  rcases hc with ⟨hr, _⟩ | ⟨_, hseq, ks, k1, k2, k3, k4⟩
  · simp at hr
  · have hks : b.loop.depth ∉ ks := fun h => by have := ((k3 _).mp h).1.1; omega
    have hbits : ∀ d ∈ p'.deps, d.rar = false → d.src ∈ L.stmts → d.dest ∈ L.stmts → d.satvec[L.depth]? = some false := by
      intro d' hd' hr' hs' ht'
      obtain ⟨d, hd, hm, e⟩ := k4.dep hok hf hks hd'
      have es : d'.src = d.src := by rw [e]
      have et : d'.dest = d.dest := by rw [e]
      have hr : d.rar = false := by rw [e] at hr'; exact hr'
      rw [es] at hs'; rw [et] at ht'
      unfold mergeDep at hm
      rw [if_pos (by simp [hr, hL _ hs', hL _ ht'])] at hm
      simp only [Option.bind_eq_bind, Option.bind_eq_some_iff, pure, Option.some.injEq] at hm
      obtain ⟨v, m1, m2⟩ := hm
      rw [← m2]
      exact (mergeSatvec_spec m1 hks k1).2.1 _ ((k3 _).mpr hk)
    obtain ⟨v, hv⟩ : ∃ v, loopIsParallel p' L = some v := by
      unfold loopIsParallel
      obtain ⟨bs, hbs⟩ := Option.isSome_iff_exists.mp (mapM_isSome' (f := fun d : Dep => d.satvec[L.depth]?)
        (l := p'.deps.filter (fun d => !d.rar && L.stmts.contains d.src && L.stmts.contains d.dest)) (by
          intro d hm
          simp only [List.mem_filter, Bool.and_eq_true, Bool.not_eq_true', List.contains_iff_mem] at hm
          rw [hbits d hm.1 hm.2.1.1 hm.2.1.2 hm.2.2]; rfl))
      simp only [hbs, Option.bind_eq_bind, Option.bind_some]
      exact ⟨_, rfl⟩
    rw [hv, parallel_of_bits hv hbits]

/-- The condition of `C20_order_partial` holds for the bands the code finds if none of their levels is
scalar for all statements. -/
theorem C20_forward (p : Prog) (hi : p.Info) (hst : Stepwise p) (L : Loop) (b : Band) (h : permutableBand p L = some (some b))
    (hns : ∀ m < b.width, ∃ i ∈ L.stmts, ¬ p.Scalar (L.depth + m) i) : Forward p b := by
  have hb := (permutableBand_spec h).1
  intro d hd hr hs ht s t q hin htied k hk
  rw [hb] at hs ht htied
  obtain ⟨k1, k2, _⟩ := hk
  rw [hb] at k1 k2
  have := band_comp hi h (hst.complete _) (hst.nonneg _) hd hr hs ht hin htied (m := k - L.depth) (by omega)
  rw [show L.depth + (k - L.depth) = k by omega] at this
  rcases this with h | ⟨m0, h1, h2, _⟩
  · exact h
  · obtain ⟨i, hi, hn⟩ := hns m0 (by omega)
    exact absurd (h2 i hi) hn

/-! ### Examples -/

/-- The first nest of the tiling example: the wavefront is `i + (i + j)`. -/
example : BandsOK exTile [⟨⟨1, [0]⟩, 2⟩] ∧
    (createTileSchedule exTile ⟨⟨1, [0]⟩, 2⟩ false false).map (fun r => (r.1.stmts.map (·.trans), r.1.deps.map (·.satvec), r.2)) =
      some ([[[0, 0, 0, 0], [2, 1, 0, 0], [1, 1, 0, 0]], [[0, 0, 0, 1], [1, 0, 0, 0], [0, 1, 0, 0]]],
        [[false, true, false], [true, false, false]], true) := by decide +kernel

/-- The remaining hypotheses of the theorems above hold for it. -/
example : Separated exTile ⟨⟨1, [0]⟩, 2⟩ ∧ Forward exTile ⟨⟨1, [0]⟩, 2⟩ := by
  have ha : getAllLoops exTile = some [⟨2, [0]⟩, ⟨1, [0]⟩, ⟨2, [1]⟩, ⟨1, [1]⟩] := by decide +kernel
  refine ⟨?_, ?_⟩
  · exact under_separated exTile_ok.1 (exTile_stepwise.legal exTile_ok.1) List.nodup_range ha (by decide +kernel) exTile_pure
      (all_separated exTile_ok.1 0) (L := ⟨1, [0]⟩) (by simp) 2
  · exact C20_forward exTile exTile_info exTile_stepwise ⟨1, [0]⟩ _ (by decide +kernel) (by decide +kernel)

/-! ### Violations -/

/-- `for i { for j S0; for j S1 }` where `S0(i, j)` must come before `S0(i + 1, j)` and `S1(i, j - 3)`. -/
def exWave : Prog where
  nvar := 2
  npar := 0
  stmts := [
    ⟨2, 2, ⟨3, []⟩, [true, true], [[1, 0, 0], [0, 0, 0], [0, 1, 0]], [.loop, .scalar, .loop]⟩,
    ⟨2, 2, ⟨3, []⟩, [true, true], [[1, 0, 0], [0, 0, 1], [0, 1, 0]], [.loop, .scalar, .loop]⟩]
  deps := [
    ⟨0, 0, false, ⟨5, [⟨true, [-1, 0, 1, 0, -1]⟩, ⟨true, [0, -1, 0, 1, 0]⟩]⟩, ⟨5, []⟩, true, 0, [true, false, false], [.plus, .zero, .zero]⟩,
    ⟨0, 1, false, ⟨5, [⟨true, [-1, 0, 1, 0, 0]⟩, ⟨true, [0, -1, 0, 1, 3]⟩]⟩, ⟨5, []⟩, true, 1, [false, true, false], [.zero, .plus, .minus]⟩]
  hProps := [.loop, .scalar, .loop]

def exWaveComp (d : Dep) (l : Nat) : Int :=
  if d.dest = 0 then (if l = 0 then 1 else 0) else (if l = 0 then 0 else if l = 1 then 1 else -3)

theorem exWave_comp {d : Dep} (hd : d ∈ exWave.deps) {s t q : List Int} (h : exWave.Inst d s t q) {l : Nat} (hl : l < 3) :
    exWave.comp d l s t q = exWaveComp d l := by
  have hd : d = exWave.deps[0] ∨ d = exWave.deps[1] := by simpa [exWave] using hd
  rcases hd with rfl | rfl
  all_goals
    obtain ⟨i, j, rfl⟩ := length_two (h.hs : s.length = 2)
    obtain ⟨i', j', rfl⟩ := length_two (h.ht : t.length = 2)
    obtain rfl := List.length_eq_zero_iff.mp (h.hp : q.length = 0)
    have := h.sat
    simp [exWave, Cst.Sat, Row.Sat, aff, dot] at this
    interval_cases l <;> simp [Prog.comp, Prog.phi, Prog.row, exWave, aff, dot, exWaveComp] <;> omega

theorem exWave_info : exWave.Info := by
  refine info_check (fun d hd => ⟨_, _, _, signTable_const (exWaveComp d) (fun l hl s t q h => exWave_comp hd h hl) ?_, ?_⟩)
  all_goals
    have hd : d = exWave.deps[0] ∨ d = exWave.deps[1] := by simpa [exWave] using hd
    rcases hd with rfl | rfl
  · exact ⟨[0, 0], [1, 0], [], rfl, rfl, rfl, by decide +kernel⟩
  · exact ⟨[0, 0], [0, -3], [], rfl, rfl, rfl, by decide +kernel⟩
  · decide +kernel
  · decide +kernel

theorem exWave_stepwise : Stepwise exWave := by
  intro d hd _
  have hd' : d = exWave.deps[0] ∨ d = exWave.deps[1] := by simpa [exWave] using hd
  rcases hd' with e | e
  · refine ⟨0, by decide, fun s t q h => ?_, by omega⟩
    rw [exWave_comp hd h (by omega), e]; decide
  · refine ⟨1, by decide, fun s t q h => ?_, fun l hl s t q h => ?_⟩
    · rw [exWave_comp hd h (by omega), e]; decide
    · rw [exWave_comp hd h (by omega), e]; interval_cases l; decide

/-- C20 is violated for a band with a scalar level inside: the schedule satisfies every dependence at one
level and never goes back before, the recorded data is right, the band is the one the code finds, but the
wavefront built for it reverses a dependent pair. -/
theorem C20_violated : ∃ (p : Prog) (b : Band) (p' : Prog), p.OK ∧ p.Info ∧ Stepwise p ∧ TypesRight p ∧
    Uniform p 0 p.hProps.length (List.range p.stmts.length) ∧ tileBands p = some [b] ∧
    createTileSchedule p b false false = some (p', true) ∧
    ∃ d ∈ p'.deps, d.rar = false ∧ ∃ s t q, p'.Inst d s t q ∧ LexBefore (p'.timestamp d.dest t q) (p'.timestamp d.src s q) := by
  refine ⟨exWave, ⟨⟨0, [0, 1]⟩, 3⟩, ((createTileSchedule exWave ⟨⟨0, [0, 1]⟩, 3⟩ false false).map (·.1)).getD exWave, by decide +kernel, exWave_info,
    exWave_stepwise, by decide +kernel, by decide +kernel, by decide +kernel, by decide +kernel, ?_⟩
  refine ⟨exWave.deps[1], by decide +kernel, rfl, [0, 0], [0, -3], [], ⟨by decide +kernel, by decide +kernel, by decide +kernel, by decide +kernel⟩, by decide +kernel⟩

/-- A loop nest with the dependences `(1, 0)` and `(0, 1)`. -/
def exInner : Prog where
  nvar := 2
  npar := 0
  stmts := [⟨2, 2, ⟨3, []⟩, [true, true], [[1, 0, 0], [0, 1, 0]], [.loop, .loop]⟩]
  deps := [
    ⟨0, 0, false, ⟨5, [⟨true, [-1, 0, 1, 0, -1]⟩, ⟨true, [0, -1, 0, 1, 0]⟩]⟩, ⟨5, []⟩, true, 0, [true, false], [.plus, .zero]⟩,
    ⟨0, 0, false, ⟨5, [⟨true, [-1, 0, 1, 0, 0]⟩, ⟨true, [0, -1, 0, 1, -1]⟩]⟩, ⟨5, []⟩, true, 1, [false, true], [.zero, .plus]⟩]
  hProps := [.loop, .loop]

def exInnerComp (d : Dep) (l : Nat) : Int := if d.satLevel = l then 1 else 0

theorem exInner_comp {d : Dep} (hd : d ∈ exInner.deps) {s t q : List Int} (h : exInner.Inst d s t q) {l : Nat} (hl : l < 2) :
    exInner.comp d l s t q = exInnerComp d l := by
  have hd : d = exInner.deps[0] ∨ d = exInner.deps[1] := by simpa [exInner] using hd
  rcases hd with rfl | rfl
  all_goals
    obtain ⟨i, j, rfl⟩ := length_two (h.hs : s.length = 2)
    obtain ⟨i', j', rfl⟩ := length_two (h.ht : t.length = 2)
    obtain rfl := List.length_eq_zero_iff.mp (h.hp : q.length = 0)
    have := h.sat
    simp [exInner, Cst.Sat, Row.Sat, aff, dot] at this
    interval_cases l <;> simp [Prog.comp, Prog.phi, Prog.row, exInner, aff, dot, exInnerComp] <;> omega

theorem exInner_info : exInner.Info := by
  refine info_check (fun d hd => ⟨_, _, _, signTable_const (exInnerComp d) (fun l hl s t q h => exInner_comp hd h hl) ?_, ?_⟩)
  all_goals
    have hd : d = exInner.deps[0] ∨ d = exInner.deps[1] := by simpa [exInner] using hd
    rcases hd with rfl | rfl
  · exact ⟨[0, 0], [1, 0], [], rfl, rfl, rfl, by decide +kernel⟩
  · exact ⟨[0, 0], [0, 1], [], rfl, rfl, rfl, by decide +kernel⟩
  · decide +kernel
  · decide +kernel

/-- With `--innerpar` the schedule is left as it is but the satisfaction data is changed as if there were
a wavefront: the inner loop of a nest is reported parallel although it carries a dependence (the data
was right before). -/
theorem C20_violated_innerpar : ∃ (p : Prog) (b : Band) (p' : Prog) (L : Loop), p.OK ∧ p.Info ∧ tileBands p = some [b] ∧
    createTileSchedule p b false true = some (p', true) ∧ p'.stmts = p.stmts ∧ loopIsParallel p' L = some true ∧
    ∃ d ∈ p'.deps, d.rar = false ∧ d.src ∈ L.stmts ∧ d.dest ∈ L.stmts ∧ ∃ s t q, p'.Inst d s t q ∧
      p'.TiedBelow d L.depth s t q ∧ p'.phi d.src L.depth s q ≠ p'.phi d.dest L.depth t q := by
  refine ⟨exInner, ⟨⟨0, [0]⟩, 2⟩, ((createTileSchedule exInner ⟨⟨0, [0]⟩, 2⟩ false true).map (·.1)).getD exInner, ⟨1, [0]⟩, by decide +kernel,
    exInner_info, by decide +kernel, by decide +kernel, by decide +kernel, by decide +kernel, ?_⟩
  refine ⟨{ exInner.deps[1] with satvec := [true, false] }, by decide +kernel, rfl, by decide, by decide, [0, 0], [0, 1], [],
    ⟨by decide +kernel, by decide +kernel, by decide +kernel, by decide +kernel⟩, ?_, by decide +kernel⟩
  intro l hl
  have : l = 0 := by have : l < 1 := hl; omega
  subst this
  decide +kernel

end Pluto
