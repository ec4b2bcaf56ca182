import Verif.Lemmas.IntraTile

/-! C35: permutable bands. `permutableBand` is `pluto_get_permutable_band`, `intraTileBand` is
`pluto_intra_tile_optimize_band`, which moves a loop of the band inwards. `Prog.Legal`:
Verif/Spec/Tile.lean; `Prog.Info`, `Complete`, `NonnegToScalar`, `permuteTime`: Verif/Spec/Polyloop.lean. -/

namespace Pluto

/-- C35. Any permutation of the levels of a band keeps all dependent pairs of its statements in order;
levels that are scalar for all statements of the band may only move outwards.
Missing for the full C35: dependences that no single level satisfies for all pairs (`Complete` excludes
them; there the claim is false, `C35_violated`), and dependences that are first satisfied at a scalar
level but have a negative component outside it (`NonnegToScalar` excludes them). -/
theorem C35_permute_partial (p : Prog) (hok : p.OK) (hleg : p.Legal) (hi : p.Info) (L : Loop) (b : Band)
    (h : permutableBand p L = some (some b)) (hc : Complete p L.stmts) (hn : NonnegToScalar p L.stmts)
    (perm : List Nat) (hp : perm.Perm (List.range b.width)) (hk : KeepsScalars p b perm) :
    ∀ d ∈ p.deps, d.rar = false → d.src ∈ b.loop.stmts → d.dest ∈ b.loop.stmts → ∀ s t q, p.Inst d s t q →
      LexBefore (permuteTime b.loop.depth b.width perm (p.timestamp d.src s q))
        (permuteTime b.loop.depth b.width perm (p.timestamp d.dest t q)) := by
  intro d hd hr hs ht s t q hin
  obtain ⟨hb, _, hle, _, _⟩ := permutableBand_spec h
  obtain ⟨d1, d2, _⟩ := hok.deps d hd
  have gs := List.getElem?_eq_getElem d1
  have gt := List.getElem?_eq_getElem d2
  have ls := hok.levels _ (List.mem_of_getElem? gs)
  have lt := hok.levels _ (List.mem_of_getElem? gt)
  have l1 : (p.timestamp d.src s q).length = p.hProps.length := by rw [timestamp_eq gs]; simp [Stmt.time, ls]
  have l2 : (p.timestamp d.dest t q).length = p.hProps.length := by rw [timestamp_eq gt]; simp [Stmt.time, lt]
  have hlt : ∀ m ∈ perm, m < b.width := fun m hm => by simpa using hp.mem_iff.mp hm
  unfold KeepsScalars at hk
  rw [hb] at hs ht hk ⊢
  refine lex_permute hp (by omega) (by omega) (hleg d hd hr s t q hin.hs hin.ht hin.hp hin.sat) (fun he A m B hAB hA => ?_)
  have hm := hlt m (by rw [hAB]; simp)
  have cg : ∀ m < b.width, p.comp d (L.depth + m) s t q =
      (p.timestamp d.dest t q).getD (L.depth + m) 0 - (p.timestamp d.src s q).getD (L.depth + m) 0 :=
    fun m hm => comp_get gs gt (by omega) (by omega) s t q
  rcases band_comp hi h hc hn hd hr hs ht hin (tied_of_take gs gt (by omega) (by omega) he) hm with x | ⟨m0, x1, x2, x3⟩
  · rw [cg m hm] at x
    omega
  · have := hA m0 (hk A m B hAB m0 x1 x2)
    rw [cg m0 (by omega)] at x3
    omega

/-- C35, making a loop innermost. Whatever loop of a band `pluto_intra_tile_optimize_band` selects (any
`best` that returns one of the given loops), moving it inwards before tiling keeps the schedule legal.
Missing as in `C35_permute_partial`; moreover levels that mix scalar and loop rows (`Uniform`, see
`C34_violated`). -/
theorem C35_innermost_partial (p : Prog) (hok : p.OK) (hleg : p.Legal) (hi : p.Info) (all : List Loop)
    (ha : getAllLoops p = some all) (L : Loop) (hL : L ∈ all) (b : Band) (h : permutableBand p L = some (some b))
    (hc : Complete p L.stmts) (hn : NonnegToScalar p L.stmts)
    (hU : Uniform p 0 p.hProps.length (List.range p.stmts.length)) (hps : PureScalars p)
    (best : Prog → List Loop → Option Loop) (hbest : ∀ p ls L, best p ls = some L → L ∈ ls) :
    ∃ p', intraTileBand best p b 0 = some p' ∧ p'.OK ∧ p'.Legal := by
  have hs := loopsUnder_spec _ _ _ _ List.nodup_range ha
  obtain ⟨hb, hw, hle, _, _⟩ := permutableBand_spec h
  have hr : ∀ i ∈ L.stmts, i < p.stmts.length := fun i hi => by simpa using (hs.sub L hL i hi).1
  have hdef : ∃ v, isBandInnermost p b 0 = some v := isBandInnermost_defined (by rw [hb]; exact hr) 0
  obtain ⟨v, hv⟩ := hdef
  unfold intraTileBand
  simp only [hv, Option.bind_eq_bind, Option.bind_some]
  by_cases c : v = true
  · subst c
    rw [if_pos rfl]
    obtain ⟨gs, g1, g2, g3, g4, g5⟩ := fuseBands_spec (p := p) (b := b) (k := 0) (R := fun _ _ => True)
      (by rw [hb]; exact hs.nodup L hL) (fun i _ j _ => ⟨true, by simp [fusedInBand], by simp⟩)
      (fun _ => trivial) (fun _ _ _ => trivial) (fun _ _ _ _ _ => trivial)
    rw [g1, Option.bind_some]
    have hUL : Uniform p L.depth p.hProps.length L.stmts := by
      intro l h1 h2 i hiL j hjL hag hsc
      refine hU l (by omega) h2 i (by simpa using hr i hiL) j (by simpa using hr j hjL) ?_ hsc
      intro l' _ a2 a3 a4
      rcases Nat.lt_or_ge l' L.depth with hlt | hge
      · exact C34_share_partial p _ List.nodup_range 0 all ha hU L hL i hiL j hjL l' (by omega) hlt a3 a4
      · exact hag l' hge a2 a3 a4
    have hinn := isBandInnermost_spec hv
    obtain ⟨p', k1, k2, k3, _⟩ := intraTileGroups_spec (S := b.loop.stmts) hbest (b := b) (k := 0) (gs := gs) hok hleg hps (fun g hg => by
      have hsub := (g2 g hg).2
      simp only [Nat.zero_mul, Nat.add_zero]
      rw [hb]
      have hgL : ∀ i ∈ g, i ∈ L.stmts := fun i hi => by rw [← hb]; exact hsub i hi
      have hLg : ∀ i ∈ g, ∀ j ∈ L.stmts, j ∈ g := fun i hi j hj => (g3 g hg i hi j (by rw [hb]; exact hj)).mpr trivial
      refine ⟨(g2 g hg).1, fun i hi => hr i (hgL i hi), ?_, ?_, ?_, ?_⟩
      · intro l h1 h2 i hi j hj
        exact hUL l h1 h2 i (hgL i hi) j (hgL j hj)
      · intro d hd hrar hne
        have := under_separated hok hleg List.nodup_range ha hU hps (all_separated hok 0) hL b.width d hd hrar
        refine this (fun hh => hne ?_)
        constructor
        · intro x; exact hLg _ x _ (hh.mp (hgL _ x))
        · intro x; exact hLg _ x _ (hh.mpr (hgL _ x))
      · intro d hd hrar h1 h2 s t q hin htied m hm
        rcases band_comp hi h hc hn hd hrar (hgL _ h1) (hgL _ h2) hin htied hm with x | ⟨m0, x1, x2, x3⟩
        · exact .inl x
        · exact .inr ⟨rfl, m0, x1, fun i hi => x2 i (hgL i hi), x3⟩
      · intro _ i hi l h1 h2
        have gi := List.getElem?_eq_getElem (hr i (hgL i hi))
        refine hinn i (hsub i hi) _ gi l ?_ ?_
        · rw [hb]; omega
        · rw [hok.levels _ (List.mem_of_getElem? gi)]; exact h2)
      (fun g hg => (g2 g hg).2) g5 (by rw [hb]; omega)
    exact ⟨p', k1, k2, k3⟩
  · rw [if_neg c, if_neg (by omega)]
    exact ⟨p, rfl, hok, hleg⟩

/-- C35, moving a parallel loop inwards, across scalar levels and other bands if need be, keeps the
schedule legal. `makeInnermost` is `pluto_make_innermost_loop`, called in this way by
`make_parallel_loop_innermost`. -/
theorem C35_parallel_innermost (p : Prog) (hok : p.OK) (hleg : p.Legal) (hi : p.Info) (L : Loop)
    (hpar : loopIsParallel p L = some true) (hnd : L.stmts.Nodup) (hr : ∀ i ∈ L.stmts, i < p.stmts.length)
    (hd : L.depth < p.hProps.length) (hns : ∀ i ∈ L.stmts, ¬ p.Scalar L.depth i) (w : Nat) (hsep : Separated p ⟨L, w⟩)
    (last : Nat) (hl : last ≤ p.hProps.length) (across : Bool) :
    ∃ p', makeInnermost p L last across = some p' ∧ p'.OK ∧ p'.Legal := by
  obtain ⟨p', n, h1, h2, h3, _⟩ := makeInnermost_rotated hok hnd hr hd hns hl across
  refine ⟨p', h1, h2.ok hok h3, h2.legal hok hleg h3 ?_ hsep⟩
  intro d hd hrar hs ht s t q hin htied
  right
  have := C21_parallel p hi L hpar d hd hrar hs ht s t q hin htied
  unfold Prog.comp
  omega

/-! ### Examples -/

instance (p : Prog) (b : Band) (perm : List Nat) : Decidable (KeepsScalars p b perm) :=
  decidable_of_iff (∀ k : Fin perm.length, ∀ m0 < perm[k], (∀ i ∈ b.loop.stmts, p.Scalar (b.loop.depth + m0) i) → m0 ∈ perm.take k) (by
    unfold KeepsScalars
    constructor
    · intro h A m B e m0 hm0 hs
      have := h ⟨A.length, by rw [e]; simp⟩ m0 (by simpa [e] using hm0) hs
      simpa [e] using this
    · intro h k m0 hm0 hs
      refine h (perm.take k) perm[k] (perm.drop (k + 1)) ?_ m0 hm0 hs
      simp)

/-- The band of the first nest of the tiling example; interchanging its loops is legal. -/
example : permutableBand exTile ⟨1, [0]⟩ = some (some ⟨⟨1, [0]⟩, 2⟩) ∧ KeepsScalars exTile ⟨⟨1, [0]⟩, 2⟩ [1, 0] ∧
    [1, 0].Perm (List.range 2) := by
  refine ⟨by decide +kernel, by decide +kernel, by decide +kernel⟩

theorem exTile_complete : Complete exTile [0] ∧ NonnegToScalar exTile [0] := by
  constructor
  · intro d hd _ _ ht
    refine ⟨1, by decide, fun s t q h => ?_⟩
    obtain ⟨i, j, n, rfl, rfl, ⟨e1, e2, rfl⟩ | ⟨_, e2, _⟩⟩ := exTile_pairs hd h.hs h.ht h.hp h.sat
    · simp [Prog.comp, Prog.phi, Prog.row, e1, e2, exTile, aff, dot]
    · rw [e2] at ht; simp at ht
  · intro d hd _ _ ht l0 hl0 hsc _ _ l hl
    have : l0 < 3 := hl0
    have h0 := hsc 0 (by simp)
    interval_cases l0
    · omega
    · exact absurd h0 (by decide +kernel)
    · exact absurd h0 (by decide +kernel)

theorem exTile_pure : PureScalars exTile := by
  rintro i l x q ⟨st, r, h1, h2, h3⟩ hx hq
  have hi : i < 2 := (List.getElem?_eq_some_iff.mp h1).1
  obtain ⟨n, rfl⟩ := length_one hq
  interval_cases i <;> simp only [exTile, List.getElem?_cons_zero, List.getElem?_cons_succ, Option.some.injEq] at h1 <;> subst h1 <;>
  (have hl : l < 3 := (List.getElem?_eq_some_iff.mp h2).1
   obtain ⟨a, b, rfl⟩ := length_two hx
   interval_cases l <;> simp at h2 <;> subst h2 <;> simp at h3 <;>
     simp [Prog.phi, Prog.const, Prog.row, exTile, aff, dot])

/-- The hypotheses of `C35_innermost_partial` hold for the example, and the loop moves. -/
example : Uniform exTile 0 exTile.hProps.length (List.range exTile.stmts.length) ∧
    (intraTileBand (fun _ ls => ls.getLast?) exTile ⟨⟨1, [0]⟩, 2⟩ 0).map (fun p => p.stmts.map (·.trans)) =
      some [[[0, 0, 0, 0], [1, 1, 0, 0], [1, 0, 0, 0]], [[0, 0, 0, 1], [1, 0, 0, 0], [0, 1, 0, 0]]] := by
  refine ⟨by decide +kernel, by decide +kernel⟩

/-! ### Violation -/

/-- One statement, three loops, identity schedule; `(0, 0, 32)` comes before `(1, 0, 31)` and
`(0, 1, 31)`.
No level separates both pairs, so the dependence is not marked satisfied. -/
def exLazy : Prog where
  nvar := 3
  npar := 0
  stmts := [⟨3, 3, ⟨4, []⟩, [true, true, true], [[1, 0, 0, 0], [0, 1, 0, 0], [0, 0, 1, 0]], [.loop, .loop, .loop]⟩]
  deps := [⟨0, 0, false, ⟨7, [⟨true, [1, 0, 0, 0, 0, 0, 0]⟩, ⟨true, [0, 1, 0, 0, 0, 0, 0]⟩, ⟨true, [0, 0, 1, 0, 0, 0, -32]⟩,
    ⟨true, [0, 0, 0, 1, 1, 0, -1]⟩, ⟨true, [0, 0, 0, 0, 0, 1, -31]⟩, ⟨false, [0, 0, 0, 1, 0, 0, 0]⟩,
    ⟨false, [0, 0, 0, 0, 1, 0, 0]⟩]⟩, ⟨7, []⟩, false, -1, [true, true, true], [.plus, .plus, .minus]⟩]
  hProps := [.loop, .loop, .loop]

theorem exLazy_pairs {d : Dep} (hd : d ∈ exLazy.deps) {s t q : List Int} (h : exLazy.Inst d s t q) :
    d = exLazy.deps[0] ∧ s = [0, 0, 32] ∧ q = [] ∧ (t = [1, 0, 31] ∨ t = [0, 1, 31]) := by
  have hd : d = exLazy.deps[0] := by simpa [exLazy] using hd
  subst hd
  obtain ⟨i, j, k, rfl⟩ := List.length_eq_three.mp (h.hs : s.length = 3)
  obtain ⟨i', j', k', rfl⟩ := List.length_eq_three.mp (h.ht : t.length = 3)
  obtain rfl := List.length_eq_zero_iff.mp (h.hp : q.length = 0)
  have := h.sat
  simp [exLazy, Cst.Sat, Row.Sat, aff, dot] at this
  refine ⟨rfl, ?_, rfl, ?_⟩
  · simp; omega
  · simp; omega

theorem exLazy_info : exLazy.Info := by
  refine info_check (fun d hd => ?_)
  have hd' : d = exLazy.deps[0] := by simpa [exLazy] using hd
  have i0 : exLazy.Inst d [0, 0, 32] [1, 0, 31] [] := by rw [hd']; exact ⟨rfl, rfl, rfl, by decide +kernel⟩
  have i1 : exLazy.Inst d [0, 0, 32] [0, 1, 31] [] := by rw [hd']; exact ⟨rfl, rfl, rfl, by decide +kernel⟩
  refine ⟨fun l => l == 2, fun l => l == 0 || l == 1, fun _ => false, ?_, by rw [hd']; decide +kernel⟩
  intro l hl
  have hl : l < 3 := hl
  have c0 : ∀ l < 3, exLazy.comp d l [0, 0, 32] [1, 0, 31] [] = if l = 0 then 1 else if l = 1 then 0 else -1 := by
    rw [hd']; decide +kernel
  have c1 : ∀ l < 3, exLazy.comp d l [0, 0, 32] [0, 1, 31] [] = if l = 0 then 0 else if l = 1 then 1 else -1 := by
    rw [hd']; decide +kernel
  refine ⟨⟨?_, ?_⟩, ⟨?_, ?_⟩, ⟨by simp, ?_⟩⟩
  · intro h; have e : l = 2 := by simpa using h
    exact ⟨_, _, _, i0, by rw [c0 l hl, e]; simp⟩
  · rintro ⟨s, t, q, h1, h2⟩
    obtain ⟨_, rfl, rfl, rfl | rfl⟩ := exLazy_pairs hd h1
    · rw [c0 l hl] at h2; interval_cases l <;> simp at h2 ⊢
    · rw [c1 l hl] at h2; interval_cases l <;> simp at h2 ⊢
  · intro h
    interval_cases l
    · exact ⟨_, _, _, i0, by rw [c0 0 (by omega)]; simp⟩
    · exact ⟨_, _, _, i1, by rw [c1 1 (by omega)]; simp⟩
    · simp at h
  · rintro ⟨s, t, q, h1, h2⟩
    obtain ⟨_, rfl, rfl, rfl | rfl⟩ := exLazy_pairs hd h1
    · rw [c0 l hl] at h2; interval_cases l <;> simp at h2 ⊢
    · rw [c1 l hl] at h2; interval_cases l <;> simp at h2 ⊢
  · intro h
    have a := h _ _ _ i0
    have b := h _ _ _ i1
    rw [c0 l hl] at a
    rw [c1 l hl] at b
    interval_cases l <;> simp at a b

theorem exLazy_legal : exLazy.Legal := by
  intro d hd _ s t q h1 h2 h3 h4
  obtain ⟨rfl, rfl, rfl, rfl | rfl⟩ := exLazy_pairs hd ⟨h1, h2, h3, h4⟩ <;> decide +kernel

/-- C35 is violated by `pluto_get_permutable_band` when a dependence is satisfied by several levels
together but by none of them alone: the schedule is legal, the recorded data is right, all three loops
are reported as a permutable band, but putting the last one first reverses a dependent pair. -/
theorem C35_violated : ∃ (p : Prog) (all : List Loop) (L : Loop) (b : Band) (perm : List Nat),
    p.OK ∧ p.Legal ∧ p.Info ∧ getAllLoops p = some all ∧ L ∈ all ∧ permutableBand p L = some (some b) ∧
    perm.Perm (List.range b.width) ∧ (∀ i ∈ b.loop.stmts, ∀ l < p.hProps.length, ¬ p.Scalar l i) ∧
    ∃ d ∈ p.deps, d.rar = false ∧ d.src ∈ b.loop.stmts ∧ d.dest ∈ b.loop.stmts ∧ ∃ s t q, p.Inst d s t q ∧
      LexBefore (permuteTime b.loop.depth b.width perm (p.timestamp d.dest t q))
        (permuteTime b.loop.depth b.width perm (p.timestamp d.src s q)) := by
  refine ⟨exLazy, [⟨2, [0]⟩, ⟨1, [0]⟩, ⟨0, [0]⟩], ⟨0, [0]⟩, ⟨⟨0, [0]⟩, 3⟩, [2, 0, 1], by decide +kernel, exLazy_legal, exLazy_info,
    by decide +kernel, by decide, by decide +kernel, by decide, by decide +kernel, exLazy.deps[0], by decide, rfl, by decide, by decide,
    [0, 0, 32], [1, 0, 31], [], ⟨rfl, rfl, rfl, by decide +kernel⟩, by decide +kernel⟩

/-- The same schedule tiled with the default sizes: the band is the outermost band found by the code,
no level is scalar, but the tiled schedule is not legal. -/
theorem C35_violated_tiling : ∃ (p : Prog) (bands : List Band) (p' : Prog), p.OK ∧ p.Legal ∧ p.Info ∧ BandsOK p bands ∧
    outermostBands p = some bands ∧ (∀ b ∈ bands, Unmixed p b ∧ Separated p b) ∧
    tileScatteringDims p bands (fun _ _ => 32) = some p' ∧ ¬ p'.Legal := by
  obtain ⟨p', hp'⟩ : ∃ p', tileScatteringDims exLazy [⟨⟨0, [0]⟩, 3⟩] (fun _ _ => 32) = some p' :=
    Option.isSome_iff_exists.mp (by decide +kernel)
  refine ⟨exLazy, [⟨⟨0, [0]⟩, 3⟩], p', by decide +kernel, exLazy_legal, exLazy_info, by decide +kernel, by decide +kernel, ?_, hp', ?_⟩
  · intro b hb
    simp only [List.mem_singleton] at hb
    subst hb
    refine ⟨?_, ?_⟩
    · intro i hi j hj x y q _ _ _ m hm h1 h2 _
      exfalso
      simp at hi hj
      subst hi; subst hj
      exact h2 h1
    · intro d hd _ hne
      have hd' : d = exLazy.deps[0] := by simpa [exLazy] using hd
      subst hd'
      exact absurd hne (by decide +kernel)
  · intro hl
    have e1 : p'.deps[0]?.map (fun d => (d.src, d.dest, d.rar)) = some (0, 0, false) := by
      have : (tileScatteringDims exLazy [⟨⟨0, [0]⟩, 3⟩] (fun _ _ => 32)).bind
          (fun p' => p'.deps[0]?.map (fun d => (d.src, d.dest, d.rar))) = some (0, 0, false) := by decide +kernel
      rwa [hp'] at this
    have e2 : (tileScatteringDims exLazy [⟨⟨0, [0]⟩, 3⟩] (fun _ _ => 32)).map
        (fun p' => decide (p'.npar = 0 ∧ p'.dim 0 = 6 ∧
          (∀ d ∈ p'.deps, d.dpoly.Sat ([0, 0, 1, 0, 0, 32] ++ [0, 0, 0, 1, 0, 31] ++ [] : List Int)) ∧
          ¬ LexBefore (p'.timestamp 0 [0, 0, 1, 0, 0, 32] []) (p'.timestamp 0 [0, 0, 0, 1, 0, 31] []))) = some true := by
      decide +kernel
    rw [hp'] at e2
    simp only [Option.map_some, Option.some.injEq, decide_eq_true_eq] at e2
    obtain ⟨n0, d0, hsat, hnl⟩ := e2
    cases hd : p'.deps[0]? with
    | none => rw [hd] at e1; simp at e1
    | some d =>
      rw [hd] at e1
      simp only [Option.map_some, Option.some.injEq, Prod.mk.injEq] at e1
      obtain ⟨s1, s2, s3⟩ := e1
      have hm := List.mem_of_getElem? hd
      have := hl d hm s3 [0, 0, 1, 0, 0, 32] [0, 0, 0, 1, 0, 31] [] (by rw [s1, d0]; rfl) (by rw [s2, d0]; rfl) (by rw [n0]; rfl) (hsat d hm)
      rw [s1, s2] at this
      exact hnl this

end Pluto
