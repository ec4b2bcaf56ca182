import Verif.Lemmas.Mark
import Verif.Lemmas.Jam
import Verif.Lemmas.InfoCheck
import Verif.Props.Band
import Verif.Props.TileBands

/-! C53: loops that are marked parallel or for vectorization. C54: loops that are unrolled and jammed. -/

namespace Pluto

/-- C53, dominating loops. The loops reported by `pluto_get_dom_parallel_loops` are parallel loops of the
program, no two share a statement, and every parallel loop lies inside (or is) one of them. -/
theorem C53_dominating (p : Prog) (hi : p.Info) (hU : Uniform p 0 p.hProps.length (List.range p.stmts.length))
    (all ls ds : List Loop) (ha : getAllLoops p = some all) (hl : parallelLoops p = some ls) (hd : domParallelLoops p = some ds) :
    (∀ L ∈ ds, L ∈ ls ∧ CarriesNone p L.stmts L.depth) ∧
    (∀ L ∈ ds, ∀ M ∈ ds, ∀ i ∈ L.stmts, i ∈ M.stmts → L = M) ∧
    ∀ L ∈ ls, ∃ M ∈ ds, M.depth ≤ L.depth ∧ ∀ i ∈ L.stmts, i ∈ M.stmts := by
  unfold domParallelLoops at hd
  rw [hl, Option.bind_eq_bind, Option.bind_some] at hd
  have hm := (parallelLoops_mem ha hl).2
  obtain ⟨h1, h2, h3⟩ := undominated_cover ha hU (fun L hL => (hm L hL).1) hd
  exact ⟨fun L hL => ⟨h1 L hL, parallel_spec hi (hm L (h1 L hL)).2⟩, h2, h3⟩

/-- C53, outermost loops. The loops reported by `pluto_get_outermost_loops` are loops of the program, no two
share a statement, and every loop lies inside (or is) one of them. -/
theorem C53_outermost (p : Prog) (hU : Uniform p 0 p.hProps.length (List.range p.stmts.length))
    (all ls : List Loop) (ha : getAllLoops p = some all) (h : outermostLoops p = some ls) :
    (∀ L ∈ ls, L ∈ all) ∧ (∀ L ∈ ls, ∀ M ∈ ls, ∀ i ∈ L.stmts, i ∈ M.stmts → L = M) ∧
    ∀ L ∈ all, ∃ M ∈ ls, M.depth ≤ L.depth ∧ ∀ i ∈ L.stmts, i ∈ M.stmts := by
  unfold outermostLoops at h
  rw [ha, Option.bind_eq_bind, Option.bind_some] at h
  exact undominated_cover ha hU (fun L hL => hL) h

/-- C53, innermost loops. `pluto_get_innermost_loops` reports exactly the loops below which all levels are
scalar. -/
theorem C53_innermost (p : Prog) (all ls : List Loop) (ha : getAllLoops p = some all) (h : innermostLoops p = some ls) :
    ∀ L, L ∈ ls ↔ L ∈ all ∧ ∀ i ∈ L.stmts, ∀ l, L.depth < l → l < p.hProps.length → p.Scalar l i := by
  unfold innermostLoops at h
  rw [ha] at h
  simp only [Option.bind_eq_bind, Option.bind_some, Option.bind_eq_some_iff, pure, Option.some.injEq] at h
  obtain ⟨bs, h1, rfl⟩ := h
  have hf := mapM_forall₂ _ _ _ h1
  have hs := all_spec ha
  intro L
  constructor
  · intro hL
    simp only [List.mem_map, List.mem_filter] at hL
    obtain ⟨x, ⟨x1, x2⟩, rfl⟩ := hL
    have hm := (List.of_mem_zip x1).1
    have := (List.forall₂_iff_zip.mp hf).2 x1
    rw [x2] at this
    exact ⟨hm, innermost_scalar (hs.nodup _ hm) this⟩
  · rintro ⟨hL, hsc⟩
    obtain ⟨n, hn, rfl⟩ := List.getElem_of_mem hL
    have hn' : n < bs.length := by rw [← hf.length_eq]; exact hn
    have hg := hf.get hn hn'
    simp only [List.get_eq_getElem] at hg
    refine List.mem_map.mpr ⟨(all[n], bs[n]), List.mem_filter.mpr ⟨?_, ?_⟩, rfl⟩
    · rw [List.mem_iff_getElem]
      exact ⟨n, by simp; omega, by simp⟩
    · show bs[n] = true
      unfold loopIsInnermost at hg
      simp only [Option.bind_eq_bind, Option.bind_eq_some_iff, pure, Option.some.injEq] at hg
      obtain ⟨xs, k1, k2⟩ := hg
      rw [← k2, List.isEmpty_iff]
      by_contra hne
      obtain ⟨M, hM⟩ := List.exists_mem_of_ne_nil _ hne
      have hs' := loopsUnder_spec _ _ _ _ (hs.nodup _ hL) k1
      obtain ⟨i, hi⟩ := List.exists_mem_of_ne_nil _ (hs'.ne M hM)
      have := hs'.sub M hM i hi
      have h1 := hs'.lo M hM
      have h2 := hs'.hi M hM
      exact this.2 (hsc i this.1 M.depth (by omega) (by omega))

/-- C53, bands. Every level of a band reported by `pluto_get_parallel_band` carries no dependence; its first
and last level are loops; the split level is the last one before a scalar level.
Missing for the full claim: dependences that no single level satisfies for all pairs (`Complete` excludes
them; there the claim is false, `C53_violated_band`). -/
theorem C53_band_partial (p : Prog) (hi : p.Info) (L : Loop) (hd : L.depth < p.hProps.length) (b : Band) (split : Nat)
    (h : parallelBand p L = some (b, split)) (hc : Complete p L.stmts) :
    b.loop = L ∧ L.depth + b.width ≤ p.hProps.length ∧ (∀ m < b.width, CarriesNone p L.stmts (L.depth + m)) ∧
    (¬ ∀ i ∈ L.stmts, p.Scalar L.depth i) ∧ (0 < b.width → ¬ ∀ i ∈ L.stmts, p.Scalar (L.depth + (b.width - 1)) i) ∧
    L.depth ≤ split ∧ (0 < b.width → split < L.depth + b.width) ∧
    (∀ k, L.depth < k → k ≤ split → ¬ ∀ i ∈ L.stmts, p.Scalar k i) ∧
    (split + 1 < L.depth + b.width → ∀ i ∈ L.stmts, p.Scalar (split + 1) i) := by
  obtain ⟨h1, h2, h3, h4, _, h6⟩ := parallelBand_spec h
  obtain ⟨s1, s2, s3, s4⟩ := splitLevel_spec h6
  refine ⟨h1, h3 hd, fun m hm => parallelBand_none hi h hd hc hm, h2, h4, s1, fun _ => by omega, fun k k1 k2 hall => ?_, fun hlt => ?_⟩
  · have := (isDepthScalar_iff (s3 k k1 k2)).mpr hall
    cases this
  · exact (isDepthScalar_iff (s4 (by omega))).mp rfl

/-- C53. If every dominating parallel loop still has a loop in the AST, then all loops that
`pluto_mark_parallel` marks are loops of the AST that carry no dependence, marked loops that share a statement
are at the same level, and every loop of the AST that is (a part of) a dominating parallel loop is marked.
Missing for the full claim: dominating parallel loops without any loop in the AST (then it is false,
`C53_violated`). -/
theorem C53_mark_partial (p : Prog) (hi : p.Info) (hU : Uniform p 0 p.hProps.length (List.range p.stmts.length))
    (ds : List Loop) (hd : domParallelLoops p = some ds) (ast ms : List AstLoop)
    (hast : ∀ L ∈ ds, ∃ a ∈ ast, a.depth = L.depth ∧ ∀ i ∈ a.stmts, i ∈ L.stmts) (h : markParallel p ast = some ms) :
    (∀ a ∈ ms, a ∈ ast ∧ CarriesNone p a.stmts a.depth) ∧
    (∀ a ∈ ms, ∀ a' ∈ ms, ∀ i ∈ a.stmts, i ∈ a'.stmts → a.depth = a'.depth) ∧
    ∀ L ∈ ds, ∀ a ∈ ast, a.depth = L.depth → (∀ i ∈ a.stmts, i ∈ L.stmts) → a ∈ ms := by
  obtain ⟨ds', bands, k1, k2, _, k4, k5⟩ := markParallel_spec h
  rw [hd] at k1
  obtain rfl := Option.some.inj k1
  obtain ⟨ls, hls⟩ : ∃ ls, parallelLoops p = some ls := by
    unfold domParallelLoops at hd
    rw [Option.bind_eq_bind, Option.bind_eq_some_iff] at hd
    exact ⟨hd.choose, hd.choose_spec.1⟩
  obtain ⟨all, ha⟩ : ∃ all, getAllLoops p = some all := by
    unfold parallelLoops at hls
    rw [Option.bind_eq_bind, Option.bind_eq_some_iff] at hls
    exact ⟨hls.choose, hls.choose_spec.1⟩
  have hs := all_spec ha
  obtain ⟨d1, d2, d3⟩ := C53_dominating p hi hU all ls ds ha hls hd
  have hfil : ∀ L ∈ ds, clastFilter ast L ≠ [] := by
    intro L hL
    obtain ⟨a, a1, a2, a3⟩ := hast L hL
    exact List.ne_nil_of_mem (mem_clastFilter.mpr ⟨a1, a2, a3⟩)
  have hband : ∀ b ∈ bands, b.1.loop ∈ ds ∧ ∀ xs, markBand p ast b.1 (p.hProps.length + 1) b.1.loop = some xs →
      xs = clastFilter ast b.1.loop := by
    intro b hb
    obtain ⟨L, hL, hLb⟩ := forall₂_mem_right k2 hb
    have e := (parallelBand_spec (b := b.1) (sp := b.2) hLb).1
    rw [e]
    refine ⟨hL, fun xs hx => ?_⟩
    rw [← e] at hx
    have hLa := ((parallelLoops_mem ha hls).2 L (d1 L hL).1).1
    have := (markBand_spec hx (by rw [e]; exact hs.nodup L hLa) (le_refl _) (by omega) (fun s hs => hs)).2.2 (by omega)
      (by rw [e]; exact hfil L hL)
    rw [this, e]
  have hfrom : ∀ a ∈ ms, ∃ L ∈ ds, a ∈ clastFilter ast L := by
    intro a ham
    obtain ⟨b, hb, xs, hx, hax⟩ := k4 a ham
    obtain ⟨e1, e2⟩ := hband b hb
    exact ⟨_, e1, e2 xs hx ▸ hax⟩
  refine ⟨fun a ham => ?_, fun a ham a' ham' i hi1 hi2 => ?_, fun L hL a ha1 ha2 ha3 => ?_⟩
  · obtain ⟨L, hL, hm⟩ := hfrom a ham
    obtain ⟨x1, x2, x3⟩ := mem_clastFilter.mp hm
    refine ⟨x1, fun d hd hr hs ht s t q hin htied => ?_⟩
    rw [x2] at htied ⊢
    exact (d1 L hL).2 d hd hr (x3 _ hs) (x3 _ ht) s t q hin htied
  · obtain ⟨L, hL, hm⟩ := hfrom a ham
    obtain ⟨L', hL', hm'⟩ := hfrom a' ham'
    obtain ⟨x1, x2, x3⟩ := mem_clastFilter.mp hm
    obtain ⟨y1, y2, y3⟩ := mem_clastFilter.mp hm'
    have := d2 L hL L' hL' i (x3 i hi1) (y3 i hi2)
    subst this
    omega
  · obtain ⟨n, hn, rfl⟩ := List.getElem_of_mem hL
    have hn' : n < bands.length := by rw [← k2.length_eq]; exact hn
    have hg := k2.get hn hn'
    simp only [List.get_eq_getElem] at hg
    have e := (parallelBand_spec (b := bands[n].1) (sp := bands[n].2) hg).1
    obtain ⟨xs, hx, hsub⟩ := k5 bands[n] (List.getElem_mem _)
    have := (hband _ (List.getElem_mem hn')).2 xs hx
    rw [this] at hsub
    rw [e] at hsub
    exact hsub a (mem_clastFilter.mpr ⟨ha1, ha2, ha3⟩)

/-- C53, whatever the AST. A loop that `pluto_mark_parallel` marks is a loop of the AST that carries no
dependence, or else lies right below a parallel band. Marked loops that share a statement are at the same level.
Missing for the full claim: the second case is wrong (`C53_violated`); `Complete` as in `C53_band_partial`. -/
theorem C53_mark_any_partial (p : Prog) (hi : p.Info) (hU : Uniform p 0 p.hProps.length (List.range p.stmts.length))
    (hc : Complete p (List.range p.stmts.length)) (ds : List Loop) (hd : domParallelLoops p = some ds)
    (ast ms : List AstLoop) (h : markParallel p ast = some ms) :
    (∀ a ∈ ms, a ∈ ast ∧ (CarriesNone p a.stmts a.depth ∨ ∃ L ∈ ds, (∀ i ∈ a.stmts, i ∈ L.stmts) ∧
      (∀ k, L.depth ≤ k → k < a.depth → CarriesNone p L.stmts k) ∧
      ∃ b split, parallelBand p L = some (b, split) ∧ a.depth = L.depth + b.width)) ∧
    ∀ a ∈ ms, ∀ a' ∈ ms, ∀ i ∈ a.stmts, i ∈ a'.stmts → a.depth = a'.depth := by
  obtain ⟨ds', bands, k1, k2, k3, k4, k5⟩ := markParallel_spec h
  rw [hd] at k1
  obtain rfl := Option.some.inj k1
  obtain ⟨ls, hls⟩ : ∃ ls, parallelLoops p = some ls := by
    unfold domParallelLoops at hd
    rw [Option.bind_eq_bind, Option.bind_eq_some_iff] at hd
    exact ⟨hd.choose, hd.choose_spec.1⟩
  obtain ⟨all, ha⟩ : ∃ all, getAllLoops p = some all := by
    unfold parallelLoops at hls
    rw [Option.bind_eq_bind, Option.bind_eq_some_iff] at hls
    exact ⟨hls.choose, hls.choose_spec.1⟩
  have hs := all_spec ha
  obtain ⟨d1, d2, d3⟩ := C53_dominating p hi hU all ls ds ha hls hd
  have hall : ∀ L ∈ ds, L ∈ all := fun L hL => ((parallelLoops_mem ha hls).2 L (d1 L hL).1).1
  have hfrom : ∀ a ∈ ms, ∃ L ∈ ds, ∃ b sp xs, parallelBand p L = some (b, sp) ∧ b.loop = L ∧
      markBand p ast b (p.hProps.length + 1) L = some xs ∧ a ∈ xs := by
    intro a ham
    obtain ⟨b, hb, xs, hx, hax⟩ := k4 a ham
    obtain ⟨L, hL, hLb⟩ := forall₂_mem_right k2 hb
    have e := (parallelBand_spec (b := b.1) (sp := b.2) hLb).1
    exact ⟨L, hL, b.1, b.2, xs, hLb, e, e ▸ hx, hax⟩
  have hspec : ∀ L ∈ ds, ∀ b xs, b.loop = L → markBand p ast b (p.hProps.length + 1) L = some xs →
      (∀ a ∈ xs, a ∈ ast ∧ (∀ s ∈ a.stmts, s ∈ L.stmts) ∧ L.depth ≤ a.depth ∧ a.depth ≤ L.depth + b.width) ∧
      (∀ a ∈ xs, ∀ a' ∈ xs, a.depth = a'.depth) := by
    intro L hL b xs e hx
    have := markBand_spec hx (hs.nodup L (hall L hL)) (by rw [e]) (by rw [e]; omega) (by rw [e]; exact fun s hs => hs)
    rw [e] at this
    exact ⟨this.1, this.2.1⟩
  refine ⟨fun a ham => ?_, fun a ham a' ham' i hi1 hi2 => ?_⟩
  · obtain ⟨L, hL, b, sp, xs, hLb, e, hx, hax⟩ := hfrom a ham
    obtain ⟨x1, x2, x3, x4⟩ := (hspec L hL b xs e hx).1 a hax
    have hdep := hs.hi L (hall L hL)
    have hcL : Complete p L.stmts := fun d hd hr hs' ht =>
      hc d hd hr (hs.sub L (hall L hL) _ hs').1 (hs.sub L (hall L hL) _ ht).1
    have hn : ∀ k, L.depth ≤ k → k < L.depth + b.width → CarriesNone p L.stmts k := by
      intro k h1 h2
      have := parallelBand_none hi hLb (by omega) hcL (m := k - L.depth) (by omega)
      rwa [show L.depth + (k - L.depth) = k by omega] at this
    refine ⟨x1, ?_⟩
    rcases Nat.lt_or_ge a.depth (L.depth + b.width) with hlt | hge
    · left
      intro d hd hr hs ht
      exact hn a.depth x3 hlt d hd hr (x2 _ hs) (x2 _ ht)
    · right
      exact ⟨L, hL, x2, fun k h1 h2 => hn k h1 (by omega), b, sp, hLb, by omega⟩
  · obtain ⟨L, hL, b, sp, xs, hLb, e, hx, hax⟩ := hfrom a ham
    obtain ⟨L', hL', b', sp', xs', hLb', e', hx', hax'⟩ := hfrom a' ham'
    have y := (hspec L hL b xs e hx).1 a hax
    have y' := (hspec L' hL' b' xs' e' hx').1 a' hax'
    have := d2 L hL L' hL' i (y.2.1 i hi1) (y'.2.1 i hi2)
    subst this
    rw [hLb] at hLb'
    obtain ⟨rfl, rfl⟩ := Prod.mk.inj (Option.some.inj hLb')
    rw [hx] at hx'
    obtain rfl := Option.some.inj hx'
    exact (hspec L hL b xs e hx).2 a hax a' hax'

/-- C53, vectorization. All loops that `pluto_mark_vector` marks are loops of the AST that carry no dependence
and have no loop level below them. -/
theorem C53_vector (p : Prog) (hi : p.Info) (ast ms : List AstLoop) (h : markVector p ast = some ms) :
    ∀ a ∈ ms, a ∈ ast ∧ CarriesNone p a.stmts a.depth ∧
      ∀ i ∈ a.stmts, ∀ l, a.depth < l → l < p.hProps.length → p.Scalar l i := by
  intro a ham
  unfold markVector at h
  simp only [Option.bind_eq_bind, Option.bind_eq_some_iff, pure, Option.some.injEq] at h
  obtain ⟨ls, hls, bs, h2, rfl⟩ := h
  obtain ⟨xs, hx, hax⟩ := List.mem_flatten.mp ham
  simp only [List.mem_map, List.mem_filter] at hx
  obtain ⟨x, ⟨x1, x2⟩, rfl⟩ := hx
  have hinn := (List.forall₂_iff_zip.mp (mapM_forall₂ _ _ _ h2)).2 x1
  rw [x2] at hinn
  obtain ⟨all, ha⟩ : ∃ all, getAllLoops p = some all := by
    unfold parallelLoops at hls
    rw [Option.bind_eq_bind, Option.bind_eq_some_iff] at hls
    exact ⟨hls.choose, hls.choose_spec.1⟩
  have hm := (parallelLoops_mem ha hls).2 x.1 (List.of_mem_zip x1).1
  obtain ⟨y1, y2, y3⟩ := mem_clastFilter.mp hax
  refine ⟨y1, ?_, ?_⟩
  · intro d hd hr hs ht s t q hin htied
    rw [y2] at htied ⊢
    exact parallel_spec hi hm.2 d hd hr (y3 _ hs) (y3 _ ht) s t q hin htied
  · intro i hia l h1 h2
    exact innermost_scalar ((all_spec ha).nodup _ hm.1) hinn i (y3 i hia) l (by omega) h2

/-- C54. The loops reported by `pluto_get_unroll_jam_loops` have loops inside, and if the permutable bands
that they are taken from reach down to the innermost loops, then unroll-jam of any of them keeps all
dependences, for every unroll factor and every alignment. `e` is the end of the loop levels.
Missing for the full claim: bands that end above the innermost loops (then it is false, `C54_violated`);
`Complete` and `NonnegToScalar` as for C35. -/
theorem C54_jam_partial (p : Prog) (hok : p.OK) (hleg : p.Legal) (hi : p.Info) (want : Loop → Bool) (ls : List Loop)
    (h : unrollJamLoops p want = some ls) (L : Loop) (hL : L ∈ ls)
    (hc : Complete p (List.range p.stmts.length)) (hn : ∀ stmts, NonnegToScalar p stmts) (e : Nat) (hLe : L.depth < e)
    (he : ∀ bands, innermostBands p 1 = some bands → ∀ b ∈ bands, (∀ i ∈ L.stmts, i ∈ b.loop.stmts) →
      e ≤ b.loop.depth + b.width) (u : Int) (hu : 0 < u) :
    (∃ i ∈ L.stmts, ∃ l, L.depth < l ∧ l < p.hProps.length ∧ ¬ p.Scalar l i) ∧ JamLegal p L.stmts L.depth e u := by
  obtain ⟨_, hinn, bands, hbs, b, hb, loops, hlo, hLl⟩ := unrollJam_mem h hL
  obtain ⟨all, ha, hball, hperm, _⟩ := innermostBands_mem hbs hb
  have hs := all_spec ha
  have hs' := loopsUnder_spec _ _ _ _ (hs.nodup _ hball) hlo
  have hsub : ∀ i ∈ L.stmts, i ∈ b.loop.stmts := fun i hi => (hs'.sub L hLl i hi).1
  have hlow := hs'.lo L hLl
  have hend := he bands hbs b hb hsub
  constructor
  · unfold loopIsInnermost at hinn
    simp only [Option.bind_eq_bind, Option.bind_eq_some_iff, pure, Option.some.injEq] at hinn
    obtain ⟨xs, k1, k2⟩ := hinn
    have hne : xs ≠ [] := by rintro rfl; simp at k2
    obtain ⟨M, hM⟩ := List.exists_mem_of_ne_nil _ hne
    have hs2 := loopsUnder_spec _ _ _ _ (hs'.nodup L hLl) k1
    obtain ⟨i, hiM⟩ := List.exists_mem_of_ne_nil _ (hs2.ne M hM)
    have := hs2.sub M hM i hiM
    have h1 := hs2.lo M hM
    have h2 := hs2.hi M hM
    exact ⟨i, this.1, M.depth, by omega, by omega, this.2⟩
  · intro d hd hr hsr htg s t q hin o
    obtain ⟨d1, d2, _⟩ := hok.deps d hd
    have gs := List.getElem?_eq_getElem d1
    have gt := List.getElem?_eq_getElem d2
    have lls := hok.levels _ (List.mem_of_getElem? gs)
    have llt := hok.levels _ (List.mem_of_getElem? gt)
    have l1 : (p.timestamp d.src s q).length = p.hProps.length := by rw [timestamp_eq gs]; simp [Stmt.time, lls]
    have l2 : (p.timestamp d.dest t q).length = p.hProps.length := by rw [timestamp_eq gt]; simp [Stmt.time, llt]
    obtain ⟨_, _, hle, _, _⟩ := permutableBand_spec hperm
    have hcb : Complete p b.loop.stmts := fun d hd hr hs' ht =>
      hc d hd hr (hs.sub b.loop hball _ hs').1 (hs.sub b.loop hball _ ht).1
    refine lex_jam hu hLe (by omega) (by omega) (hleg d hd hr s t q hin.hs hin.ht hin.hp hin.sat) (fun htk l hl1 hl2 heq => ?_)
    have htied : p.TiedBelow d L.depth s t q := tied_of_take gs gt (by omega) (by omega) htk
    have cg : ∀ l < p.hProps.length, p.comp d l s t q =
        (p.timestamp d.dest t q).getD l 0 - (p.timestamp d.src s q).getD l 0 :=
      fun l hl => comp_get gs gt (by omega) (by omega) s t q
    have := cg l (by omega)
    rcases band_comp hi hperm hcb (hn _) hd hr (hsub _ hsr) (hsub _ htg) hin (fun l hl => htied l (by omega))
      (m := l - b.loop.depth) (by omega) with h0 | ⟨m0, x1, x2, x3⟩
    · rw [show b.loop.depth + (l - b.loop.depth) = l by omega] at h0
      omega
    · exfalso
      rcases Nat.lt_trichotomy (b.loop.depth + m0) L.depth with c | c | c
      · have := htied _ c; omega
      · rw [c] at x2
        exact (hs'.sub L hLl _ hsr).2 (x2 _ (hsub _ hsr))
      · have y := heq _ c (by omega)
        have := cg (b.loop.depth + m0) (by omega)
        omega

/-! ### Examples and violations -/

/-- One statement, two loops, identity schedule; `(i, j)` comes before `(i, j + 1)`:
`for (i = 0; i < N; i++) for (j = 0; j < M; j++) a[i][j] = f(a[i][j-1])`. -/
def exMark : Prog where
  nvar := 2
  npar := 0
  stmts := [⟨2, 2, ⟨3, []⟩, [true, true], [[1, 0, 0], [0, 1, 0]], [.loop, .loop]⟩]
  deps := [⟨0, 0, false, ⟨5, [⟨true, [-1, 0, 1, 0, 0]⟩, ⟨true, [0, -1, 0, 1, -1]⟩]⟩, ⟨5, []⟩, true, 1, [false, true], [.zero, .plus]⟩]
  hProps := [.loop, .loop]

theorem exMark_pairs {d : Dep} (hd : d ∈ exMark.deps) {s t q : List Int} (h : exMark.Inst d s t q) :
    ∃ i j : Int, d = exMark.deps[0] ∧ s = [i, j] ∧ q = [] ∧ t = [i, j + 1] := by
  have hd : d = exMark.deps[0] := by simpa [exMark] using hd
  subst hd
  obtain ⟨i, j, rfl⟩ := List.length_eq_two.mp (h.hs : s.length = 2)
  obtain ⟨i', j', rfl⟩ := List.length_eq_two.mp (h.ht : t.length = 2)
  obtain rfl := List.length_eq_zero_iff.mp (h.hp : q.length = 0)
  have := h.sat
  simp [exMark, Cst.Sat, Row.Sat, aff, dot] at this
  exact ⟨i, j, rfl, rfl, rfl, by simp; omega⟩

theorem exMark_comp {d : Dep} (hd : d ∈ exMark.deps) {s t q : List Int} (h : exMark.Inst d s t q) {l : Nat} (hl : l < 2) :
    exMark.comp d l s t q = if l = 0 then 0 else 1 := by
  obtain ⟨i, j, rfl, rfl, rfl, rfl⟩ := exMark_pairs hd h
  interval_cases l <;> simp [Prog.comp, Prog.phi, Prog.row, exMark, aff, dot]

theorem exMark_inst : exMark.Inst exMark.deps[0] [0, 0] [0, 1] [] := ⟨rfl, rfl, rfl, by decide +kernel⟩

theorem exMark_info : exMark.Info := by
  refine info_check (fun d hd => ⟨fun _ => false, fun l => l == 1, fun l => l == 1, ?_, ?_⟩)
  · have hd' : d = exMark.deps[0] := by simpa [exMark] using hd
    have hin : exMark.Inst d [0, 0] [0, 1] [] := by rw [hd']; exact exMark_inst
    intro l hl
    have hl : l < 2 := hl
    refine ⟨⟨by simp, ?_⟩, ⟨?_, ?_⟩, ⟨?_, ?_⟩⟩
    · rintro ⟨s, t, q, h1, h2⟩
      rw [exMark_comp hd h1 hl] at h2; split_ifs at h2 <;> omega
    · intro h
      have e : l = 1 := by simpa using h
      exact ⟨_, _, _, hin, by rw [exMark_comp hd hin hl, e]; simp⟩
    · rintro ⟨s, t, q, h1, h2⟩
      rw [exMark_comp hd h1 hl] at h2
      interval_cases l <;> simp at h2 ⊢
    · intro h s t q h1
      have e : l = 1 := by simpa using h
      rw [exMark_comp hd h1 hl, e]; simp
    · intro h
      have := h _ _ _ hin
      rw [exMark_comp hd hin hl] at this
      interval_cases l <;> simp at this ⊢
  · have hd' : d = exMark.deps[0] := by simpa [exMark] using hd
    rw [hd']; decide +kernel

theorem exMark_stepwise : Stepwise exMark := by
  intro d hd _
  refine ⟨1, by decide, fun s t q h => by rw [exMark_comp hd h (by omega)]; simp, fun l hl s t q h => ?_⟩
  have : l = 0 := by omega
  rw [exMark_comp hd h (by omega), this]; simp

/-- The hypotheses of C53 are met by the example, with both loops in the AST: only the outer loop is marked
parallel, none for vectorization. -/
example : exMark.OK ∧ exMark.Info ∧ Uniform exMark 0 exMark.hProps.length (List.range exMark.stmts.length) ∧
    Complete exMark (List.range exMark.stmts.length) ∧
    getAllLoops exMark = some [⟨1, [0]⟩, ⟨0, [0]⟩] ∧ parallelLoops exMark = some [⟨0, [0]⟩] ∧
    domParallelLoops exMark = some [⟨0, [0]⟩] ∧ parallelBand exMark ⟨0, [0]⟩ = some (⟨⟨0, [0]⟩, 1⟩, 0) ∧
    outermostLoops exMark = some [⟨0, [0]⟩] ∧ innermostLoops exMark = some [⟨1, [0]⟩] ∧
    markParallel exMark [⟨0, [0]⟩, ⟨1, [0]⟩] = some [⟨0, [0]⟩] ∧ markVector exMark [⟨0, [0]⟩, ⟨1, [0]⟩] = some [] :=
  ⟨by decide +kernel, exMark_info, by decide +kernel, exMark_stepwise.complete _, by decide +kernel, by decide +kernel,
    by decide +kernel, by decide +kernel, by decide +kernel, by decide +kernel, by decide +kernel, by decide +kernel⟩

/-- C53 is violated by `pluto_mark_parallel`: if the parallel outer loop has disappeared from the AST (say,
because it runs once), the sequential loop below it is marked parallel. All recorded data is right. The test
`inloops[0]->depth > band->loop->depth + band->width` accepts the first level below the band. -/
theorem C53_violated : ∃ (p : Prog) (ast ms : List AstLoop), p.OK ∧ p.Info ∧ Stepwise p ∧
    Uniform p 0 p.hProps.length (List.range p.stmts.length) ∧ markParallel p ast = some ms ∧
    ∃ a ∈ ms, ¬ CarriesNone p a.stmts a.depth := by
  refine ⟨exMark, [⟨1, [0]⟩], [⟨1, [0]⟩], by decide +kernel, exMark_info, exMark_stepwise, by decide +kernel, by decide +kernel,
    ⟨1, [0]⟩, by simp, fun h => ?_⟩
  have := h exMark.deps[0] (by decide) rfl (by decide) (by decide) [0, 0] [0, 1] [] exMark_inst
    (fun l hl => by
      have hl : l < 1 := hl
      rw [exMark_comp (by decide) exMark_inst (by omega), if_pos (by omega)])
  exact absurd this (by decide +kernel)

/-- `exLazy` with a parallel loop around it: four loops; `(a, 0, 0, 32)` comes before `(a, 1, 0, 31)` and
`(a, 0, 1, 31)`. -/
def exLazyPar : Prog where
  nvar := 4
  npar := 0
  stmts := [⟨4, 4, ⟨5, []⟩, [true, true, true, true],
    [[1, 0, 0, 0, 0], [0, 1, 0, 0, 0], [0, 0, 1, 0, 0], [0, 0, 0, 1, 0]], [.loop, .loop, .loop, .loop]⟩]
  deps := [⟨0, 0, false, ⟨9, [⟨true, [-1, 0, 0, 0, 1, 0, 0, 0, 0]⟩, ⟨true, [0, 1, 0, 0, 0, 0, 0, 0, 0]⟩,
    ⟨true, [0, 0, 1, 0, 0, 0, 0, 0, 0]⟩, ⟨true, [0, 0, 0, 1, 0, 0, 0, 0, -32]⟩,
    ⟨true, [0, 0, 0, 0, 0, 1, 1, 0, -1]⟩, ⟨true, [0, 0, 0, 0, 0, 0, 0, 1, -31]⟩, ⟨false, [0, 0, 0, 0, 0, 1, 0, 0, 0]⟩,
    ⟨false, [0, 0, 0, 0, 0, 0, 1, 0, 0]⟩]⟩, ⟨9, []⟩, false, -1, [false, true, true, true], [.zero, .plus, .plus, .minus]⟩]
  hProps := [.loop, .loop, .loop, .loop]

theorem exLazyPar_pairs {d : Dep} (hd : d ∈ exLazyPar.deps) {s t q : List Int} (h : exLazyPar.Inst d s t q) :
    ∃ a : Int, d = exLazyPar.deps[0] ∧ s = [a, 0, 0, 32] ∧ q = [] ∧ (t = [a, 1, 0, 31] ∨ t = [a, 0, 1, 31]) := by
  have hd : d = exLazyPar.deps[0] := by simpa [exLazyPar] using hd
  subst hd
  obtain ⟨a, s', rfl⟩ := List.exists_cons_of_length_eq_add_one (h.hs : s.length = 3 + 1)
  obtain ⟨b, t', rfl⟩ := List.exists_cons_of_length_eq_add_one (h.ht : t.length = 3 + 1)
  have hs := h.hs
  have ht := h.ht
  obtain ⟨i, j, k, rfl⟩ := List.length_eq_three.mp (Nat.succ.inj (h.hs : s'.length + 1 = 3 + 1))
  obtain ⟨i', j', k', rfl⟩ := List.length_eq_three.mp (Nat.succ.inj (h.ht : t'.length + 1 = 3 + 1))
  obtain rfl := List.length_eq_zero_iff.mp (h.hp : q.length = 0)
  have := h.sat
  simp [exLazyPar, Cst.Sat, Row.Sat, aff, dot] at this
  refine ⟨a, rfl, ?_, rfl, ?_⟩
  · simp; omega
  · simp; omega

theorem exLazyPar_comp {d : Dep} (hd : d ∈ exLazyPar.deps) (a : Int) {l : Nat} (hl : l < 4) :
    exLazyPar.comp d l [a, 0, 0, 32] [a, 1, 0, 31] [] = (if l = 1 then 1 else if l = 3 then -1 else 0) ∧
    exLazyPar.comp d l [a, 0, 0, 32] [a, 0, 1, 31] [] = if l = 2 then 1 else if l = 3 then -1 else 0 := by
  have hd : d = exLazyPar.deps[0] := by simpa [exLazyPar] using hd
  subst hd
  interval_cases l <;> simp [Prog.comp, Prog.phi, Prog.row, exLazyPar, aff, dot]

theorem exLazyPar_info : exLazyPar.Info := by
  refine info_check (fun d hd => ?_)
  have hd' : d = exLazyPar.deps[0] := by simpa [exLazyPar] using hd
  have i0 : exLazyPar.Inst d [0, 0, 0, 32] [0, 1, 0, 31] [] := by rw [hd']; exact ⟨rfl, rfl, rfl, by decide +kernel⟩
  have i1 : exLazyPar.Inst d [0, 0, 0, 32] [0, 0, 1, 31] [] := by rw [hd']; exact ⟨rfl, rfl, rfl, by decide +kernel⟩
  refine ⟨fun l => l == 3, fun l => l == 1 || l == 2, fun _ => false, ?_, by rw [hd']; decide +kernel⟩
  intro l hl
  have hl : l < 4 := hl
  refine ⟨⟨?_, ?_⟩, ⟨?_, ?_⟩, ⟨by simp, ?_⟩⟩
  · intro h; have e : l = 3 := by simpa using h
    exact ⟨_, _, _, i0, by rw [(exLazyPar_comp hd 0 hl).1, e]; simp⟩
  · rintro ⟨s, t, q, h1, h2⟩
    obtain ⟨a, _, rfl, rfl, rfl | rfl⟩ := exLazyPar_pairs hd h1
    · rw [(exLazyPar_comp hd a hl).1] at h2; interval_cases l <;> simp at h2 ⊢
    · rw [(exLazyPar_comp hd a hl).2] at h2; interval_cases l <;> simp at h2 ⊢
  · intro h
    interval_cases l
    · simp at h
    · exact ⟨_, _, _, i0, by rw [(exLazyPar_comp hd 0 hl).1]; simp⟩
    · exact ⟨_, _, _, i1, by rw [(exLazyPar_comp hd 0 hl).2]; simp⟩
    · simp at h
  · rintro ⟨s, t, q, h1, h2⟩
    obtain ⟨a, _, rfl, rfl, rfl | rfl⟩ := exLazyPar_pairs hd h1
    · rw [(exLazyPar_comp hd a hl).1] at h2; interval_cases l <;> simp at h2 ⊢
    · rw [(exLazyPar_comp hd a hl).2] at h2; interval_cases l <;> simp at h2 ⊢
  · intro h
    have a := h _ _ _ i0
    have b := h _ _ _ i1
    rw [(exLazyPar_comp hd 0 hl).1] at a
    rw [(exLazyPar_comp hd 0 hl).2] at b
    interval_cases l <;> simp at a b

theorem exLazyPar_legal : exLazyPar.Legal := by
  intro d hd _ s t q h1 h2 h3 h4
  obtain ⟨a, rfl, rfl, rfl, h | h⟩ := exLazyPar_pairs hd ⟨h1, h2, h3, h4⟩
  · subst h
    refine ⟨1, 0, 1, by simp [Prog.timestamp, exLazyPar, aff, dot], by simp [Prog.timestamp, exLazyPar, aff, dot], by decide, ?_⟩
    intro l' hl'
    interval_cases l'
    simp [Prog.timestamp, exLazyPar, aff, dot]
  · subst h
    refine ⟨2, 0, 1, by simp [Prog.timestamp, exLazyPar, aff, dot], by simp [Prog.timestamp, exLazyPar, aff, dot], by decide, ?_⟩
    intro l' hl'
    interval_cases l' <;> simp [Prog.timestamp, exLazyPar, aff, dot]

/-- C53 is violated by `pluto_get_parallel_band` when a dependence is satisfied by several levels together
but by none of them alone: such dependences have satisfaction level -1 and count as satisfied outside the band.
The band of the dominating parallel loop has all four levels, but the second carries a dependence. -/
theorem C53_violated_band : ∃ (p : Prog) (ds : List Loop) (L : Loop) (b : Band) (split m : Nat), p.OK ∧ p.Legal ∧ p.Info ∧
    domParallelLoops p = some ds ∧ L ∈ ds ∧ parallelBand p L = some (b, split) ∧ m < b.width ∧
    ¬ CarriesNone p L.stmts (L.depth + m) := by
  refine ⟨exLazyPar, [⟨0, [0]⟩], ⟨0, [0]⟩, ⟨⟨0, [0]⟩, 4⟩, 3, 1, by decide +kernel, exLazyPar_legal, exLazyPar_info,
    by decide +kernel, by simp, by decide +kernel, by decide, fun h => ?_⟩
  have hin : exLazyPar.Inst exLazyPar.deps[0] [0, 0, 0, 32] [0, 1, 0, 31] [] := ⟨rfl, rfl, rfl, by decide +kernel⟩
  have := h exLazyPar.deps[0] (by decide) rfl (by decide) (by decide) _ _ _ hin (fun l hl => by
    have hl : l < 1 := hl
    interval_cases l
    decide +kernel)
  exact absurd this (by decide +kernel)

/-- One statement, three loops, identity schedule; `(i, j, k)` comes before `(i + 1, j, k - 1)`. -/
def exJam : Prog where
  nvar := 3
  npar := 0
  stmts := [⟨3, 3, ⟨4, []⟩, [true, true, true], [[1, 0, 0, 0], [0, 1, 0, 0], [0, 0, 1, 0]], [.loop, .loop, .loop]⟩]
  deps := [⟨0, 0, false, ⟨7, [⟨true, [-1, 0, 0, 1, 0, 0, -1]⟩, ⟨true, [0, -1, 0, 0, 1, 0, 0]⟩, ⟨true, [0, 0, -1, 0, 0, 1, 1]⟩]⟩,
    ⟨7, []⟩, true, 0, [true, false, false], [.plus, .zero, .minus]⟩]
  hProps := [.loop, .loop, .loop]

theorem exJam_comp {d : Dep} (hd : d ∈ exJam.deps) {s t q : List Int} (h : exJam.Inst d s t q) {l : Nat} (hl : l < 3) :
    exJam.comp d l s t q = 1 - (l : Int) := by
  have hd : d = exJam.deps[0] := by simpa [exJam] using hd
  subst hd
  obtain ⟨i, j, k, rfl⟩ := List.length_eq_three.mp (h.hs : s.length = 3)
  obtain ⟨i', j', k', rfl⟩ := List.length_eq_three.mp (h.ht : t.length = 3)
  obtain rfl := List.length_eq_zero_iff.mp (h.hp : q.length = 0)
  have := h.sat
  simp [exJam, Cst.Sat, Row.Sat, aff, dot] at this
  interval_cases l <;> simp [Prog.comp, Prog.phi, Prog.row, exJam, aff, dot] <;> omega

theorem exJam_inst : exJam.Inst exJam.deps[0] [0, 0, 1] [1, 0, 0] [] := ⟨rfl, rfl, rfl, by decide +kernel⟩

theorem exJam_info : exJam.Info := by
  refine info_check (fun d hd => ⟨fun l => l == 2, fun l => l == 0, fun l => l == 0, ?_, ?_⟩)
  · have hd' : d = exJam.deps[0] := by simpa [exJam] using hd
    have hin : exJam.Inst d [0, 0, 1] [1, 0, 0] [] := by rw [hd']; exact exJam_inst
    intro l hl
    have hl : l < 3 := hl
    refine ⟨⟨?_, ?_⟩, ⟨?_, ?_⟩, ⟨?_, ?_⟩⟩
    · intro h
      have e : l = 2 := by simpa using h
      exact ⟨_, _, _, hin, by rw [exJam_comp hd hin hl, e]; simp⟩
    · rintro ⟨s, t, q, h1, h2⟩
      rw [exJam_comp hd h1 hl] at h2
      simp; omega
    · intro h
      have e : l = 0 := by simpa using h
      exact ⟨_, _, _, hin, by rw [exJam_comp hd hin hl, e]; simp⟩
    · rintro ⟨s, t, q, h1, h2⟩
      rw [exJam_comp hd h1 hl] at h2
      simp; omega
    · intro h s t q h1
      have e : l = 0 := by simpa using h
      rw [exJam_comp hd h1 hl, e]; simp
    · intro h
      have := h _ _ _ hin
      rw [exJam_comp hd hin hl] at this
      simp; omega
  · have hd' : d = exJam.deps[0] := by simpa [exJam] using hd
    rw [hd']; decide +kernel

theorem exJam_stepwise : Stepwise exJam := by
  intro d hd _
  exact ⟨0, by decide, fun s t q h => by rw [exJam_comp hd h (by omega)]; simp, fun l hl => absurd hl (by omega)⟩

/-- C54 is violated by `pluto_get_unroll_jam_loops`: the test that a band is innermost is made for a tiled
program, so in a program that is not tiled as many levels below the band as it has are taken for levels of the
band. Here the outer two of three loops form a permutable band and the third does not belong to it; the
outermost loop is chosen, but unroll-jam (by 8, the default factor) reverses a dependence. -/
theorem C54_violated : ∃ (p : Prog) (ls : List Loop) (L : Loop), p.OK ∧ p.Legal ∧ p.Info ∧ Stepwise p ∧
    unrollJamLoops p (fun _ => true) = some ls ∧ L ∈ ls ∧ (∀ i ∈ L.stmts, ¬ p.Scalar (p.hProps.length - 1) i) ∧
    ∃ d ∈ p.deps, d.rar = false ∧ d.src ∈ L.stmts ∧ d.dest ∈ L.stmts ∧ ∃ s t q, p.Inst d s t q ∧
      LexBefore (jamTime 0 8 L.depth p.hProps.length (p.timestamp d.dest t q))
        (jamTime 0 8 L.depth p.hProps.length (p.timestamp d.src s q)) := by
  refine ⟨exJam, [⟨1, [0]⟩, ⟨0, [0]⟩], ⟨0, [0]⟩, by decide +kernel, exJam_stepwise.legal (by decide +kernel), exJam_info,
    exJam_stepwise, by decide +kernel, by decide, by decide +kernel, exJam.deps[0], by decide, rfl, by decide, by decide,
    [0, 0, 1], [1, 0, 0], [], exJam_inst, ?_⟩
  exact ⟨2, 0, 1, by decide +kernel, by decide +kernel, by decide, by decide +kernel⟩

/-- The hypotheses of `C54_jam_partial` are met by the loop nests of the example for tiling. -/
example : exTile.OK ∧ exTile.Legal ∧ exTile.Info ∧ unrollJamLoops exTile (fun _ => true) = some [⟨1, [0]⟩, ⟨1, [1]⟩] ∧
    Complete exTile (List.range exTile.stmts.length) ∧ (∀ stmts, NonnegToScalar exTile stmts) ∧
    ∀ bands, innermostBands exTile 1 = some bands → ∀ b ∈ bands, 3 ≤ b.loop.depth + b.width := by
  refine ⟨by decide +kernel, exTile_stepwise.legal (by decide +kernel), exTile_info, by decide +kernel, exTile_stepwise.complete _,
    exTile_stepwise.nonneg, fun bands h => ?_⟩
  have e : innermostBands exTile 1 = some [⟨⟨1, [0]⟩, 2⟩, ⟨⟨1, [1]⟩, 2⟩] := by decide +kernel
  rw [e] at h
  obtain rfl := Option.some.inj h
  decide

end Pluto
