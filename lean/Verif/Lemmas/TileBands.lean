import Verif.Lemmas.Innermost
import Verif.Lemmas.Band
import Verif.Lemmas.TileLegal

/-! Lemmas about `tileBands`: the bands that `pluto_tile` tiles. -/

namespace Pluto

/-! ### Loops of a schedule -/

section
variable {p : Prog} {all : List Loop} (ha : getAllLoops p = some all)
  (hU : Uniform p 0 p.hProps.length (List.range p.stmts.length))
include ha

theorem all_spec : LoopsSpec p 0 (p.hProps.length - 0) (List.range p.stmts.length) all :=
  loopsUnder_spec _ _ _ _ List.nodup_range ha

theorem same_loop {L M : Loop} (hL : L ∈ all) (hM : M ∈ all) (hd : L.depth = M.depth) {i : Nat} (h1 : i ∈ L.stmts)
    (h2 : i ∈ M.stmts) : L = M := by
  have hs := all_spec ha
  by_contra hne
  have := hs.disj.imp (S := fun L M => L.depth = M.depth → ∀ i, ¬ (i ∈ L.stmts ∧ i ∈ M.stmts))
    (fun h e i hi => h e i hi.1 hi.2)
  have hsymm : Std.Symm (fun L M : Loop => L.depth = M.depth → ∀ i, ¬ (i ∈ L.stmts ∧ i ∈ M.stmts)) :=
    ⟨fun L M h e i hi => h e.symm i hi.symm⟩
  exact this.forall hL hM hne hd i ⟨h1, h2⟩

theorem all_nodup : all.Nodup := by
  have hs := all_spec ha
  refine hs.disj.imp_of_mem ?_
  intro L M hL hM h e
  subst e
  obtain ⟨i, hi⟩ := List.exists_mem_of_ne_nil _ (hs.ne L hL)
  exact h rfl i hi hi

include hU

theorem nested {L M : Loop} (hL : L ∈ all) (hM : M ∈ all) (hd : M.depth < L.depth) {i : Nat} (h1 : i ∈ L.stmts)
    (h2 : i ∈ M.stmts) : ∀ j ∈ L.stmts, j ∈ M.stmts := by
  have hs := all_spec ha
  intro j hj
  have hU' : Uniform p 0 (0 + (p.hProps.length - 0)) (List.range p.stmts.length) := by simpa using hU
  have hag := hs.share hU' L hL i h1 j hj
  have hag' : Agree p 0 M.depth i j := fun l a b => hag l a (by omega)
  have hi1 := hs.sub M hM i h2
  have hj1 := hs.sub L hL j hj
  have hM' := hs.hi M hM
  refine hs.join M hM i h2 j hj1.1 ?_ hag'
  intro hsc
  exact hi1.2 (hU M.depth (Nat.zero_le _) (by omega) j hj1.1 i hi1.1 hag'.symm hsc)

end

theorem isLoopDominated_eq {p : Prog} {L M : Loop} {b : Bool} (h : isLoopDominated p L M = some b) (hd : M.depth < L.depth)
    {s1 s2 : Nat} (h1 : L.stmts[0]? = some s1) (h2 : M.stmts[0]? = some s2) (hag : Agree p 0 (M.depth + 1) s1 s2) : b = true := by
  unfold isLoopDominated at h
  rw [if_neg (by omega)] at h
  simp only [h1, h2, Option.bind_eq_bind, Option.bind_some, Option.bind_eq_some_iff, pure, Option.some.injEq] at h
  obtain ⟨bs, k1, k2⟩ := h
  rw [← k2, List.all_eq_true]
  intro v hv
  obtain ⟨n, hn⟩ := List.getElem?_of_mem hv
  have hf := mapM_forall₂ _ _ _ k1
  have hnl : n < bs.length := (List.getElem?_eq_some_iff.mp hn).1
  have hlen := hf.length_eq
  simp only [List.length_range] at hlen
  have hg := hf.get (i := n) (by simpa using by omega) hnl
  simp only [List.get_eq_getElem, List.getElem_range] at hg
  rw [(List.getElem?_eq_some_iff.mp hn).2] at hg
  rw [Option.bind_eq_some_iff] at hg
  obtain ⟨c1, g1, hg⟩ := hg
  rw [Option.bind_eq_some_iff] at hg
  obtain ⟨c2, g2, hg⟩ := hg
  split_ifs at hg with hc
  · rw [Option.bind_eq_some_iff] at hg
    obtain ⟨v1, g3, hg⟩ := hg
    rw [Option.bind_eq_some_iff] at hg
    obtain ⟨v2, g4, hg⟩ := hg
    simp only [Option.some.injEq] at hg
    rw [← hg]
    simp only [id_eq, decide_eq_true_eq]
    rw [constAt_eq g3, constAt_eq g4]
    simp only [Bool.and_eq_true] at hc
    exact hag n (Nat.zero_le _) (by omega) ((scalarAt_iff g1).mp hc.1) ((scalarAt_iff g2).mp hc.2)
  · simp only [Option.some.injEq] at hg
    rw [← hg]; rfl

theorem isLoopDominated_defined {p : Prog} {L M : Loop} (h1 : L.stmts ≠ []) (h2 : M.stmts ≠ []) {n : Nat} (hn : M.depth < n)
    (hr1 : ∀ i ∈ L.stmts, HasRows p n i) (hr2 : ∀ i ∈ M.stmts, HasRows p n i) : (isLoopDominated p L M).isSome := by
  unfold isLoopDominated
  split_ifs with c
  · rfl
  · obtain ⟨s1, l1, e1⟩ := List.exists_cons_of_ne_nil h1
    obtain ⟨s2, l2, e2⟩ := List.exists_cons_of_ne_nil h2
    have r1 := hr1 s1 (by rw [e1]; simp)
    have r2 := hr2 s2 (by rw [e2]; simp)
    simp only [e1, e2, List.getElem?_cons_zero, Option.bind_eq_bind, Option.bind_some]
    have : ∀ i ∈ List.range (M.depth + 1), ((scalarAt p i s1).bind fun a => (scalarAt p i s2).bind fun b =>
        if (a && b) = true then (constAt p i s1).bind fun u => (constAt p i s2).bind fun v => some (decide (u = v))
        else some true).isSome := by
      intro i hi
      rw [List.mem_range] at hi
      obtain ⟨x1, e1⟩ := Option.isSome_iff_exists.mp (r1.scalarAt (l := i) (by omega))
      obtain ⟨x2, e2⟩ := Option.isSome_iff_exists.mp (r2.scalarAt (l := i) (by omega))
      obtain ⟨x3, e3⟩ := Option.isSome_iff_exists.mp (r1.constAt (l := i) (by omega))
      obtain ⟨x4, e4⟩ := Option.isSome_iff_exists.mp (r2.constAt (l := i) (by omega))
      simp only [e1, e2, e3, e4, Option.bind_some]
      split_ifs <;> rfl
    obtain ⟨bs, hbs⟩ := Option.isSome_iff_exists.mp (mapM_isSome' this)
    simp only [pure] at hbs ⊢
    rw [hbs]; rfl

/-- The bands that are tiled. -/
structure TileBandsInv (p : Prog) (all done : List Loop) (bands : List Band) : Prop where
  mem : ∀ b ∈ bands, b.loop ∈ all
  kind : ∀ b ∈ bands, permutableBand p b.loop = some (some b) ∨
    (b.width = 1 ∧ b.loop ∈ done ∧ loopIsParallel p b.loop = some true)
  disjoint : bands.Pairwise (fun b c => ∀ i ∈ b.loop.stmts, i ∉ c.loop.stmts)

theorem outer_sublist {p : Prog} : ∀ {ls : List Loop} {bs : List (Option Band)}, ls.mapM (permutableBand p) = some bs →
    ((bs.filterMap id).map (·.loop)).Sublist ls ∧ ∀ b ∈ bs.filterMap id, permutableBand p b.loop = some (some b) := by
  intro ls
  induction ls with
  | nil => intro bs h; simp at h; subst h; simp
  | cons L ls ih =>
    intro bs h
    simp only [List.mapM_cons, Option.bind_eq_bind, Option.bind_eq_some_iff, pure, Option.some.injEq] at h
    obtain ⟨b, h1, bs', h2, rfl⟩ := h
    obtain ⟨k1, k2⟩ := ih h2
    cases b with
    | none =>
      simp only [List.filterMap_cons, id_eq]
      exact ⟨k1.trans (List.sublist_cons_self _ _), k2⟩
    | some b =>
      have hb := (permutableBand_spec h1).1
      simp only [List.filterMap_cons, id_eq, List.map_cons, hb]
      refine ⟨k1.cons_cons _, ?_⟩
      intro c hc
      rcases List.mem_cons.mp hc with rfl | hc
      · rw [hb]; exact h1
      · exact k2 c hc

theorem outer_inv {p : Prog} {all : List Loop} (ha : getAllLoops p = some all)
    (hU : Uniform p 0 p.hProps.length (List.range p.stmts.length)) {bands : List Band} (h : outermostBands p = some bands) :
    TileBandsInv p all [] bands ∧ ∀ b ∈ bands, permutableBand p b.loop = some (some b) := by
  unfold outermostBands at h
  simp only [ha, Option.bind_eq_bind, Option.bind_some, Option.bind_eq_some_iff, pure, Option.some.injEq] at h
  obtain ⟨bs, h1, h2⟩ := h
  obtain ⟨k1, k2⟩ := outer_sublist h1
  generalize bs.filterMap id = cs at *
  have hcm : ∀ b ∈ cs, b.loop ∈ all := fun b hb => k1.subset (List.mem_map_of_mem hb)
  have hnd : cs.Pairwise (fun b c => b.loop ≠ c.loop) := List.pairwise_map.mp (k1.nodup (all_nodup ha))
  have hmem : ∀ b ∈ bands, b ∈ cs ∧ ∀ c ∈ cs, isBandDominated b c = false := by
    intro b hb
    rw [← h2, dominatorBands, List.mem_filter] at hb
    refine ⟨hb.1, ?_⟩
    have := hb.2
    simp only [Bool.not_eq_true', List.any_eq_false] at this
    intro c hc
    simpa using this c hc
  have hsub : bands.Sublist cs := by rw [← h2]; exact List.filter_sublist
  refine ⟨⟨fun b hb => hcm b (hmem b hb).1, fun b hb => .inl (k2 b (hmem b hb).1), ?_⟩, fun b hb => k2 b (hmem b hb).1⟩
  refine (hnd.sublist hsub).imp_of_mem ?_
  intro b c hb hc hne i hi hic
  obtain ⟨b1, b2⟩ := hmem b hb
  obtain ⟨c1, c2⟩ := hmem c hc
  have key : ∀ b c : Band, b ∈ cs → c ∈ cs → b.loop.depth < c.loop.depth → i ∈ b.loop.stmts → i ∈ c.loop.stmts →
      isBandDominated c b = false → False := by
    intro b c b1 c1 hd hi hic hdom
    have hn := nested ha hU (hcm c c1) (hcm b b1) hd hic hi
    simp only [isBandDominated, Bool.or_eq_false_iff, Bool.and_eq_false_iff, decide_eq_false_iff_not] at hdom
    rcases hdom.1 with h | h
    · rw [List.all_eq_false] at h
      obtain ⟨x, hx, hx'⟩ := h
      exact hx' (by simpa using hn x hx)
    · exact h hd
  rcases Nat.lt_trichotomy b.loop.depth c.loop.depth with hd | hd | hd
  · exact key b c b1 c1 hd hi hic (c2 b b1)
  · exact hne (same_loop ha (hcm b b1) (hcm c c1) hd hi hic)
  · exact key c b c1 b1 hd hic hi (b2 c c1)

theorem innermost_scalar {p : Prog} {L : Loop} (hnd : L.stmts.Nodup) (h : loopIsInnermost p L = some true) :
    ∀ i ∈ L.stmts, ∀ l, L.depth < l → l < p.hProps.length → p.Scalar l i := by
  unfold loopIsInnermost at h
  simp only [Option.bind_eq_bind, Option.bind_eq_some_iff, pure, Option.some.injEq] at h
  obtain ⟨ls, h1, h2⟩ := h
  have hs := loopsUnder_spec _ _ _ _ hnd h1
  rw [List.isEmpty_iff] at h2
  subst h2
  intro i hi l hl hn
  by_contra hc
  obtain ⟨M, hM, _⟩ := hs.cover i hi l (by omega) (by omega) hc
  simp at hM

theorem addParallel_inv {p : Prog} {all : List Loop} (ha : getAllLoops p = some all)
    (hU : Uniform p 0 p.hProps.length (List.range p.stmts.length)) {done : List Loop} {bands bands' : List Band} {L : Loop}
    (hI : TileBandsInv p all done bands) (hL : L ∈ all) (hpar : loopIsParallel p L = some true) (hnew : L ∉ done)
    (h : addParallelBand p bands L = some bands') : TileBandsInv p all (done ++ [L]) bands' := by
  have hs := all_spec ha
  have weak : TileBandsInv p all (done ++ [L]) bands := by
    refine ⟨hI.mem, fun b hb => ?_, hI.disjoint⟩
    rcases hI.kind b hb with h | ⟨h1, h2, h3⟩
    · exact .inl h
    · exact .inr ⟨h1, by simp [h2], h3⟩
  unfold addParallelBand at h
  simp only [Option.bind_eq_bind, Option.bind_eq_some_iff] at h
  obtain ⟨inn, h1, h⟩ := h
  split_ifs at h with hinn
  swap
  · simp only [pure, Option.some.injEq] at h
    rw [← h]; exact weak
  subst hinn
  rw [Option.bind_eq_some_iff] at h
  obtain ⟨ds, h2, h3⟩ := h
  split_ifs at h3 with hd
  · simp only [pure, Option.some.injEq] at h3
    rw [← h3]; exact weak
  simp only [pure, Option.some.injEq] at h3
  subst h3
  have hnd := mapM_false h2 (by simpa using hd)
  have hsc := innermost_scalar (hs.nodup L hL) h1
  refine ⟨?_, ?_, ?_⟩
  · intro b hb
    rcases List.mem_append.mp hb with hb | hb
    · exact hI.mem b hb
    · simp at hb; subst hb; exact hL
  · intro b hb
    rcases List.mem_append.mp hb with hb | hb
    · exact weak.kind b hb
    · simp at hb; subst hb; exact .inr ⟨rfl, by simp, hpar⟩
  · rw [List.pairwise_append]
    refine ⟨hI.disjoint, by simp, ?_⟩
    intro b hb c hc i hi hic
    simp at hc; subst hc
    have hbm := hI.mem b hb
    have hic : i ∈ L.stmts := hic
    rcases Nat.lt_trichotomy b.loop.depth L.depth with hd | hd | hd
    · have hsub := nested ha hU hL hbm hd hic hi
      obtain ⟨s1, l1, e1⟩ := List.exists_cons_of_ne_nil (hs.ne L hL)
      obtain ⟨s2, l2, e2⟩ := List.exists_cons_of_ne_nil (hs.ne _ hbm)
      have m1 : s1 ∈ b.loop.stmts := hsub s1 (by rw [e1]; simp)
      have m2 : s2 ∈ b.loop.stmts := by rw [e2]; simp
      have hag := hs.share (by simpa using hU) _ hbm s1 m1 s2 m2
      have hag' : Agree p 0 (b.loop.depth + 1) s1 s2 := by
        intro l x1 x2 x3 x4
        by_cases hl : l < b.loop.depth
        · exact hag l x1 hl x3 x4
        · have : l = b.loop.depth := by omega
          subst this
          exact absurd x3 (hs.sub _ hbm s1 m1).2
      have := isLoopDominated_eq (hnd b hb) hd (s1 := s1) (s2 := s2) (by rw [e1]; rfl) (by rw [e2]; rfl) hag'
      simp at this
    · have he := same_loop ha hbm hL hd hi hic
      rcases hI.kind b hb with hk | ⟨_, hk, _⟩
      · obtain ⟨_, w1, w2, w3, _⟩ := permutableBand_spec hk
        rw [he] at w2 w3
        exact w3 (fun j hj => hsc j hj _ (by omega) (by omega))
      · rw [he] at hk; exact hnew hk
    · have hbi := hs.hi _ hbm
      exact (hs.sub _ hbm i hi).2 (hsc i hic _ hd (by omega))

theorem parallelLoops_mem {p : Prog} {all : List Loop} (ha : getAllLoops p = some all) {ls : List Loop}
    (h : parallelLoops p = some ls) : ls.Nodup ∧ ∀ L ∈ ls, L ∈ all ∧ loopIsParallel p L = some true := by
  unfold parallelLoops at h
  simp only [ha, Option.bind_eq_bind, Option.bind_some, Option.bind_eq_some_iff, pure, Option.some.injEq] at h
  obtain ⟨bs, h1, rfl⟩ := h
  have hf := mapM_forall₂ _ _ _ h1
  constructor
  · have hsub : (((all.zip bs).filter (·.2)).map (·.1)).Sublist ((all.zip bs).map (·.1)) := List.filter_sublist.map _
    have : (all.zip bs).map (·.1) = all := by
      rw [List.map_fst_zip (by rw [hf.length_eq])]
    rw [this] at hsub
    exact hsub.nodup (all_nodup ha)
  · intro L hL
    simp only [List.mem_map, List.mem_filter] at hL
    obtain ⟨⟨L', b⟩, ⟨hm, hb⟩, rfl⟩ := hL
    have := (List.forall₂_iff_zip.mp hf).2 hm
    simp only at hb
    subst hb
    exact ⟨(List.of_mem_zip hm).1, this⟩

theorem tileBands_inv {p : Prog} {all : List Loop} (ha : getAllLoops p = some all)
    (hU : Uniform p 0 p.hProps.length (List.range p.stmts.length)) {bands : List Band} (h : tileBands p = some bands) :
    ∃ done, TileBandsInv p all done bands := by
  unfold tileBands at h
  simp only [Option.bind_eq_bind, Option.bind_eq_some_iff] at h
  obtain ⟨b0, h1, ls, h2, h3⟩ := h
  obtain ⟨l1, l2⟩ := parallelLoops_mem ha h2
  have aux : ∀ (ls done : List Loop) (bs : List Band), TileBandsInv p all done bs → (∀ L ∈ ls, L ∈ all ∧ loopIsParallel p L = some true) →
      (done ++ ls).Nodup → ls.foldlM (addParallelBand p) bs = some bands → ∃ done, TileBandsInv p all done bands := by
    intro ls
    induction ls with
    | nil => intro done bs hI _ _ h; simp at h; subst h; exact ⟨done, hI⟩
    | cons L ls ih =>
      intro done bs hI hm hnd h
      rw [List.foldlM_cons, Option.bind_eq_bind, Option.bind_eq_some_iff] at h
      obtain ⟨bs', e1, e2⟩ := h
      obtain ⟨m1, m2⟩ := hm L (by simp)
      have hnot : L ∉ done := fun hc => (List.nodup_append.mp hnd).2.2 L hc L (by simp) rfl
      refine ih (done ++ [L]) bs' (addParallel_inv ha hU hI m1 m2 hnot e1) (fun M hM => hm M (by simp [hM])) ?_ e2
      simpa using hnd
  exact aux ls [] b0 (outer_inv ha hU h1).1 l2 (by simpa using l1) h3

/-! ### The bands can be tiled -/

theorem Stepwise.complete {p : Prog} (h : Stepwise p) (stmts : List Nat) : Complete p stmts := by
  intro d hd hr _ _
  obtain ⟨l0, h1, h2, _⟩ := h d hd hr
  exact ⟨l0, h1, h2⟩

theorem Stepwise.nonneg {p : Prog} (h : Stepwise p) (stmts : List Nat) : NonnegToScalar p stmts := by
  intro d hd hr _ _ l0 hl0 _ hfull hmin l hl s t q hin
  obtain ⟨l1, h1, h2, h3⟩ := h d hd hr
  by_cases hc : l < l1
  · exact h3 l hc s t q hin
  · exact absurd h2 (hmin l1 (by omega))

theorem Stepwise.legal {p : Prog} (hok : p.OK) (h : Stepwise p) : p.Legal := by
  intro d hd hr s t q hs ht hq hsat
  have hin : p.Inst d s t q := ⟨hs, ht, hq, hsat⟩
  obtain ⟨d1, d2, _⟩ := hok.deps d hd
  have gs := List.getElem?_eq_getElem d1
  have gt := List.getElem?_eq_getElem d2
  have l1 := hok.levels _ (List.mem_of_getElem? gs)
  have l2 := hok.levels _ (List.mem_of_getElem? gt)
  obtain ⟨l0, h1, h2, h3⟩ := h d hd hr
  have hpos : ∃ l, l < p.hProps.length ∧ p.comp d l s t q ≠ 0 := ⟨l0, h1, by have := h2 s t q hin; omega⟩
  classical
  obtain ⟨k1, k2⟩ := Nat.find_spec hpos
  have kmin : ∀ l < Nat.find hpos, p.comp d l s t q = 0 := by
    intro l hl
    by_contra hc
    exact Nat.find_min hpos hl ⟨by omega, hc⟩
  have kle : Nat.find hpos ≤ l0 := Nat.find_min' hpos ⟨h1, by have := h2 s t q hin; omega⟩
  generalize Nat.find hpos = k at *
  have kp : 0 < p.comp d k s t q := by
    rcases Nat.lt_or_eq_of_le kle with hlt | rfl
    · have := h3 k hlt s t q hin; omega
    · have := h2 s t q hin; omega
  refine ⟨k, p.phi d.src k s q, p.phi d.dest k t q, ?_, ?_, ?_, ?_⟩
  · rw [timestamp_get gs (by omega)]
  · rw [timestamp_get gt (by omega)]
  · unfold Prog.comp at kp; omega
  · intro l hl
    rw [timestamp_get gs (by omega), timestamp_get gt (by omega)]
    have := kmin l hl
    unfold Prog.comp at this
    congr 1; omega

theorem inv_bandsOK {p : Prog} {all done : List Loop} (ha : getAllLoops p = some all) {bands : List Band}
    (hI : TileBandsInv p all done bands) : BandsOK p bands := by
  have hs := all_spec ha
  refine ⟨?_, fun b hb => hs.nodup _ (hI.mem b hb), hI.disjoint⟩
  intro b hb
  have hm := hI.mem b hb
  refine ⟨?_, fun i hi => by simpa using (hs.sub _ hm i hi).1⟩
  rcases hI.kind b hb with h | ⟨h, _⟩
  · exact (permutableBand_spec h).2.2.1
  · have := hs.hi _ hm
    omega

theorem inv_permutable {p : Prog} {all done : List Loop} (hi : p.Info) (hT : TypesRight p) (ha : getAllLoops p = some all)
    (hc : ∀ L ∈ all, Complete p L.stmts) (hn : ∀ L ∈ all, NonnegToScalar p L.stmts)
    {bands : List Band} (hI : TileBandsInv p all done bands) : ∀ b ∈ bands, Permutable p b := by
  have hs := all_spec ha
  intro b hb d hd hr hsb htb s t q e1 e2 e3 e4 htied m hm
  have hin : p.Inst d s t q := ⟨e1, e2, e3, e4⟩
  have hm' := hI.mem b hb
  have rs : d.src < p.stmts.length := by simpa using (hs.sub _ hm' _ hsb).1
  have rt : d.dest < p.stmts.length := by simpa using (hs.sub _ hm' _ htb).1
  rcases hI.kind b hb with h | ⟨h1, _, h3⟩
  · obtain ⟨_, _, hle, _, _⟩ := permutableBand_spec h
    rcases band_comp hi h (hc _ hm') (hn _ hm') hd hr hsb htb hin htied hm with h | ⟨m0, h1, h2, h3⟩
    · exact .inl h
    · exact .inr ⟨m0, h1, (hT _ rs _ (by omega)).mpr (h2 _ hsb), (hT _ rt _ (by omega)).mpr (h2 _ htb), h3⟩
  · left
    have : m = 0 := by omega
    subst this
    have := parallel_spec hi h3 d hd hr hsb htb s t q hin htied
    unfold Prog.comp
    simp only [Nat.add_zero]
    omega

theorem inv_unmixed {p : Prog} {all done : List Loop} (hT : TypesRight p) (ha : getAllLoops p = some all)
    (hU : Uniform p 0 p.hProps.length (List.range p.stmts.length)) (hps : PureScalars p)
    {bands : List Band} (hI : TileBandsInv p all done bands) : ∀ b ∈ bands, Unmixed p b := by
  have hs := all_spec ha
  have hok := inv_bandsOK ha hI
  intro b hb i hi j hj x y q hx hy hq m hm h1 h2 h3
  exfalso
  have hm' := hI.mem b hb
  obtain ⟨r1, r2⟩ := hok.range b hb
  have ri := r2 i hi
  have rj := r2 j hj
  have hag := hs.share (by simpa using hU) _ hm' i hi j hj
  have hag' : Agree p 0 (b.loop.depth + m) i j := by
    intro l x1 x2 x3 x4
    by_cases hl : l < b.loop.depth
    · exact hag l x1 hl x3 x4
    · have e : b.loop.depth + (l - b.loop.depth) = l := by omega
      have := h3 (l - b.loop.depth) (by omega) (by rw [e]; exact (hT i ri l (by omega)).mpr x3)
        (by rw [e]; exact (hT j rj l (by omega)).mpr x4)
      rw [e, hps _ _ _ _ x3 hx hq, hps _ _ _ _ x4 hy hq] at this
      exact this
  exact h2 ((hT j rj _ (by omega)).mpr (hU _ (Nat.zero_le _) (by omega) i (by simpa using ri) j (by simpa using rj) hag'
    ((hT i ri _ (by omega)).mp h1)))

theorem inv_separated {p : Prog} {all done : List Loop} (hok : p.OK) (hleg : p.Legal) (ha : getAllLoops p = some all)
    (hU : Uniform p 0 p.hProps.length (List.range p.stmts.length)) (hps : PureScalars p)
    {bands : List Band} (hI : TileBandsInv p all done bands) : ∀ b ∈ bands, Separated p b := fun b hb =>
  under_separated hok hleg List.nodup_range ha hU hps (all_separated hok 0) (hI.mem b hb) b.width

/-! ### The bands are defined -/

theorem hasRows {p : Prog} (hok : p.OK) {i : Nat} (hi : i < p.stmts.length) : HasRows p p.hProps.length i := by
  have hg := List.getElem?_eq_getElem hi
  have hm := List.mem_of_getElem? hg
  refine ⟨_, hg, by rw [hok.levels _ hm], fun r hr' => ?_⟩
  have := (hok.stmts _ hm).trans r hr'
  exact List.ne_nil_of_length_pos (by omega)

theorem loopsUnder_ok {p : Prog} (hok : p.OK) {S : List Nat} (hnd : S.Nodup) (hr : ∀ i ∈ S, i < p.stmts.length) (depth : Nat) :
    (getLoopsUnder p S depth).isSome := by
  unfold getLoopsUnder
  by_cases hd : depth ≤ p.hProps.length
  · refine loopsUnder_defined _ _ _ hnd (fun i hi => ?_)
    rw [show depth + (p.hProps.length - depth) = p.hProps.length by omega]
    exact hasRows hok (hr i hi)
  · rw [show p.hProps.length - depth = 0 by omega]
    rfl

theorem isDepthScalar_defined {p : Prog} (hok : p.OK) {L : Loop} (hr : ∀ i ∈ L.stmts, i < p.stmts.length) {l : Nat} (hl : L.depth ≤ l)
    (hn : l < p.hProps.length) : (isDepthScalar p L l).isSome := by
  unfold isDepthScalar
  rw [if_neg (by omega)]
  obtain ⟨bs, hbs⟩ := Option.isSome_iff_exists.mp (mapM_isSome' (l := L.stmts) (f := scalarAt p l)
    (fun i hi => (hasRows hok (hr i hi)).scalarAt hn))
  simp [hbs]

theorem breaksBand_defined {p : Prog} (hok : p.OK) (hi : p.Info) {L : Loop} (hr : ∀ i ∈ L.stmts, i < p.stmts.length) {l : Nat}
    (hn : l < p.hProps.length) {d : Dep} (hd : d ∈ p.deps) : (breaksBand p L l d).isSome := by
  unfold breaksBand
  by_cases c1 : d.rar = true
  · rw [if_pos c1]; rfl
  rw [if_neg c1]
  by_cases c2 : d.satLevel < (L.depth : Int)
  · rw [if_pos c2]; rfl
  rw [if_neg c2]
  by_cases c3 : d.satisfied = false
  · rw [if_pos c3]; rfl
  rw [if_neg c3]
  obtain ⟨k, hk⟩ : ∃ k : Nat, d.satLevel = (k : Int) := ⟨d.satLevel.toNat, by omega⟩
  obtain ⟨k1, _, _⟩ := (hi.level d hd k).mp hk
  obtain ⟨b, hb⟩ := Option.isSome_iff_exists.mp (isDepthScalar_defined hok hr (l := k) (by omega) k1)
  rw [hk, Int.toNat_natCast]
  simp only [hb, Option.bind_eq_bind, Option.bind_some]
  have hdl : l < d.dirvec.length := by rw [hi.dirLen d hd]; exact hn
  split_ifs
  · rfl
  · simp [List.getElem?_eq_getElem hdl]
  · rfl

theorem bandEnd_defined {p : Prog} {L : Loop} : ∀ {n depth : Nat},
    (∀ l, depth ≤ l → l < depth + n → ∀ d ∈ p.deps, (breaksBand p L l d).isSome) →
    ∃ e, bandEnd p L n depth = some e ∧ ((∀ d ∈ p.deps, breaksBand p L depth d = some false) → 0 < n → depth < e) := by
  intro n
  induction n with
  | zero => intro depth _; exact ⟨depth, rfl, by intros; omega⟩
  | succ n ih =>
    intro depth h
    obtain ⟨bs, hbs⟩ := Option.isSome_iff_exists.mp (mapM_isSome' (l := p.deps) (f := breaksBand p L depth)
      (h depth (le_refl _) (by omega)))
    obtain ⟨e, he, _⟩ := ih (depth := depth + 1) (fun l h1 h2 => h l (by omega) (by omega))
    simp only [bandEnd, hbs, Option.bind_eq_bind, Option.bind_some]
    split_ifs with hc
    · refine ⟨depth, rfl, fun hall _ => ?_⟩
      exfalso
      rw [List.any_eq_true] at hc
      obtain ⟨v, hv, hv'⟩ := hc
      simp only [id_eq] at hv'
      subst hv'
      obtain ⟨k, hk⟩ := List.getElem?_of_mem hv
      have hf := mapM_forall₂ _ _ _ hbs
      have hkl := (List.getElem?_eq_some_iff.mp hk).1
      have hg := hf.get (i := k) (by rw [hf.length_eq]; exact hkl) hkl
      simp only [List.get_eq_getElem] at hg
      rw [(List.getElem?_eq_some_iff.mp hk).2, hall _ (List.getElem_mem _)] at hg
      simp at hg
    · exact ⟨e, he, fun _ _ => by have := (bandEnd_spec he).1; omega⟩

theorem peelScalar_defined {p : Prog} {L : Loop} (h0 : ¬ ∀ i ∈ L.stmts, p.Scalar L.depth i) : ∀ {n : Nat},
    (∀ m < n, (isDepthScalar p L (L.depth + m)).isSome) → 0 < n → (peelScalar p L n).isSome := by
  intro n
  induction n with
  | zero => intro _ h; omega
  | succ n ih =>
    intro h _
    obtain ⟨b, hb⟩ := Option.isSome_iff_exists.mp (h n (by omega))
    simp only [peelScalar, hb, Option.bind_eq_bind, Option.bind_some]
    split_ifs with c
    · refine ih (fun m hm => h m (by omega)) ?_
      by_contra hn
      have : n = 0 := by omega
      subst this
      exact h0 ((isDepthScalar_iff hb).mp c)
    · rfl

theorem permutableBand_defined {p : Prog} (hok : p.OK) (hi : p.Info) (hst : Stepwise p) {all : List Loop} (ha : getAllLoops p = some all)
    {L : Loop} (hL : L ∈ all) : (permutableBand p L).isSome := by
  have hs := all_spec ha
  have hr : ∀ i ∈ L.stmts, i < p.stmts.length := fun i hi => by simpa using (hs.sub L hL i hi).1
  have hlt : L.depth < p.hProps.length := by have := hs.hi L hL; omega
  have hbr : ∀ l, l < p.hProps.length → ∀ d ∈ p.deps, (breaksBand p L l d).isSome := fun l hl d hd => breaksBand_defined hok hi hr hl hd
  obtain ⟨e, he, hpos⟩ := bandEnd_defined (p := p) (L := L) (n := max (p.hProps.length - L.depth) 1) (depth := L.depth)
    (fun l h1 h2 => hbr l (by omega))
  have hle := (bandEnd_spec he).2.1
  have he' : L.depth < e := by
    refine hpos (fun d hd => ?_) (by omega)
    obtain ⟨b, hb⟩ := Option.isSome_iff_exists.mp (hbr L.depth hlt d hd)
    cases b with
    | false => exact hb
    | true =>
      exfalso
      unfold breaksBand at hb
      by_cases c1 : d.rar = true
      · rw [if_pos c1] at hb; simp at hb
      rw [if_neg c1] at hb
      by_cases c2 : d.satLevel < (L.depth : Int)
      · rw [if_pos c2] at hb; simp at hb
      rw [if_neg c2] at hb
      by_cases c3 : d.satisfied = false
      · rw [if_pos c3] at hb; simp at hb
      rw [if_neg c3] at hb
      simp only [Option.bind_eq_bind, Option.bind_eq_some_iff] at hb
      obtain ⟨sc, k1, k2⟩ := hb
      split_ifs at k2 with c4 c5
      · simp at k2
      · rw [Option.bind_eq_some_iff] at k2
        obtain ⟨dir, k3, k4⟩ := k2
        simp only [pure, Option.some.injEq, decide_eq_true_eq] at k4
        obtain ⟨s, t, q, hin, hneg⟩ := (hi.dir d hd _ dir k3).1.mp k4.symm
        obtain ⟨l0, h1, h2, h3⟩ := hst d hd (by simpa using c1)
        obtain ⟨k, hk⟩ : ∃ k : Nat, d.satLevel = (k : Int) := ⟨d.satLevel.toNat, by omega⟩
        obtain ⟨_, _, hmin⟩ := (hi.level d hd k).mp hk
        have hkl : k ≤ l0 := by
          by_contra hc
          exact hmin l0 (by omega) h2
        rcases Nat.lt_or_eq_of_le (show L.depth ≤ l0 by omega) with h | h
        · have := h3 _ h s t q hin; omega
        · have := h2 s t q hin; rw [← h] at this; omega
      · simp at k2
  have h0 : ¬ ∀ i ∈ L.stmts, p.Scalar L.depth i := by
    intro h
    obtain ⟨i, hi⟩ := List.exists_mem_of_ne_nil _ (hs.ne L hL)
    exact (hs.sub L hL i hi).2 (h i hi)
  obtain ⟨w, hw⟩ := Option.isSome_iff_exists.mp (peelScalar_defined h0 (n := e - L.depth)
    (fun m hm => isDepthScalar_defined hok hr (by omega) (by omega)) (by omega))
  unfold permutableBand
  simp [he, hw]

/-- Satisfaction vectors have an entry for every level. -/
def SatLen (p : Prog) : Prop := ∀ d ∈ p.deps, d.rar = false → d.satvec.length = p.hProps.length

theorem Prog.Info.satLen {p : Prog} (hi : p.Info) : SatLen p := fun d hd hr => (hi.vec d hd hr).1

theorem loopIsParallel_defined {p : Prog} (hi : SatLen p) {L : Loop} (hd : L.depth < p.hProps.length) : (loopIsParallel p L).isSome := by
  unfold loopIsParallel
  obtain ⟨bs, hbs⟩ := Option.isSome_iff_exists.mp (mapM_isSome' (f := fun d : Dep => d.satvec[L.depth]?)
    (l := p.deps.filter (fun d => !d.rar && L.stmts.contains d.src && L.stmts.contains d.dest)) (by
      intro d hm
      simp only [List.mem_filter, Bool.and_eq_true, Bool.not_eq_true'] at hm
      have := hi d hm.1 hm.2.1.1
      rw [List.getElem?_eq_getElem (by omega)]; rfl))
  simp only [hbs, Option.bind_eq_bind, Option.bind_some]
  rfl

theorem tileBands_defined {p : Prog} (hok : p.OK) (hi : p.Info) (hst : Stepwise p)
    (hU : Uniform p 0 p.hProps.length (List.range p.stmts.length)) : ∃ bands, tileBands p = some bands := by
  obtain ⟨all, ha⟩ := Option.isSome_iff_exists.mp (loopsUnder_ok hok (S := List.range p.stmts.length) List.nodup_range (by simp) 0)
  have hs := all_spec ha
  have ha : getAllLoops p = some all := ha
  have hlt : ∀ L ∈ all, L.depth < p.hProps.length := fun L hL => by have := hs.hi L hL; omega
  have hrg : ∀ L ∈ all, ∀ i ∈ L.stmts, i < p.stmts.length := fun L hL i hi => by simpa using (hs.sub L hL i hi).1
  obtain ⟨bs, hbs⟩ := Option.isSome_iff_exists.mp (mapM_isSome' (l := all) (f := permutableBand p)
    (fun L hL => permutableBand_defined hok hi hst ha hL))
  obtain ⟨ps, hps⟩ := Option.isSome_iff_exists.mp (mapM_isSome' (l := all) (f := loopIsParallel p)
    (fun L hL => loopIsParallel_defined hi.satLen (hlt L hL)))
  have h1 : outermostBands p = some (dominatorBands (bs.filterMap id)) := by
    simp [outermostBands, ha, hbs]
  have h2 : parallelLoops p = some (((all.zip ps).filter (·.2)).map (·.1)) := by
    simp [parallelLoops, ha, hps]
  obtain ⟨l1, l2⟩ := parallelLoops_mem ha h2
  unfold tileBands
  simp only [h1, h2, Option.bind_eq_bind, Option.bind_some]
  generalize ((all.zip ps).filter (·.2)).map (·.1) = ls at *
  have hI := (outer_inv ha hU h1).1
  generalize dominatorBands (bs.filterMap id) = b0 at *
  clear h1 h2 hbs hps l1
  have aux : ∀ (ls : List Loop) (bs : List Band), (∀ L ∈ ls, L ∈ all) → (∀ b ∈ bs, b.loop ∈ all) →
      ∃ bands, ls.foldlM (addParallelBand p) bs = some bands := by
    intro ls
    induction ls with
    | nil => intro bs _ _; exact ⟨bs, rfl⟩
    | cons L ls ih =>
      intro bs hm hb
      have hL := hm L (by simp)
      obtain ⟨us, hus⟩ := Option.isSome_iff_exists.mp (loopsUnder_ok hok (hs.nodup L hL) (hrg L hL) (L.depth + 1))
      obtain ⟨ds, hds⟩ := Option.isSome_iff_exists.mp (mapM_isSome' (l := bs) (f := fun b => isLoopDominated p L b.loop)
        (fun b hbm => isLoopDominated_defined (hs.ne L hL) (hs.ne _ (hb b hbm)) (hlt _ (hb b hbm))
          (fun i hi => hasRows hok (hrg L hL i hi)) (fun i hi => hasRows hok (hrg _ (hb b hbm) i hi))))
      have : ∃ bs', addParallelBand p bs L = some bs' ∧ ∀ b ∈ bs', b.loop ∈ all := by
        unfold addParallelBand loopIsInnermost
        simp only [hus, hds, Option.bind_eq_bind, Option.bind_some, pure]
        split_ifs
        · exact ⟨bs, rfl, hb⟩
        · refine ⟨_, rfl, fun b hbm => ?_⟩
          rcases List.mem_append.mp hbm with h | h
          · exact hb b h
          · simp at h; subst h; exact hL
        · exact ⟨bs, rfl, hb⟩
      obtain ⟨bs', e1, e2⟩ := this
      rw [List.foldlM_cons, e1]
      exact ih bs' (fun M hM => hm M (by simp [hM])) e2
  exact aux ls b0 (fun L hL => (l2 L hL).1) hI.mem

end Pluto
