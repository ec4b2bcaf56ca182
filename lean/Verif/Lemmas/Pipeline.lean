import Verif.Lemmas.Recompute

/-! Tiling as a whole: what holds between its steps. -/

namespace Pluto

def Apart (bands : List Band) : Prop := bands.Pairwise (fun b c => ∀ i ∈ b.loop.stmts, i ∉ c.loop.stmts)

theorem apart_mem {bands : List Band} (h : Apart bands) {b c : Band} (hb : b ∈ bands) (hc : c ∈ bands) :
    b = c ∨ ∀ i ∈ b.loop.stmts, i ∉ c.loop.stmts := by
  by_cases e : b = c
  · exact .inl e
  · right
    have : ∀ (b c : Band), b ≠ c → b ∈ bands → c ∈ bands → ∀ i ∈ b.loop.stmts, i ∉ c.loop.stmts := by
      intro b c hne hb hc i h1 h2
      obtain ⟨nb, hnb⟩ := List.getElem?_of_mem hb
      obtain ⟨nc, hnc⟩ := List.getElem?_of_mem hc
      have hnn : nb ≠ nc := fun h => hne (by rw [h, hnc] at hnb; cases hnb; rfl)
      have pw := h
      unfold Apart at pw
      rw [List.pairwise_iff_getElem] at pw
      obtain ⟨b1, b2⟩ := List.getElem?_eq_some_iff.mp hnb
      obtain ⟨c1, c2⟩ := List.getElem?_eq_some_iff.mp hnc
      rcases Nat.lt_or_gt_of_ne hnn with h' | h'
      · exact pw nb nc b1 c1 h' i (by rw [b2]; exact h1) (by rw [c2]; exact h2)
      · exact pw nc nb c1 b1 h' i (by rw [c2]; exact h2) (by rw [b2]; exact h1)
    exact this b c e hb hc

/-- What holds of the program after tiling, before and after every further step. -/
structure Stage (p : Prog) (bands : List Band) (par : Bool) : Prop where
  ok : p.OK
  legal : p.Legal
  satLen : SatLen p
  bandsOK : BandsOK p bands
  width : ∀ b ∈ bands, 0 < b.width
  sep : ∀ b ∈ bands, Separated p b
  fwd : par = true → ∀ b ∈ bands, Forward p b

theorem Edit.stage {p p' : Prog} {bands : List Band} {par : Bool} (H : Stage p bands par) {same : Nat → Nat → Prop} (E : Edit p p' same)
    (hok : p'.OK) (hleg : p'.Legal) (hsl : SatLen p')
    (hlow : ∀ i l, (∀ c ∈ bands, i ∈ c.loop.stmts → l < c.loop.depth) → same i l)
    (hfw : par = true → ∀ b ∈ bands, Forward p' b) : Stage p' bands par :=
  ⟨hok, hleg, hsl,
    ⟨fun b hb => ⟨by rw [E.levels]; exact (H.bandsOK.range b hb).1, fun i hi => by rw [E.len]; exact (H.bandsOK.range b hb).2 i hi⟩,
      H.bandsOK.nodup, H.bandsOK.disjoint⟩,
    H.width, E.separated H.ok hok H.bandsOK.disjoint H.sep (fun b hb => by have := (H.bandsOK.range b hb).1; omega) hlow, hfw⟩

theorem Edit.parSound {p p' : Prog} {same : Nat → Nat → Prop} (E : Edit p p' same) (hd : p'.deps = p.deps) {S : List Nat}
    (hS : ∀ i ∈ S, ∀ l, same i l) (h : ParSound p S) : ParSound p' S := by
  intro d hdm hr hs ht l hb s t q hin htied
  rw [hd] at hdm
  have hc : ∀ l, p'.comp d l s t q = p.comp d l s t q := fun l => by
    unfold Prog.comp
    rw [E.phi (hS _ hs l), E.phi (hS _ ht l)]
  have hin' : p.Inst d s t q := ⟨by rw [← E.dim]; exact hin.hs, by rw [← E.dim]; exact hin.ht, by rw [← E.npar]; exact hin.hp, hin.sat⟩
  rw [hc]
  exact h d hdm hr hs ht l hb s t q hin' (fun l' hl' => by rw [← hc]; exact htied l' hl')

/-- The intra-tile optimization of all bands. -/
theorem intraFold {best : Prog → List Loop → Option Loop} (hbest : ∀ p ls L, best p ls = some L → L ∈ ls) {bands : List Band} {par : Bool}
    {k : Nat} (hk : 0 < k) : ∀ (rest : List Band) (p : Prog), Stage p bands par → PureScalars p → (∀ b ∈ rest, b ∈ bands) →
    rest.Pairwise (fun b c => ∀ i ∈ b.loop.stmts, i ∉ c.loop.stmts) → (∀ b ∈ rest, TBand p b k ∧ ParSound p b.loop.stmts) →
    ∃ p', rest.foldlM (fun p b => intraTileBand best p b k) p = some p' ∧ Stage p' bands par ∧ PureScalars p' := by
  intro rest
  induction rest with
  | nil => intro p H hps _ _ _; exact ⟨p, rfl, H, hps⟩
  | cons b rest ih =>
    intro p H hps hsub hdis hT
    obtain ⟨hd1, hd2⟩ := List.pairwise_cons.mp hdis
    have hbm := hsub b (by simp)
    obtain ⟨T, hP⟩ := hT b (by simp)
    obtain ⟨p1, h1, h2, h3, h4⟩ := intraTileBand_spec hbest H.ok H.legal hps H.satLen hk T hP
    have E := h4.edit
    have edeps : p1.deps = p.deps := by rw [h4.eq]
    have ehp : p1.hProps = p.hProps := by rw [h4.eq]
    have hkw : b.width ≤ k * b.width := Nat.le_mul_of_pos_left _ hk
    have hS1 : Stage p1 bands par := by
      refine E.stage H h2 h3 (fun d hd hr => ?_) (fun i l hl => ?_) (fun hpar c hc => ?_)
      · rw [edeps] at hd
        rw [ehp]; exact H.satLen d hd hr
      · by_cases hi : i ∈ b.loop.stmts
        · have := hl b hbm hi
          right; omega
        · exact .inl hi
      · obtain ⟨r1, r2⟩ := H.bandsOK.range c hc
        refine E.forward H.ok h2 r2 r1 (fun i hi l hl => ?_) (H.fwd hpar c hc)
        rcases apart_mem H.bandsOK.disjoint hc hbm with rfl | h
        · right; omega
        · exact .inl (h i hi)
    obtain ⟨p', k1, k2, k3⟩ := ih p1 hS1 (h4.pure hps) (fun c hc => hsub c (by simp [hc])) hd2 (fun c hc => by
      obtain ⟨Tc, Pc⟩ := hT c (by simp [hc])
      have hS : ∀ i ∈ c.loop.stmts, ∀ l, i ∉ b.loop.stmts ∨ l < b.loop.depth + k * b.width :=
        fun i hi l => .inl (fun hib => hd1 c hc i hib hi)
      exact ⟨E.tband H.ok h2 hS Tc (hS1.sep c (hsub c (by simp [hc]))), E.parSound edeps hS Pc⟩)
    refine ⟨p', ?_, k2, k3⟩
    rw [List.foldlM_cons, h1]
    exact k1

theorem Stage.resat {p p' : Prog} {bands : List Band} {par : Bool} (H : Stage p bands par) (hi : p'.Info) (e : p' = { p with deps := p'.deps })
    (f : List.Forall₂ (fun d d' : Dep =>
      d' = ⟨d.src, d.dest, d.rar, d.dpoly, d.bpoly, d'.satisfied, d'.satLevel, d'.satvec, d'.dirvec⟩) p.deps p'.deps) : Stage p' bands par :=
  (resat_edit e f).stage H (resat_ok e f H.ok) (resat_legal e f H.legal) hi.satLen (fun _ _ _ => trivial) (fun hpar b hb => by
    obtain ⟨r1, r2⟩ := H.bandsOK.range b hb
    exact (resat_edit e f).forward H.ok (resat_ok e f H.ok) r2 r1 (fun _ _ _ _ => trivial) (H.fwd hpar b hb))

theorem resat_pure {p p' : Prog} (e : p' = { p with deps := p'.deps }) (h : PureScalars p) : PureScalars p' := by
  rw [e]; exact h

theorem resat_types {p p' : Prog} (e : p' = { p with deps := p'.deps }) (h : TypesRight p) : TypesRight p' := by
  rw [e]; exact h

/-! ### Wavefronts -/

/-- A clear satisfaction bit means that the level carries nothing of the dependence. -/
def BitOK (p : Prog) (d : Dep) (l : Nat) : Prop :=
  d.satvec[l]? = some false → ∀ s t q, p.Inst d s t q → p.TiedBelow d l s t q → p.comp d l s t q = 0

theorem Waved.bit {p p' : Prog} {b : Band} {ks : List Nat} (h : Waved p p' b ks) (hok : p.OK) (hleg : p.Legal)
    (hf : b.loop.depth < p.hProps.length) (hnd : ks.Nodup) (hgt : ∀ k ∈ ks, b.loop.depth < k) (hsep : Separated p b)
    (hnn : ∀ d ∈ p.deps, d.rar = false → d.src ∈ b.loop.stmts → d.dest ∈ b.loop.stmts → ∀ s t q, p.Inst d s t q →
      p.TiedBelow d b.loop.depth s t q → ∀ k ∈ ks, 0 ≤ p.comp d k s t q)
    {d d' : Dep} (hd : d ∈ p.deps) (hm : mergeDep b ks d = some d') (e : d' = { d with satvec := d'.satvec }) (hr : d.rar = false) {l0 : Nat}
    (hB : BitOK p d l0) (hL : l0 = b.loop.depth → d.src ∈ b.loop.stmts → d.dest ∉ b.loop.stmts) : BitOK p' d' l0 := by
  intro hbit s t q hin' htied'
  have hks : b.loop.depth ∉ ks := fun hc => by have := hgt _ hc; omega
  have hin : p.Inst d s t q := h.inst hok hf hks e hin'
  rw [comp_dep e]
  have htied : ∀ l < l0, p'.comp d l s t q = 0 := fun l hl => by rw [← comp_dep e]; exact htied' l hl
  obtain ⟨d1, d2, _⟩ := hok.deps d hd
  have gs := List.getElem?_eq_getElem d1
  have gt := List.getElem?_eq_getElem d2
  have ls := hok.levels _ (List.mem_of_getElem? gs)
  have lt := hok.levels _ (List.mem_of_getElem? gt)
  by_cases c : d.src ∈ b.loop.stmts ∧ d.dest ∈ b.loop.stmts
  · obtain ⟨c1, c2⟩ := c
    have hv : mergeSatvec b.loop.depth ks d.satvec = some d'.satvec := by
      unfold mergeDep at hm
      rw [if_pos (by simp [hr, c1, c2])] at hm
      simp only [Option.bind_eq_bind, Option.bind_eq_some_iff, pure, Option.some.injEq] at hm
      obtain ⟨v, h1, h2⟩ := hm
      rw [h1, ← h2]
    obtain ⟨v1, v2, v3, v4⟩ := mergeSatvec_spec hv hks hnd
    rcases Nat.lt_trichotomy l0 b.loop.depth with hlt | heq | hgt'
    · rw [h.comp_ne hok hf hks (by omega)]
      rw [v3 l0 (by omega) (fun hc => by have := hgt _ hc; omega)] at hbit
      refine hB hbit s t q hin (fun l hl => ?_)
      rw [← h.comp_ne hok hf hks (by omega)]
      exact htied l hl
    · exact absurd c2 (hL heq c1)
    · have hold : p.TiedBelow d b.loop.depth s t q := fun l hl => by
        rw [← h.comp_ne hok hf hks (by omega)]; exact htied l (by omega)
      obtain ⟨z1, z2⟩ := h.same hok hleg hf hks hnn hd hr c1 c2 hin hold (htied _ hgt')
      rw [h.comp_ne hok hf hks (by omega)]
      by_cases hk : l0 ∈ ks
      · exact z2 _ hk
      · rw [v3 l0 (by omega) hk] at hbit
        refine hB hbit s t q hin (fun l hl => ?_)
        by_cases hl' : l = b.loop.depth
        · rw [hl']; exact z1
        · rw [← h.comp_ne hok hf hks hl']; exact htied l hl
  · have hdd : d' = d := by
      unfold mergeDep at hm
      rw [if_neg (by simp only [hr, Bool.not_false, Bool.true_and, Bool.and_eq_true, List.contains_iff_mem]; exact c)] at hm
      simpa using hm.symm
    rw [hdd] at hbit
    by_cases c2 : d.src ∈ b.loop.stmts ↔ d.dest ∈ b.loop.stmts
    · have o1 : d.src ∉ b.loop.stmts := fun x => c ⟨x, c2.mp x⟩
      have o2 : d.dest ∉ b.loop.stmts := fun x => c ⟨c2.mpr x, x⟩
      have hsame : ∀ l, p'.comp d l s t q = p.comp d l s t q := by
        intro l
        simp only [Prog.comp, h.phi_out hok hf hks o1, h.phi_out hok hf hks o2]
      rw [hsame]
      exact hB hbit s t q hin (fun l hl => by rw [← hsame]; exact htied l hl)
    · have hle : l0 < b.loop.depth ∨ b.loop.depth ≤ l0 := by omega
      rcases hle with hlt | hge
      · rw [h.comp_ne hok hf hks (by omega)]
        refine hB hbit s t q hin (fun l hl => ?_)
        rw [← h.comp_ne hok hf hks (by omega)]
        exact htied l hl
      · exfalso
        obtain ⟨m, x, y, m1, m2, m3, m4⟩ := hsep d hd hr c2 s t q hin.hs hin.ht hin.hp hin.sat
        have hml : m < b.loop.depth := by
          have := (List.getElem?_eq_some_iff.mp m1).1
          simp at this; omega
        rw [List.getElem?_take_of_lt hml, timestamp_get gs (by omega)] at m1
        rw [List.getElem?_take_of_lt hml, timestamp_get gt (by omega)] at m2
        simp only [Option.some.injEq] at m1 m2
        have := htied m (by omega)
        rw [h.comp_ne hok hf hks (by omega)] at this
        unfold Prog.comp at this
        omega

/-- What is known of the satisfaction bits after wavefronts for the bands in `done`. -/
structure Bits (p : Prog) (done : List Band) : Prop where
  ok : ∀ d ∈ p.deps, d.rar = false → ∀ l, (∀ b ∈ done, loopIsParallel p b.loop = some false → l = b.loop.depth →
    d.src ∈ b.loop.stmts → d.dest ∉ b.loop.stmts) → BitOK p d l

theorem loopIsParallel_congr {p p' : Prog} {L : Loop} (h : List.Forall₂ (fun d d' : Dep => d'.src = d.src ∧ d'.dest = d.dest ∧ d'.rar = d.rar ∧
    (d.src ∈ L.stmts → d.dest ∈ L.stmts → d'.satvec = d.satvec)) p.deps p'.deps) : loopIsParallel p' L = loopIsParallel p L := by
  have aux : ∀ (l l' : List Dep), List.Forall₂ (fun d d' : Dep => d'.src = d.src ∧ d'.dest = d.dest ∧ d'.rar = d.rar ∧
      (d.src ∈ L.stmts → d.dest ∈ L.stmts → d'.satvec = d.satvec)) l l' →
      (l'.filter (fun d => !d.rar && L.stmts.contains d.src && L.stmts.contains d.dest)).mapM (fun d => d.satvec[L.depth]?) =
      (l.filter (fun d => !d.rar && L.stmts.contains d.src && L.stmts.contains d.dest)).mapM (fun d => d.satvec[L.depth]?) := by
    intro l l' h
    induction h with
    | nil => rfl
    | @cons d d' l l' hd _ ih =>
      obtain ⟨e1, e2, e3, e4⟩ := hd
      have ec : (!d'.rar && L.stmts.contains d'.src && L.stmts.contains d'.dest) = (!d.rar && L.stmts.contains d.src && L.stmts.contains d.dest) := by
        rw [e1, e2, e3]
      by_cases c : (!d.rar && L.stmts.contains d.src && L.stmts.contains d.dest) = true
      · rw [List.filter_cons_of_pos (a := d') (by rw [ec]; exact c), List.filter_cons_of_pos (a := d) (by exact c), List.mapM_cons, List.mapM_cons, ih]
        simp only [Bool.and_eq_true, List.contains_iff_mem] at c
        rw [e4 c.1.2 c.2]
      · rw [List.filter_cons_of_neg (a := d') (by rw [ec]; exact c), List.filter_cons_of_neg (a := d) (by exact c), ih]
  unfold loopIsParallel
  rw [aux _ _ h]

theorem waveFold {bands : List Band} (o : TileOpts) (hip : o.innerpar = false) : ∀ (rest done : List Band) (p : Prog) (r : Bool),
    Stage p bands true → Bits p done → (∀ b ∈ rest, b ∈ bands) →
    (done ++ rest).Pairwise (fun b c => ∀ i ∈ b.loop.stmts, i ∉ c.loop.stmts) →
    ∃ p' r', rest.foldlM (fun r b => (createTileSchedule r.1 b o.multipar o.innerpar).map (fun x => (x.1, r.2 || x.2))) (p, r) =
      some (p', r') ∧ Stage p' bands true ∧ Bits p' (done ++ rest) := by
  intro rest
  induction rest with
  | nil => intro done p r H hB _ _; exact ⟨p, r, rfl, H, by simpa using hB⟩
  | cons b rest ih =>
    intro done p r H hB hsub hdis
    have hbm := hsub b (by simp)
    obtain ⟨r1, r2⟩ := H.bandsOK.range b hbm
    have hw := H.width b hbm
    have hf : b.loop.depth < p.hProps.length := by omega
    obtain ⟨p1, x, h1, hc⟩ := createTileSchedule_spec H.ok H.satLen (H.bandsOK.nodup b hbm) r2 hf r1 o.multipar
    have key : Stage p1 bands true ∧ Bits p1 (done ++ [b]) := by
      rcases hc with ⟨_, rfl, _⟩ | ⟨_, hseq, ks, k1, k2, k3, k4⟩
      · exact ⟨H, ⟨fun d hd hr l hex => hB.ok d hd hr l (fun c hc => hex c (by simp [hc]))⟩⟩
      · have hgt : ∀ k ∈ ks, b.loop.depth < k := fun k hk => ((k3 k).mp hk).1.1
        have hks : b.loop.depth ∉ ks := fun hc => by have := hgt _ hc; omega
        have hnn : ∀ d ∈ p.deps, d.rar = false → d.src ∈ b.loop.stmts → d.dest ∈ b.loop.stmts → ∀ s t q, p.Inst d s t q →
            p.TiedBelow d b.loop.depth s t q → ∀ k ∈ ks, 0 ≤ p.comp d k s t q :=
          fun d a1 a2 a3 a4 s t q a5 a6 k hk => H.fwd rfl b hbm d a1 a2 a3 a4 s t q a5 a6 k ((k3 k).mp hk).1
        have hok1 := k4.ok H.ok hf hks
        have E := k4.edit H.ok hf hks
        have hsl : SatLen p1 := by
          intro d' hd' hr'
          obtain ⟨d, hd, hm, e⟩ := k4.dep H.ok hf hks hd'
          have hr : d.rar = false := by rw [e] at hr'; exact hr'
          rw [k4.levels, ← H.satLen d hd hr]
          unfold mergeDep at hm
          by_cases c : (!d.rar && b.loop.stmts.contains d.src && b.loop.stmts.contains d.dest) = true
          · rw [if_pos c] at hm
            simp only [Option.bind_eq_bind, Option.bind_eq_some_iff, pure, Option.some.injEq] at hm
            obtain ⟨v, m1, m2⟩ := hm
            rw [← m2]
            exact (mergeSatvec_spec m1 hks k1).1
          · rw [if_neg c] at hm
            cases hm; rfl
        refine ⟨E.stage H hok1 (k4.legal H.ok H.legal hf hks (H.sep b hbm) hnn) hsl (fun i l hl => ?_) (fun _ c hc => ?_), ⟨?_⟩⟩
        · by_cases hi : i ∈ b.loop.stmts
          · have := hl b hbm hi
            right; omega
          · exact .inl hi
        · rcases apart_mem H.bandsOK.disjoint hc hbm with rfl | h
          · intro d' hd' hr' hs' ht' s t q hin htied k hk
            obtain ⟨d, hd, es, et, er, hi, hcp⟩ := E.pull hd' hin
            rw [es] at hs'
            rw [et] at ht'
            obtain ⟨q1, q2, q3⟩ := hk
            have hcp : ∀ l, l ≠ c.loop.depth → p1.comp d' l s t q = p.comp d l s t q := fun l hl => hcp l (.inr hl) (.inr hl)
            rw [hcp k (by omega)]
            refine H.fwd rfl c hc d hd (by rw [← er]; exact hr') hs' ht' s t q hi
              (fun l hl => by rw [← hcp l (by omega)]; exact htied l hl) k
              ⟨q1, q2, fun i hi hsc => q3 i hi ((E.scalar H.ok hok1 (r2 i hi) (by omega) (.inr (by omega))).mpr hsc)⟩
          · obtain ⟨c1, c2⟩ := H.bandsOK.range c hc
            exact E.forward H.ok hok1 c2 c1 (fun i hi l _ => .inl (h i hi)) (H.fwd rfl c hc)
        · intro d' hd' hr' l hex
          obtain ⟨d, hd, hm, e⟩ := k4.dep H.ok hf hks hd'
          have hr : d.rar = false := by rw [e] at hr'; exact hr'
          have es : d'.src = d.src := by rw [e]
          have et : d'.dest = d.dest := by rw [e]
          rw [es, et] at hex
          have hpb : loopIsParallel p1 b.loop = some false := by
            obtain ⟨v, hv⟩ := Option.isSome_iff_exists.mp (loopIsParallel_defined hsl (L := b.loop) (by rw [k4.levels]; exact hf))
            cases v with
            | false => exact hv
            | true =>
              exfalso
              have := parallel_of_bits hseq (fun e1 he1 r1 s1 t1 => by
                obtain ⟨n, hn, rfl⟩ := List.getElem_of_mem he1
                have hl := k4.deps.length_eq
                have hD := (List.forall₂_iff_get.mp k4.deps).2 n hn (by omega)
                simp only [List.get_eq_getElem] at hD
                unfold mergeDep at hD
                rw [if_pos (by simp [r1, s1, t1])] at hD
                simp only [Option.bind_eq_bind, Option.bind_eq_some_iff, pure, Option.some.injEq] at hD
                obtain ⟨v, m1, m2⟩ := hD
                have hlen : n < p1.deps.length := by omega
                have hb' := parallel_bit hv (List.getElem_mem hlen) (by rw [← m2]; exact r1) (by rw [← m2]; exact s1) (by rw [← m2]; exact t1)
                rw [← m2] at hb'
                exact ((mergeSatvec_spec m1 hks k1).2.2.2 hb' (by rw [H.satLen _ he1 r1]; exact hf)).1)
              simp at this
          refine k4.bit H.ok H.legal hf k1 hgt (H.sep b hbm) hnn hd hm e hr (hB.ok d hd hr l (fun c hc hpc => ?_)) (hex b (by simp) hpb)
          refine hex c (by simp [hc]) ?_
          rw [← hpc]
          have hdis' : ∀ i ∈ c.loop.stmts, i ∉ b.loop.stmts := (List.pairwise_append.mp hdis).2.2 c hc b (by simp)
          refine loopIsParallel_congr (List.Forall₂.imp ?_ k4.deps)
          intro e1 e2 hm12
          unfold mergeDep at hm12
          by_cases cc : (!e1.rar && b.loop.stmts.contains e1.src && b.loop.stmts.contains e1.dest) = true
          · rw [if_pos cc] at hm12
            simp only [Option.bind_eq_bind, Option.bind_eq_some_iff, pure, Option.some.injEq] at hm12
            obtain ⟨v, _, m2⟩ := hm12
            simp only [Bool.and_eq_true, List.contains_iff_mem] at cc
            rw [← m2]
            exact ⟨rfl, rfl, rfl, fun h => absurd cc.1.2 (hdis' _ h)⟩
          · rw [if_neg cc] at hm12
            cases hm12
            exact ⟨rfl, rfl, rfl, fun _ _ => rfl⟩
    obtain ⟨p', r', g1, g2, g3⟩ := ih (done ++ [b]) p1 (r || x) key.1 key.2 (fun c hc => hsub c (by simp [hc])) (by simpa using hdis)
    refine ⟨p', r', ?_, g2, by simpa using g3⟩
    rw [List.foldlM_cons, hip, h1]
    rw [hip] at g1
    exact g1

end Pluto
