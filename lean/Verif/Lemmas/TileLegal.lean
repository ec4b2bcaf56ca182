import Verif.Lemmas.TileAll

/-! Tiling permutable bands keeps the schedule legal. -/

namespace Pluto

variable {p : Prog} {a : Nat → TArg} {p' : Prog}

theorem TStmt.exactly {npar f k : Nat} {sizes : Nat → Int} {st0 st st' : Stmt} (h : TStmt npar f sizes k st0 st)
    (hd : st'.domain = st.domain) (hdim : st'.dim = st.dim) : TiledExactly npar f sizes k st0 st' := by
  refine ⟨by rw [hdim, h.dim], ?_, ?_, ?_⟩
  · intro x q hx hq hs
    refine ⟨tileCoords st0 f sizes k x q, ⟨tileCoords_length _ _ _ _ _ _, ?_⟩, ?_⟩
    · rw [hd, h.sat _ x q (tileCoords_length _ _ _ _ _ _) hx hq]; exact ⟨hs, rfl⟩
    · rintro T ⟨hT, hs'⟩
      rw [hd, h.sat T x q hT hx hq] at hs'
      exact hs'.2
  · intro T x q hT hx hq hs'
    rw [hd, h.sat T x q hT hx hq] at hs'
    exact hs'.2
  · intro T x q hT hx hq hs'
    rw [hd, h.sat T x q hT hx hq] at hs'
    exact hs'.1

theorem fdiv_mono {x y k : Int} (hk : 1 ≤ k) (h : x ≤ y) : x.fdiv k ≤ y.fdiv k := by
  rw [Int.fdiv_eq_ediv_of_nonneg x (by omega), Int.fdiv_eq_ediv_of_nonneg y (by omega)]
  exact Int.ediv_le_ediv (by omega) h

theorem phi_val {i l : Nat} {st : Stmt} (hi : p.stmts[i]? = some st) (x q : List Int) :
    p.phi i l x q = st.val l x q := by
  unfold Prog.phi Prog.row Stmt.val
  rw [hi, List.getD_eq_getElem?_getD]; rfl

theorem timestamp_get {i l : Nat} {st : Stmt} (hi : p.stmts[i]? = some st) (hl : l < st.trans.length) (x q : List Int) :
    (p.timestamp i x q)[l]? = some (p.phi i l x q) := by
  rw [phi_val hi]
  unfold Prog.timestamp Stmt.val
  simp [hi, hl]

/-- A pair in one band. -/
theorem inside_lex {d : Dep} {f w : Nat} {sizes : Nat → Int} {ss st : Stmt}
    (hs : p.stmts[d.src]? = some ss) (ht : p.stmts[d.dest]? = some st)
    (hls : f + w ≤ ss.trans.length) (hlt : f + w ≤ st.trans.length) (hz : ∀ m < w, 1 ≤ sizes m)
    (s t q : List Int)
    (hleg : LexBefore (p.timestamp d.src s q) (p.timestamp d.dest t q))
    (hperm : p.TiedBelow d f s t q → ∀ m < w, 0 ≤ p.comp d (f + m) s t q ∨
      ∃ m0 < m, p.ScalarType (f + m0) d.src ∧ p.ScalarType (f + m0) d.dest ∧ 1 ≤ p.comp d (f + m0) s t q)
    (hmix : ∀ m < w, (∀ m0 < m, p.ScalarType (f + m0) d.src → p.ScalarType (f + m0) d.dest →
        p.phi d.src (f + m0) s q = p.phi d.dest (f + m0) t q) →
      (p.ScalarType (f + m) d.src → ¬ p.ScalarType (f + m) d.dest → p.phi d.src (f + m) s q = 0) ∧
      (p.ScalarType (f + m) d.dest → ¬ p.ScalarType (f + m) d.src → p.phi d.dest (f + m) t q = 0))
    (X Y : List Int) :
    LexBefore ((p.timestamp d.src s q).take f ++ (tileTime ss f sizes w s q ++ ((p.timestamp d.src s q).drop f ++ X)))
      ((p.timestamp d.dest t q).take f ++ (tileTime st f sizes w t q ++ ((p.timestamp d.dest t q).drop f ++ Y))) := by
  have l1 : (p.timestamp d.src s q).length = ss.trans.length := by simp [Prog.timestamp, hs]
  have l2 : (p.timestamp d.dest t q).length = st.trans.length := by simp [Prog.timestamp, ht]
  rw [← List.take_append_drop f (p.timestamp d.src s q), ← List.take_append_drop f (p.timestamp d.dest t q)] at hleg
  have ll : ((p.timestamp d.src s q).take f).length = ((p.timestamp d.dest t q).take f).length := by simp; omega
  rcases lex_split ll hleg with h | ⟨h1, h2⟩
  · exact lex_append h _ _
  · rw [h1, lex_prefix]
    have tied : p.TiedBelow d f s t q := by
      intro l hl
      have e := congrArg (·[l]?) h1
      rw [List.getElem?_take_of_lt hl, List.getElem?_take_of_lt hl, timestamp_get hs (by omega),
        timestamp_get ht (by omega)] at e
      unfold Prog.comp
      simp only [Option.some.injEq] at e
      omega
    have hp := hperm tied
    have sty : ∀ m, (p.ScalarType (f + m) d.src ↔ ss.hypTypes[f + m]? = some HypType.scalar) := fun m => by
      unfold Prog.ScalarType; simp [hs]
    have tty : ∀ m, (p.ScalarType (f + m) d.dest ↔ st.hypTypes[f + m]? = some HypType.scalar) := fun m => by
      unfold Prog.ScalarType; simp [ht]
    have key := lex_range w
      (fun m => if ss.hypTypes[f + m]? = some HypType.scalar then ss.val (f + m) s q else (ss.val (f + m) s q).fdiv (sizes m))
      (fun m => if st.hypTypes[f + m]? = some HypType.scalar then st.val (f + m) t q else (st.val (f + m) t q).fdiv (sizes m))
      (by
        intro m hm heq
        have hsc : ∀ m0 < m, p.ScalarType (f + m0) d.src → p.ScalarType (f + m0) d.dest →
            p.phi d.src (f + m0) s q = p.phi d.dest (f + m0) t q := by
          intro m0 hm0 a1 a2
          rw [sty] at a1
          rw [tty] at a2
          have := heq m0 hm0
          simp only [a1, a2, if_true] at this
          rw [phi_val hs, phi_val ht, this]
        rcases hp m hm with h | ⟨m0, hm0, a1, a2, a3⟩
        · unfold Prog.comp at h
          rw [phi_val hs, phi_val ht] at h
          obtain ⟨x1, x2⟩ := hmix m hm hsc
          rw [sty, tty, phi_val hs] at x1
          rw [sty, tty, phi_val ht] at x2
          have z := hz m hm
          split_ifs with c1 c2 c2
          · omega
          · rw [x1 c1 c2] at h ⊢
            have := fdiv_mono z (by omega : 0 ≤ st.val (f + m) t q)
            simpa using this
          · rw [x2 c2 c1] at h ⊢
            have := fdiv_mono z (by omega : ss.val (f + m) s q ≤ 0)
            simpa using this
          · exact fdiv_mono z (by omega)
        · have := hsc m0 hm0 a1 a2
          unfold Prog.comp at a3
          omega)
    unfold tileTime
    rcases key with e | e
    · rw [e, lex_prefix]
      exact lex_append h2 _ _
    · exact lex_append e _ _

theorem take_take_lex {A B : List Int} {f g : Nat}
    (h1 : LexBefore (A.take f) (B.take f)) (h2 : LexBefore (A.take g) (B.take g)) :
    ∃ l x y, l < f ∧ l < g ∧ A[l]? = some x ∧ B[l]? = some y ∧ x < y ∧ ∀ l' < l, A[l']? = B[l']? := by
  rcases Nat.le_total f g with hfg | hfg
  · obtain ⟨l, x, y, a1, a2, a3, a4⟩ := h1
    have hlf : l < f := by
      have := (List.getElem?_eq_some_iff.mp a1).1; simp at this; omega
    rw [List.getElem?_take_of_lt hlf] at a1 a2
    refine ⟨l, x, y, hlf, by omega, a1, a2, a3, fun l' hl' => ?_⟩
    have := a4 l' hl'
    rwa [List.getElem?_take_of_lt (by omega), List.getElem?_take_of_lt (by omega)] at this
  · obtain ⟨l, x, y, a1, a2, a3, a4⟩ := h2
    have hlf : l < g := by
      have := (List.getElem?_eq_some_iff.mp a1).1; simp at this; omega
    rw [List.getElem?_take_of_lt hlf] at a1 a2
    refine ⟨l, x, y, by omega, hlf, a1, a2, a3, fun l' hl' => ?_⟩
    have := a4 l' hl'
    rwa [List.getElem?_take_of_lt (by omega), List.getElem?_take_of_lt (by omega)] at this

/-- Order decided on a level before both bands survives whatever is put at the bands. -/
theorem lex_before_both {A B X Y : List Int} {f g : Nat} (h : ∃ l x y, l < f ∧ l < g ∧ A[l]? = some x ∧ B[l]? = some y ∧
    x < y ∧ ∀ l' < l, A[l']? = B[l']?) : LexBefore (A.take f ++ X) (B.take g ++ Y) := by
  obtain ⟨l, x, y, h1, h2, h3, h4, h5, h6⟩ := h
  have la : l < A.length := (List.getElem?_eq_some_iff.mp h3).1
  have lb : l < B.length := (List.getElem?_eq_some_iff.mp h4).1
  refine ⟨l, x, y, ?_, ?_, h5, ?_⟩
  · rw [List.getElem?_append_left (by simp; omega), List.getElem?_take_of_lt h1, h3]
  · rw [List.getElem?_append_left (by simp; omega), List.getElem?_take_of_lt h2, h4]
  · intro l' hl'
    rw [List.getElem?_append_left (by simp; omega), List.getElem?_take_of_lt (by omega),
      List.getElem?_append_left (by simp; omega), List.getElem?_take_of_lt (by omega)]
    exact h6 l' hl'

theorem tile_legal (hok : p.OK) {bands : List Band} {sizes : Nat → Nat → Int} (hb : BandsOK p bands)
    (hz : ∀ (n : Nat) (b : Band), bands[n]? = some b → ∀ m < b.width, 1 ≤ sizes n m)
    (ha : ∀ (n : Nat) (b : Band), bands[n]? = some b → ∀ i ∈ b.loop.stmts, a i = ⟨b.loop.depth, sizes n, b.width⟩)
    (ha0 : ∀ i, (∀ b ∈ bands, i ∉ b.loop.stmts) → a i = ⟨0, fun _ => 0, 0⟩)
    (h : Tiled p a p') (hleg : p.Legal) (hperm : ∀ b ∈ bands, Permutable p b)
    (hsep : ∀ b ∈ bands, Separated p b) (hmix : ∀ b ∈ bands, Unmixed p b) : p'.Legal := by
  have hr : ∀ (i : Nat) (st0 : Stmt), p.stmts[i]? = some st0 → (a i).f + (a i).k ≤ st0.trans.length ∨ (a i).k = 0 := by
    intro i st0 hi
    by_cases hc : ∃ b ∈ bands, i ∈ b.loop.stmts
    · obtain ⟨b, hbm, hib⟩ := hc
      obtain ⟨n, hn⟩ := List.getElem?_of_mem hbm
      left
      rw [ha n b hn i hib, hok.levels st0 (List.mem_of_getElem? hi)]
      exact (hb.range b hbm).1
    · push Not at hc
      right; rw [ha0 i hc]
  intro d' hd' hrar s' t' q hs' ht' hq hsat
  obtain ⟨n, hn, rfl⟩ := List.getElem_of_mem hd'
  have hl := h.deps.length_eq
  have hD := (List.forall₂_iff_get.mp h.deps).2 n (by omega) hn
  simp only [List.get_eq_getElem] at hD
  set d := p.deps[n] with hd
  have hdm : d ∈ p.deps := List.getElem_mem _
  obtain ⟨k1, k2, k3⟩ := hok.deps d hdm
  have gs := List.getElem?_eq_getElem k1
  have gt := List.getElem?_eq_getElem k2
  set ss := p.stmts[d.src] with hss
  set st := p.stmts[d.dest] with hst
  have lens := hok.levels ss (List.getElem_mem _)
  have lent := hok.levels st (List.getElem_mem _)
  rw [hD.src, h.dim gs] at hs'
  rw [hD.dest, h.dim gt] at ht'
  rw [hD.rar] at hrar
  rw [h.npar] at hq
  rw [hD.src, hD.dest]
  obtain ⟨S, s, rfl, lS, ls⟩ : ∃ S s, s' = S ++ s ∧ S.length = (a d.src).n ss ∧ s.length = ss.dim :=
    ⟨s'.take ((a d.src).n ss), s'.drop ((a d.src).n ss), by simp, by simp; omega, by simp; omega⟩
  obtain ⟨T, t, rfl, lT, lt⟩ : ∃ T t, t' = T ++ t ∧ T.length = (a d.dest).n st ∧ t.length = st.dim :=
    ⟨t'.take ((a d.dest).n st), t'.drop ((a d.dest).n st), by simp, by simp; omega, by simp; omega⟩
  obtain ⟨w, c, sat⟩ := hD.sat ss st gs gt
  obtain ⟨hsat0, eS, eT⟩ := (sat S s T t q lS ls lT lt hq).mp hsat
  obtain ⟨n1, e1⟩ := h.timestamp gs (hr _ _ gs) s q
  obtain ⟨n2, e2⟩ := h.timestamp gt (hr _ _ gt) t q
  rw [eS, eT, e1, e2]
  have ds : s.length = p.dim d.src := by rw [ls]; simp [Prog.dim, gs]
  have dt : t.length = p.dim d.dest := by rw [lt]; simp [Prog.dim, gt]
  have hL := hleg d hdm hrar s t q ds dt hq hsat0
  have notboth : ∀ b ∈ bands, ¬(d.src ∈ b.loop.stmts ↔ d.dest ∈ b.loop.stmts) →
      LexBefore ((p.timestamp d.src s q).take b.loop.depth) ((p.timestamp d.dest t q).take b.loop.depth) :=
    fun b hbm hne => hsep b hbm d hdm hrar hne s t q ds dt hq hsat0
  by_cases cs : ∃ b ∈ bands, d.src ∈ b.loop.stmts
  · obtain ⟨b, hbm, hsb⟩ := cs
    obtain ⟨nb, hnb⟩ := List.getElem?_of_mem hbm
    have as := ha nb b hnb _ hsb
    by_cases ctb : d.dest ∈ b.loop.stmts
    · have at' := ha nb b hnb _ ctb
      rw [as, at']
      have hrg := (hb.range b hbm).1
      refine inside_lex gs gt (by rw [lens]; exact hrg) (by rw [lent]; exact hrg) (hz nb b hnb) s t q hL
        (hperm b hbm d hdm hrar hsb ctb s t q ds dt hq hsat0) ?_ _ _
      intro m hm hsc
      exact ⟨fun x y => hmix b hbm _ hsb _ ctb s t q ds dt hq m hm x y hsc,
        fun x y => hmix b hbm _ ctb _ hsb t s q dt ds hq m hm x y (fun m0 h0 u v => (hsc m0 h0 v u).symm)⟩
    · have l1 := notboth b hbm (by simp [hsb, ctb])
      by_cases ct : ∃ c ∈ bands, d.dest ∈ c.loop.stmts
      · obtain ⟨c, hcm, htc⟩ := ct
        obtain ⟨nc, hnc⟩ := List.getElem?_of_mem hcm
        have hsc : d.src ∉ c.loop.stmts := by
          intro hsc
          have e1 : b ≠ c := fun e => ctb (e ▸ htc)
          have hne : nb ≠ nc := fun e => e1 (by rw [e, hnc] at hnb; cases hnb; rfl)
          have pw := hb.disjoint
          rw [List.pairwise_iff_getElem] at pw
          obtain ⟨b1, b2⟩ := List.getElem?_eq_some_iff.mp hnb
          obtain ⟨c1, c2⟩ := List.getElem?_eq_some_iff.mp hnc
          rcases Nat.lt_or_gt_of_ne hne with h' | h'
          · exact pw nb nc b1 c1 h' d.src (by rw [b2]; exact hsb) (by rw [c2]; exact hsc)
          · exact pw nc nb c1 b1 h' d.src (by rw [c2]; exact hsc) (by rw [b2]; exact hsb)
        have l2 := notboth c hcm (by simp [hsc, htc])
        rw [as, ha nc c hnc _ htc]
        exact lex_before_both (take_take_lex l1 l2)
      · push Not at ct
        rw [as, ha0 _ ct]
        simp only [tileTime, List.range_zero, List.map_nil, List.take_zero, List.drop_zero, List.nil_append]
        have : LexBefore ((p.timestamp d.src s q).take b.loop.depth ++ (tileTime ss b.loop.depth (sizes nb) b.width s q ++
          ((p.timestamp d.src s q).drop b.loop.depth ++ List.replicate n1 0)))
          ((p.timestamp d.dest t q).take b.loop.depth ++ ((p.timestamp d.dest t q).drop b.loop.depth ++ List.replicate n2 0)) :=
          lex_append l1 _ _
        rw [← List.append_assoc ((p.timestamp d.dest t q).take _) ((p.timestamp d.dest t q).drop _), List.take_append_drop] at this
        simpa [tileTime] using this
  · push Not at cs
    by_cases ct : ∃ c ∈ bands, d.dest ∈ c.loop.stmts
    · obtain ⟨c, hcm, htc⟩ := ct
      obtain ⟨nc, hnc⟩ := List.getElem?_of_mem hcm
      have l2 := notboth c hcm (by simp [cs c hcm, htc])
      rw [ha0 _ cs, ha nc c hnc _ htc]
      have : LexBefore ((p.timestamp d.src s q).take c.loop.depth ++ ((p.timestamp d.src s q).drop c.loop.depth ++ List.replicate n1 0))
        ((p.timestamp d.dest t q).take c.loop.depth ++ (tileTime st c.loop.depth (sizes nc) c.width t q ++
          ((p.timestamp d.dest t q).drop c.loop.depth ++ List.replicate n2 0))) :=
        lex_append l2 _ _
      rw [← List.append_assoc, List.take_append_drop] at this
      simpa [tileTime] using this
    · push Not at ct
      rw [ha0 _ cs, ha0 _ ct]
      simp only [tileTime, List.range_zero, List.map_nil, List.take_zero, List.drop_zero, List.nil_append]
      exact lex_append hL _ _

end Pluto
