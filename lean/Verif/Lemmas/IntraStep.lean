import Verif.Lemmas.SameRuns

/-! Moving a loop inwards in a permutable band keeps every dependence satisfied by a single level. -/

namespace Pluto

/-- Where level `l` of the rotated program comes from. -/
def rot (G n l : Nat) : Nat := if l < G then l else if l < G + n then l + 1 else if l = G + n then G else l

theorem rot_lt {G n l N : Nat} (hg : G + n < N) (hl : l < N) : rot G n l < N := by unfold rot; split_ifs <;> omega

theorem rot_out {G n l : Nat} (h : l < G ∨ G + n < l) : rot G n l = l := by unfold rot; split_ifs <;> omega

theorem rot_in {G n l : Nat} (h1 : G ≤ l) (h2 : l ≤ G + n) : G ≤ rot G n l ∧ rot G n l ≤ G + n := by unfold rot; split_ifs <;> omega

section
variable {p p' : Prog} {S : List Nat} {G n : Nat} (h : Rotated p p' S G n) (hok : p.OK) (hg : G + n < p.hProps.length)
include h hok hg

theorem Rotated.row_in {i : Nat} (hi : i ∈ S) (l : Nat) : p'.row i l = p.row i (rot G n l) := by
  obtain ⟨st, st', h1, h2, h3⟩ := h.inside i hi
  obtain ⟨_, _, a3⟩ := rotate_spec (by rw [hok.levels st (List.mem_of_getElem? h1)]; omega) h2
  simp only [Prog.row, h1, h3, Option.bind_some, a3]
  unfold rot
  split_ifs <;> rfl

omit hok hg in
theorem Rotated.row_out {i : Nat} (hi : i ∉ S) (l : Nat) : p'.row i l = p.row i l := by
  simp only [Prog.row, h.outside i hi]

theorem Rotated.phi_in {i : Nat} (hi : i ∈ S) (l : Nat) (x q : List Int) : p'.phi i l x q = p.phi i (rot G n l) x q := by
  unfold Prog.phi; rw [h.row_in hok hg hi]

omit hok hg in
theorem Rotated.phi_out {i : Nat} (hi : i ∉ S) (l : Nat) (x q : List Int) : p'.phi i l x q = p.phi i l x q := by
  unfold Prog.phi; rw [h.row_out hi]

theorem Rotated.scalar_in {i : Nat} (hi : i ∈ S) (hr : i < p.stmts.length) {l : Nat} (hl : l < p.hProps.length) :
    p'.Scalar l i ↔ p.Scalar (rot G n l) i := by
  have ehp : p'.hProps = p.hProps := by rw [h.eq]
  rw [scalar_iff_row (h.ok hok hg) (by rw [h.len]; exact hr) (by rw [ehp]; exact hl), scalar_iff_row hok hr (rot_lt hg hl),
    h.row_in hok hg hi, h.dim hok hg]

omit hok hg in
theorem Rotated.scalar_out {i : Nat} (hi : i ∉ S) {l : Nat} : p'.Scalar l i ↔ p.Scalar l i := by
  unfold Prog.Scalar; rw [h.outside i hi]

theorem Rotated.const_in {i : Nat} (hi : i ∈ S) (l : Nat) : p'.const l i = p.const (rot G n l) i := by
  unfold Prog.const; rw [h.row_in hok hg hi]

omit hok hg in
theorem Rotated.const_out {i : Nat} (hi : i ∉ S) (l : Nat) : p'.const l i = p.const l i := by
  unfold Prog.const; rw [h.row_out hi]

theorem Rotated.inst_iff {d : Dep} {s t q : List Int} : p'.Inst d s t q ↔ p.Inst d s t q := by
  have e : p'.npar = p.npar := by rw [h.eq]
  unfold Prog.Inst
  rw [h.dim hok hg, h.dim hok hg, e]

/-- The rows of one statement at a level that does not move. -/
theorem Rotated.row_low (i : Nat) {l : Nat} (hl : l < G ∨ G + n < l) : p'.row i l = p.row i l := by
  by_cases c : i ∈ S
  · rw [h.row_in hok hg c, rot_out hl]
  · exact h.row_out c l

theorem Rotated.scalar_low {i : Nat} (hr : i < p.stmts.length) {l : Nat} (hlt : l < p.hProps.length) (hl : l < G ∨ G + n < l) :
    p'.Scalar l i ↔ p.Scalar l i := by
  by_cases c : i ∈ S
  · rw [h.scalar_in hok hg c hr hlt, rot_out hl]
  · exact h.scalar_out c

end

/-- Statements outside `S` differ from those in `S` at a level before `f` that is scalar for both. -/
def Cut (p : Prog) (f : Nat) (S : List Nat) : Prop :=
  ∀ i ∈ S, ∀ j < p.stmts.length, j ∉ S → ∃ m < f, p.Scalar m i ∧ p.Scalar m j ∧ p.const m i ≠ p.const m j

theorem Rotated.cut {p p' : Prog} {S : List Nat} {G n : Nat} (h : Rotated p p' S G n) (hok : p.OK) (hg : G + n < p.hProps.length)
    (hns : ∀ i ∈ S, ∀ l, G ≤ l → l ≤ G + n → ¬ p.Scalar l i) {f : Nat} {g : List Nat} (hf : f ≤ p.hProps.length)
    (hgr : ∀ i ∈ g, i < p.stmts.length) (hc : Cut p f g) : Cut p' f g := by
  intro i hi j hj hjg
  rw [h.len] at hj
  obtain ⟨m, m1, m2, m3, m4⟩ := hc i hi j hj hjg
  have key : ∀ k < p.stmts.length, p.Scalar m k → p'.Scalar m k ∧ p'.const m k = p.const m k := by
    intro k hk hsc
    by_cases c : k ∈ S
    · have hm : m < G ∨ G + n < m := by
        by_contra hx
        exact hns k c m (by omega) (by omega) hsc
      exact ⟨(h.scalar_low hok hg hk (by omega) hm).mpr hsc, by unfold Prog.const; rw [h.row_low hok hg k hm]⟩
    · exact ⟨(h.scalar_out c).mpr hsc, h.const_out c m⟩
  obtain ⟨a1, a2⟩ := key i (hgr i hi) m2
  obtain ⟨b1, b2⟩ := key j hj m3
  exact ⟨m, m1, a1, b1, by rw [a2, b2]; exact m4⟩

/-- What holds of the program between the steps. -/
structure Good (p : Prog) : Prop where
  ok : p.OK
  step : Stepwise p
  uni : Uniform p 0 p.hProps.length (List.range p.stmts.length)
  pure : PureScalars p

theorem Rotated.uniform {p p' : Prog} {S : List Nat} {G n : Nat} (h : Rotated p p' S G n) (hok : p.OK) (hg : G + n < p.hProps.length)
    (hr : ∀ i ∈ S, i < p.stmts.length) (hns : ∀ i ∈ S, ∀ l, G ≤ l → l ≤ G + n → ¬ p.Scalar l i) (hcut : Cut p G S)
    (hU : Uniform p 0 p.hProps.length (List.range p.stmts.length)) : Uniform p' 0 p'.hProps.length (List.range p'.stmts.length) := by
  have ehp : p'.hProps = p.hProps := by rw [h.eq]
  intro l _ hl i hi j hj hag hsc
  rw [ehp] at hl
  simp only [List.mem_range, h.len] at hi hj
  have hi' : i ∈ List.range p.stmts.length := by simpa using hi
  have hj' : j ∈ List.range p.stmts.length := by simpa using hj
  -- levels before `G`
  have low : l < G → p'.Scalar l j := by
    intro hlG
    rw [h.scalar_low hok hg hj hl (.inl hlG)]
    refine hU l (by omega) hl i hi' j hj' (fun l' _ x2 x3 x4 => ?_) ((h.scalar_low hok hg hi hl (.inl hlG)).mp hsc)
    have := hag l' (by omega) x2 ((h.scalar_low hok hg hi (by omega) (.inl (by omega))).mpr x3)
      ((h.scalar_low hok hg hj (by omega) (.inl (by omega))).mpr x4)
    unfold Prog.const at this ⊢
    rwa [h.row_low hok hg i (.inl (by omega)), h.row_low hok hg j (.inl (by omega))] at this
  -- one statement inside, one outside
  have mixed : (∃ m < G, p.Scalar m i ∧ p.Scalar m j ∧ p.const m i ≠ p.const m j) → p'.Scalar l j := by
    rintro ⟨m, m1, m2, m3, m4⟩
    by_cases c : l < G
    · exact low c
    · exfalso
      have := hag m (by omega) (by omega) ((h.scalar_low hok hg hi (by omega) (.inl m1)).mpr m2)
        ((h.scalar_low hok hg hj (by omega) (.inl m1)).mpr m3)
      unfold Prog.const at this m4
      rw [h.row_low hok hg i (.inl m1), h.row_low hok hg j (.inl m1)] at this
      exact m4 this
  by_cases ci : i ∈ S
  · by_cases cj : j ∈ S
    · rcases Nat.lt_or_ge l G with c | c
      · exact low c
      · rcases Nat.lt_or_ge (G + n) l with c' | c'
        · rw [h.scalar_low hok hg hj hl (.inr c')]
          refine hU l (by omega) hl i hi' j hj' (fun l' _ x2 x3 x4 => ?_) ((h.scalar_low hok hg hi hl (.inr c')).mp hsc)
          by_cases cl : l' < G ∨ G + n < l'
          · have := hag l' (by omega) x2 ((h.scalar_low hok hg hi (by omega) cl).mpr x3) ((h.scalar_low hok hg hj (by omega) cl).mpr x4)
            unfold Prog.const at this ⊢
            rwa [h.row_low hok hg i cl, h.row_low hok hg j cl] at this
          · exact absurd x3 (hns i ci l' (by omega) (by omega))
        · rw [h.scalar_in hok hg ci hi hl] at hsc
          obtain ⟨r1, r2⟩ := rot_in (n := n) c c'
          exact absurd hsc (hns i ci _ r1 r2)
    · exact mixed (hcut i ci j hj cj)
  · by_cases cj : j ∈ S
    · obtain ⟨m, m1, m2, m3, m4⟩ := hcut j cj i hi ci
      exact mixed ⟨m, m1, m3, m2, fun e => m4 e.symm⟩
    · rw [h.scalar_out cj]
      rw [h.scalar_out ci] at hsc
      refine hU l (by omega) hl i hi' j hj' (fun l' _ x2 x3 x4 => ?_) hsc
      have := hag l' (by omega) x2 ((h.scalar_out ci).mpr x3) ((h.scalar_out cj).mpr x4)
      rwa [h.const_out ci, h.const_out cj] at this

theorem Rotated.stepwise {p p' : Prog} {S : List Nat} {G n : Nat} (h : Rotated p p' S G n) (hok : p.OK) (hg : G + n < p.hProps.length)
    (hcut : Cut p G S) (hps : PureScalars p) (hst : Stepwise p)
    (hd : ∀ d ∈ p.deps, d.rar = false → d.src ∈ S → d.dest ∈ S → ∃ l0 < p.hProps.length,
      (∀ s t q, p.Inst d s t q → 1 ≤ p.comp d l0 s t q) ∧ (∀ l < l0, ∀ s t q, p.Inst d s t q → 0 ≤ p.comp d l s t q) ∧
      (l0 = G → ∀ l ≤ G + n, ∀ s t q, p.Inst d s t q → 0 ≤ p.comp d l s t q)) : Stepwise p' := by
  have ehp : p'.hProps = p.hProps := by rw [h.eq]
  have edeps : p'.deps = p.deps := by rw [h.eq]
  intro d hdm hr
  rw [edeps] at hdm
  rw [ehp]
  simp only [h.inst_iff hok hg]
  obtain ⟨d1, d2, _⟩ := hok.deps d hdm
  have clow : ∀ l < G, ∀ s t q, p'.comp d l s t q = p.comp d l s t q := by
    intro l hl s t q
    unfold Prog.comp Prog.phi
    rw [h.row_low hok hg _ (.inl hl), h.row_low hok hg _ (.inl hl)]
  obtain ⟨l0, a1, a2, a3⟩ := hst d hdm hr
  have mixed : (∃ m < G, p.Scalar m d.src ∧ p.Scalar m d.dest ∧ p.const m d.src ≠ p.const m d.dest) → ∃ l0 < p.hProps.length,
      (∀ s t q, p.Inst d s t q → 1 ≤ p'.comp d l0 s t q) ∧ ∀ l < l0, ∀ s t q, p.Inst d s t q → 0 ≤ p'.comp d l s t q := by
    rintro ⟨m, m1, m2, m3, m4⟩
    rcases Nat.lt_or_ge m l0 with c | c
    · refine ⟨m, by omega, fun s t q hin => ?_, fun l hl s t q hin => ?_⟩
      · rw [clow m m1]
        have h0 := a3 m c s t q hin
        have e : p.comp d m s t q = p.const m d.dest - p.const m d.src := by
          unfold Prog.comp
          rw [hps _ _ _ _ m2 hin.hs hin.hp, hps _ _ _ _ m3 hin.ht hin.hp]
        omega
      · rw [clow l (by omega)]
        exact a3 l (by omega) s t q hin
    · refine ⟨l0, a1, fun s t q hin => ?_, fun l hl s t q hin => ?_⟩
      · rw [clow l0 (by omega)]; exact a2 s t q hin
      · rw [clow l (by omega)]; exact a3 l hl s t q hin
  by_cases cs : d.src ∈ S
  · by_cases ct : d.dest ∈ S
    · have cin : ∀ l s t q, p'.comp d l s t q = p.comp d (rot G n l) s t q := by
        intro l s t q
        unfold Prog.comp
        rw [h.phi_in hok hg cs, h.phi_in hok hg ct]
      simp only [cin]
      obtain ⟨l0, b1, b2, b3, b4⟩ := hd d hdm hr cs ct
      rcases Nat.lt_or_ge l0 G with c1 | c1
      · refine ⟨l0, b1, fun s t q hin => ?_, fun l hl s t q hin => ?_⟩
        · rw [rot_out (.inl c1)]; exact b2 s t q hin
        · rw [rot_out (.inl (by omega))]; exact b3 l hl s t q hin
      · rcases Nat.lt_or_ge (G + n) l0 with c2 | c2
        · refine ⟨l0, b1, fun s t q hin => ?_, fun l hl s t q hin => ?_⟩
          · rw [rot_out (.inr c2)]; exact b2 s t q hin
          · refine b3 _ ?_ s t q hin
            unfold rot; split_ifs <;> omega
        · by_cases c3 : l0 = G
          · refine ⟨G + n, hg, fun s t q hin => ?_, fun l hl s t q hin => ?_⟩
            · have : rot G n (G + n) = G := by unfold rot; split_ifs <;> omega
              rw [this, ← c3]; exact b2 s t q hin
            · refine b4 c3 _ ?_ s t q hin
              unfold rot; split_ifs <;> omega
          · refine ⟨l0 - 1, by omega, fun s t q hin => ?_, fun l hl s t q hin => ?_⟩
            · have : rot G n (l0 - 1) = l0 := by unfold rot; split_ifs <;> omega
              rw [this]; exact b2 s t q hin
            · refine b3 _ ?_ s t q hin
              unfold rot; split_ifs <;> omega
    · exact mixed (hcut _ cs _ d2 ct)
  · by_cases ct : d.dest ∈ S
    · obtain ⟨m, m1, m2, m3, m4⟩ := hcut _ ct _ d1 cs
      exact mixed ⟨m, m1, m3, m2, fun e => m4 e.symm⟩
    · have cout : ∀ l s t q, p'.comp d l s t q = p.comp d l s t q := by
        intro l s t q
        unfold Prog.comp
        rw [h.phi_out cs, h.phi_out ct]
      simp only [cout]
      exact ⟨l0, a1, a2, a3⟩

/-- The statements of a band and what is known of their dependences. -/
structure Grp (p : Prog) (F w : Nat) (g : List Nat) : Prop where
  nodup : g.Nodup
  range : ∀ i ∈ g, i < p.stmts.length
  len : F + w ≤ p.hProps.length
  cut : Cut p F g
  steps : ∀ d ∈ p.deps, d.rar = false → d.src ∈ g → d.dest ∈ g → ∃ l0 < p.hProps.length,
    (∀ s t q, p.Inst d s t q → 1 ≤ p.comp d l0 s t q) ∧ (∀ l < l0, ∀ s t q, p.Inst d s t q → 0 ≤ p.comp d l s t q) ∧
    (l0 < F ∨ (∀ i ∈ g, p.Scalar l0 i) ∨ ∀ m < w, ∀ s t q, p.Inst d s t q → 0 ≤ p.comp d (F + m) s t q)

theorem Grp.congr {p : Prog} {F w : Nat} {g g' : List Nat} (h : Grp p F w g) (hnd : g'.Nodup) (hm : ∀ i, i ∈ g' ↔ i ∈ g) : Grp p F w g' := by
  refine ⟨hnd, fun i hi => h.range i ((hm i).mp hi), h.len, ?_, ?_⟩
  · intro i hi j hj hjg
    exact h.cut i ((hm i).mp hi) j hj (fun c => hjg ((hm j).mpr c))
  · intro d hd hr hs ht
    obtain ⟨l0, a1, a2, a3, a4⟩ := h.steps d hd hr ((hm _).mp hs) ((hm _).mp ht)
    refine ⟨l0, a1, a2, a3, ?_⟩
    rcases a4 with a4 | a4 | a4
    · exact .inl a4
    · exact .inr (.inl (fun i hi => a4 i ((hm i).mp hi)))
    · exact .inr (.inr a4)

/-- Changes to other statements do not matter. -/
theorem Grp.inside {p p' : Prog} {F w f : Nat} {g g' : List Nat} (h : Grp p F w g') (hI : Inside p p' f g) (hdis : ∀ i ∈ g', i ∉ g)
    (hcut : Cut p' F g') : Grp p' F w g' := by
  have edeps : p'.deps = p.deps := by rw [hI.eq]
  have ehp : p'.hProps = p.hProps := by rw [hI.eq]
  refine ⟨h.nodup, fun i hi => by rw [hI.len]; exact h.range i hi, by rw [ehp]; exact h.len, hcut, ?_⟩
  intro d hd hr hs ht
  rw [edeps] at hd
  obtain ⟨l0, a1, a2, a3, a4⟩ := h.steps d hd hr hs ht
  have ec : ∀ l s t q, p'.comp d l s t q = p.comp d l s t q := by
    intro l s t q
    unfold Prog.comp
    rw [hI.phi (hdis _ hs), hI.phi (hdis _ ht)]
  simp only [hI.inst, ec, ehp]
  refine ⟨l0, a1, a2, a3, ?_⟩
  rcases a4 with a4 | a4 | a4
  · exact .inl a4
  · exact .inr (.inl (fun i hi => (hI.scalar (hdis i hi) l0).mpr (a4 i hi)))
  · exact .inr (.inr a4)

/-- One group of statements. -/
theorem intraTileGroup_step {best : Prog → List Loop → Option Loop} (hbest : ∀ p ls L, best p ls = some L → L ∈ ls)
    {b : Band} {p : Prog} (H : Good p) {g : List Nat} (hg : Grp p b.loop.depth b.width g)
    (hinn : ∀ i ∈ g, ∀ l, b.loop.depth + b.width ≤ l → l < p.hProps.length → p.Scalar l i) :
    ∃ p', intraTileGroup best b 0 p g = some p' ∧ Good p' ∧ Inside p p' b.loop.depth g ∧
      ∀ f g', f ≤ p.hProps.length → (∀ i ∈ g', i < p.stmts.length) → Cut p f g' → Cut p' f g' := by
  obtain ⟨ls, hls⟩ := C34_defined p H.ok g hg.nodup hg.range b.loop.depth
  unfold intraTileGroup
  simp only [Nat.zero_mul, Nat.add_zero, hls, Option.bind_eq_bind, Option.bind_some]
  cases hb : best p ls with
  | none => exact ⟨p, rfl, H, .refl _ _ _, fun _ _ _ _ h => h⟩
  | some L =>
    have hL := hbest _ _ _ hb
    have hs := loopsUnder_spec _ _ _ _ hg.nodup hls
    have hlo := hs.lo L hL
    have hhi := hs.hi L hL
    have hLn := hs.nodup L hL
    have hLg : ∀ i ∈ L.stmts, i ∈ g := fun i hi => (hs.sub L hL i hi).1
    have hLr : ∀ i ∈ L.stmts, i < p.stmts.length := fun i hi => hg.range i (hLg i hi)
    obtain ⟨v, hv⟩ := innermost_defined H.ok hLn hLr
    simp only [hv, Option.bind_some]
    by_cases c : v = true
    · rw [if_pos c]; exact ⟨p, rfl, H, .refl _ _ _, fun _ _ _ _ h => h⟩
    · rw [if_neg c]
      have hlen := hg.len
      obtain ⟨p', n, h1, h2, h3, _, h5⟩ := makeInnermost_rotated H.ok hLn hLr (by omega) (fun i hi => (hs.sub L hL i hi).2)
        (lastLevel := b.loop.depth + (0 + 1) * b.width) (by omega) (decide (0 < 0))
      have hns : ∀ i ∈ L.stmts, ∀ l, L.depth ≤ l → l ≤ L.depth + n → ¬ p.Scalar l i := h5 (by simp)
      obtain ⟨i0, hi0⟩ := List.exists_mem_of_ne_nil _ (hs.ne L hL)
      have hin : L.depth + n < b.loop.depth + b.width := by
        by_contra hc
        exact hns i0 hi0 (L.depth + n) (by omega) le_rfl (hinn i0 (hLg i0 hi0) _ (by omega) h3)
      have hUg : Uniform p b.loop.depth p.hProps.length g ∨ True := .inr trivial
      have hcut : Cut p L.depth L.stmts := by
        intro i hi j hj hjL
        by_cases cj : j ∈ g
        · by_contra hc
          push Not at hc
          have hag : Agree p 0 L.depth i j := fun l _ x2 x3 x4 => hc l x2 x3 x4
          have hjs : p.Scalar L.depth j := by
            by_contra hx
            exact hjL (hs.join L hL i hi j cj hx (hag.mono (by omega)))
          have hagj : Agree p 0 L.depth j i := fun l x1 x2 x3 x4 => (hag l x1 x2 x4 x3).symm
          exact (hs.sub L hL i hi).2 (H.uni L.depth (by omega) (by omega) j (by simpa using hj) i (by simpa using hLr i hi) hagj hjs)
        · obtain ⟨m, m1, m2⟩ := hg.cut i (hLg i hi) j hj cj
          exact ⟨m, by omega, m2⟩
      refine ⟨p', by simpa using h1, ⟨h2.ok H.ok h3, ?_, h2.uniform H.ok h3 hLr hns hcut H.uni, ?_⟩, h2.inside_of H.ok h3 hlo hLg, ?_⟩
      · refine h2.stepwise H.ok h3 hcut H.pure H.step ?_
        intro d hd hr hsrc hdst
        obtain ⟨l0, a1, a2, a3, a4⟩ := hg.steps d hd hr (hLg _ hsrc) (hLg _ hdst)
        refine ⟨l0, a1, a2, a3, ?_⟩
        rintro rfl l hl s t q hin'
        rcases a4 with a4 | a4 | a4
        · omega
        · exact absurd (a4 i0 (hLg i0 hi0)) (hs.sub L hL i0 hi0).2
        · rcases Nat.lt_or_ge l L.depth with cl | cl
          · exact a3 l cl s t q hin'
          · have := a4 (l - b.loop.depth) (by omega) s t q hin'
            rwa [show b.loop.depth + (l - b.loop.depth) = l by omega] at this
      · exact (h2.inside_of H.ok h3 hlo hLg).pure H.pure
      · intro f g' hf hg' hc
        exact h2.cut H.ok h3 hns hf hg' hc

theorem intraTileGroups_step {best : Prog → List Loop → Option Loop} (hbest : ∀ p ls L, best p ls = some L → L ∈ ls) {b : Band} {S : List Nat} :
    ∀ {gs : List (List Nat)} {p : Prog}, Good p → (∀ g ∈ gs, Grp p b.loop.depth b.width g) → (∀ g ∈ gs, ∀ i ∈ g, i ∈ S) →
    (∀ g ∈ gs, ∀ i ∈ g, ∀ l, b.loop.depth + b.width ≤ l → l < p.hProps.length → p.Scalar l i) →
    gs.Pairwise (fun g h => ∀ i ∈ g, i ∉ h) →
    ∃ p', gs.foldlM (intraTileGroup best b 0) p = some p' ∧ Good p' ∧ Inside p p' b.loop.depth S ∧
      ∀ f g', f ≤ p.hProps.length → (∀ i ∈ g', i < p.stmts.length) → Cut p f g' → Cut p' f g' := by
  intro gs
  induction gs with
  | nil => intro p H _ _ _ _; exact ⟨p, rfl, H, .refl _ _ _, fun _ _ _ _ h => h⟩
  | cons g gs ih =>
    intro p H hg hS hinn hdis
    obtain ⟨hd1, hd2⟩ := List.pairwise_cons.mp hdis
    obtain ⟨p1, h1, h2, h3, h4⟩ := intraTileGroup_step hbest H (hg g (by simp)) (hinn g (by simp))
    have ehp : p1.hProps = p.hProps := by rw [h3.eq]
    have hdj : ∀ g' ∈ gs, ∀ i ∈ g', i ∉ g := fun g' hg' i hi hi' => hd1 g' hg' i hi' hi
    obtain ⟨p', k1, k2, k3, k4⟩ := ih h2
      (fun g' hg' => by
        have G := hg g' (by simp [hg'])
        exact G.inside h3 (hdj g' hg') (h4 _ _ (by have := G.len; omega) G.range G.cut))
      (fun g' hg' => hS g' (by simp [hg']))
      (fun g' hg' i hi l x1 x2 => (h3.scalar (hdj g' hg' i hi) l).mpr (hinn g' (by simp [hg']) i hi l x1 (by rw [ehp] at x2; exact x2))) hd2
    refine ⟨p', ?_, k2, h3.trans k3 (hS g (by simp)) (fun _ h => h), fun f g' x1 x2 x3 => ?_⟩
    · rw [List.foldlM_cons, h1]; exact k1
    · exact k4 f g' (by rw [ehp]; exact x1) (fun i hi => by rw [h3.len]; exact x2 i hi) (h4 f g' x1 x2 x3)

/-- One band. -/
theorem intraTileBand_step {best : Prog → List Loop → Option Loop} (hbest : ∀ p ls L, best p ls = some L → L ∈ ls)
    {b : Band} {p : Prog} (H : Good p) (hg : Grp p b.loop.depth b.width b.loop.stmts) :
    ∃ p', intraTileBand best p b 0 = some p' ∧ Good p' ∧ Inside p p' b.loop.depth b.loop.stmts ∧
      ∀ f g', f ≤ p.hProps.length → (∀ i ∈ g', i < p.stmts.length) → Cut p f g' → Cut p' f g' := by
  obtain ⟨v, hv⟩ := isBandInnermost_defined (b := b) hg.range 0
  unfold intraTileBand
  simp only [hv, Option.bind_eq_bind, Option.bind_some]
  by_cases c : v = true
  · subst c
    rw [if_pos rfl]
    obtain ⟨gs, g1, g2, g3, g4, g5⟩ := fuseBands_spec (p := p) (b := b) (k := 0) (R := fun _ _ => True)
      hg.nodup (fun i _ j _ => ⟨true, by simp [fusedInBand], by simp⟩)
      (fun _ => trivial) (fun _ _ _ => trivial) (fun _ _ _ _ _ => trivial)
    rw [g1, Option.bind_some]
    have hinn := isBandInnermost_spec hv
    refine intraTileGroups_step hbest H (fun g hgm => ?_) (fun g hgm => (g2 g hgm).2) (fun g hgm i hi l x1 x2 => ?_) g5
    · by_cases ce : g = []
      · subst ce
        exact ⟨List.nodup_nil, by simp, hg.len, by intro i hi; simp at hi, by intro d _ _ hs; simp at hs⟩
      · obtain ⟨i0, hi0⟩ := List.exists_mem_of_ne_nil _ ce
        exact hg.congr (g2 g hgm).1 (fun i => ⟨(g2 g hgm).2 i, fun hi => (g3 g hgm i0 hi0 i hi).mpr trivial⟩)
    · have hib := (g2 g hgm).2 i hi
      have gi := List.getElem?_eq_getElem (hg.range i hib)
      exact hinn i hib _ gi l (by omega) (by rw [H.ok.levels _ (List.mem_of_getElem? gi)]; exact x2)
  · rw [if_neg c, if_neg (by omega)]
    exact ⟨p, rfl, H, .refl _ _ _, fun _ _ _ _ h => h⟩

/-- All bands. -/
theorem intraFold0 {best : Prog → List Loop → Option Loop} (hbest : ∀ p ls L, best p ls = some L → L ∈ ls) : ∀ (bands : List Band) (p : Prog),
    Good p → (∀ b ∈ bands, Grp p b.loop.depth b.width b.loop.stmts) → Apart bands →
    ∃ p', bands.foldlM (fun p b => intraTileBand best p b 0) p = some p' ∧ Good p' := by
  intro bands
  induction bands with
  | nil => intro p H _ _; exact ⟨p, rfl, H⟩
  | cons b bands ih =>
    intro p H hg hdis
    obtain ⟨hd1, hd2⟩ := List.pairwise_cons.mp hdis
    obtain ⟨p1, h1, h2, h3, h4⟩ := intraTileBand_step hbest H (hg b (by simp))
    obtain ⟨p', k1, k2⟩ := ih p1 h2 (fun c hc => by
      have G := hg c (by simp [hc])
      exact G.inside h3 (fun i hi hib => hd1 c hc i hib hi) (h4 _ _ (by have := G.len; omega) G.range G.cut)) hd2
    refine ⟨p', ?_, k2⟩
    rw [List.foldlM_cons, h1]; exact k1

/-- The bands found by the code. -/
theorem outer_base {p : Prog} (H : Good p) (hi : p.Info) : ∃ bands, outermostBands p = some bands ∧ BandsOK p bands ∧
    ∀ b ∈ bands, 2 ≤ b.width ∧ Grp p b.loop.depth b.width b.loop.stmts ∧ Separated p b ∧ permutableBand p b.loop = some (some b) := by
  obtain ⟨all, ha⟩ := C34_defined p H.ok (List.range p.stmts.length) List.nodup_range (by simp) 0
  have ha : getAllLoops p = some all := ha
  have hs := all_spec ha
  obtain ⟨bs, hbs⟩ := Option.isSome_iff_exists.mp (mapM_isSome' (l := all) (f := permutableBand p)
    (fun L hL => permutableBand_defined H.ok hi H.step ha hL))
  have h1 : outermostBands p = some (dominatorBands (bs.filterMap id)) := by
    simp [outermostBands, ha, hbs]
  obtain ⟨hI, hk⟩ := outer_inv ha H.uni h1
  refine ⟨_, h1, inv_bandsOK ha hI, fun b hb => ?_⟩
  have hB := inv_bandsOK ha hI
  obtain ⟨r1, r2⟩ := hB.range b hb
  have hm := hI.mem b hb
  have h := hk b hb
  obtain ⟨_, hw, _, _, hbr⟩ := permutableBand_spec h
  refine ⟨hw, ⟨hB.nodup b hb, r2, r1, ?_, ?_⟩, inv_separated H.ok (H.step.legal H.ok) ha H.uni H.pure hI b hb, h⟩
  · intro i hi' j hj hjb
    obtain ⟨l, _, a2, a3, a4, a5⟩ := not_in_loop List.nodup_range ha H.uni hm hi' (by simpa using hj) hjb
    exact ⟨l, a2, a3, a4, a5⟩
  · intro d hd hr hsrc hdst
    have hsat : ∃ l < p.hProps.length, ∀ s t q, p.Inst d s t q → 1 ≤ p.comp d l s t q := by
      obtain ⟨l0, x1, x2, _⟩ := H.step d hd hr
      exact ⟨l0, x1, x2⟩
    have hst := (hi.sat d hd).mpr hsat
    classical
    obtain ⟨hl0, hfull⟩ := Nat.find_spec hsat
    have hmin : ∀ l' < Nat.find hsat, ¬ ∀ s t q, p.Inst d s t q → 1 ≤ p.comp d l' s t q := by
      intro l' hl' hf'
      exact Nat.find_min hsat hl' ⟨by omega, hf'⟩
    generalize Nat.find hsat = l0 at *
    have hlev : d.satLevel = (l0 : Int) := (hi.level d hd l0).mpr ⟨hl0, hfull, hmin⟩
    refine ⟨l0, hl0, hfull, fun l hl s t q hin => ?_, ?_⟩
    · obtain ⟨l1, x1, x2, x3⟩ := H.step d hd hr
      by_cases hc : l < l1
      · exact x3 l hc s t q hin
      · exact absurd x2 (hmin l1 (by omega))
    · by_cases c1 : l0 < b.loop.depth
      · exact .inl c1
      · by_cases c2 : ∀ i ∈ b.loop.stmts, p.Scalar l0 i
        · exact .inr (.inl c2)
        · refine .inr (.inr (fun m hm s t q hin => ?_))
          have hb' := hbr m hm d hd
          unfold breaksBand at hb'
          rw [if_neg (by simp [hr]), if_neg (by rw [hlev]; omega), if_neg (by simp [hst])] at hb'
          simp only [Option.bind_eq_bind, Option.bind_eq_some_iff] at hb'
          obtain ⟨sc, h1, h2⟩ := hb'
          rw [hlev, Int.toNat_natCast] at h1
          have hsc := isDepthScalar_iff h1
          split_ifs at h2 with c3 c4
          · exact absurd (hsc.mp c3) c2
          · rw [Option.bind_eq_some_iff] at h2
            obtain ⟨dir, h3, h4⟩ := h2
            simp only [pure, Option.some.injEq, decide_eq_false_iff_not, not_or] at h4
            by_contra hneg
            rcases (hi.dir d hd _ dir h3).1.mpr ⟨s, t, q, hin, by omega⟩ with e | e
            · exact h4.2 e
            · exact h4.1 e
          · simp [hsrc, hdst] at c4

theorem Good.resat {p p' : Prog} (H : Good p) (e : p' = { p with deps := p'.deps })
    (f : List.Forall₂ (fun d d' : Dep =>
      d' = ⟨d.src, d.dest, d.rar, d.dpoly, d.bpoly, d'.satisfied, d'.satLevel, d'.satvec, d'.dirvec⟩) p.deps p'.deps) : Good p' := by
  refine ⟨resat_ok e f H.ok, ?_, ?_, resat_pure e H.pure⟩
  · have E := resat_edit e f
    intro d' hd' hr'
    obtain ⟨d, hd, k⟩ := forall₂_mem_right f hd'
    obtain ⟨l0, a1, a2, a3⟩ := H.step d hd (by rw [k] at hr'; exact hr')
    have hc : ∀ l s t q, p'.comp d' l s t q = p.comp d l s t q := by
      intro l s t q
      unfold Prog.comp
      rw [E.phi trivial, E.phi trivial, k]
    have hin : ∀ s t q, p'.Inst d' s t q → p.Inst d s t q := by
      rintro s t q ⟨x1, x2, x3, x4⟩
      rw [k, E.dim] at x1 x2
      rw [E.npar] at x3
      rw [k] at x4
      exact ⟨x1, x2, x3, x4⟩
    rw [E.levels]
    refine ⟨l0, a1, fun s t q x => ?_, fun l hl s t q x => ?_⟩
    · rw [hc]; exact a2 s t q (hin s t q x)
    · rw [hc]; exact a3 l hl s t q (hin s t q x)
  · rw [e]; exact H.uni

end Pluto
