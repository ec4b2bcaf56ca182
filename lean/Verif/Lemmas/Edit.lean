import Verif.Lemmas.TiledIntra

/-! What stays true of bands when the rows of other statements, or rows further in, are changed. -/

namespace Pluto

/-- `p'` is `p` with rows changed at most where `same` does not hold, and satisfaction data changed. -/
structure Edit (p p' : Prog) (same : Nat → Nat → Prop) : Prop where
  npar : p'.npar = p.npar
  levels : p'.hProps.length = p.hProps.length
  len : p'.stmts.length = p.stmts.length
  dim : ∀ i, p'.dim i = p.dim i
  rows : ∀ i l, same i l → p'.row i l = p.row i l
  dep : ∀ d' ∈ p'.deps, ∃ d ∈ p.deps, d'.src = d.src ∧ d'.dest = d.dest ∧ d'.rar = d.rar ∧ d'.dpoly = d.dpoly

theorem scalar_iff_row {p : Prog} (hok : p.OK) {i l : Nat} (hi : i < p.stmts.length) (hl : l < p.hProps.length) :
    p.Scalar l i ↔ ∀ v ∈ (p.row i l).take (p.dim i), v = 0 := by
  have gi := List.getElem?_eq_getElem hi
  have lev := hok.levels _ (List.mem_of_getElem? gi)
  have gl := List.getElem?_eq_getElem (show l < p.stmts[i].trans.length by omega)
  have e1 : p.row i l = p.stmts[i].trans[l]'(by omega) := by
    simp only [Prog.row, gi, Option.bind_some, gl, Option.getD_some]
  have e2 : p.dim i = p.stmts[i].dim := by simp only [Prog.dim, gi, Option.map_some, Option.getD_some]
  rw [e1, e2]
  constructor
  · rintro ⟨st, r, h1, h2, h3⟩
    rw [gi] at h1; cases h1
    rw [gl] at h2; cases h2
    exact h3
  · intro h
    exact ⟨_, _, gi, gl, h⟩

/-- A dependence that leaves or enters a band is decided on a level outside all bands of its statements. -/
theorem sep_level {p : Prog} {bands : List Band} (hdis : bands.Pairwise (fun b c => ∀ i ∈ b.loop.stmts, i ∉ c.loop.stmts))
    (hsep : ∀ b ∈ bands, Separated p b) {b : Band} (hb : b ∈ bands) {d : Dep} (hd : d ∈ p.deps) (hr : d.rar = false)
    (hne : ¬(d.src ∈ b.loop.stmts ↔ d.dest ∈ b.loop.stmts)) {s t q : List Int} (hin : p.Inst d s t q) :
    ∃ l x y, l < b.loop.depth ∧ (∀ c ∈ bands, (d.src ∈ c.loop.stmts ∨ d.dest ∈ c.loop.stmts) → l < c.loop.depth) ∧
      (p.timestamp d.src s q)[l]? = some x ∧ (p.timestamp d.dest t q)[l]? = some y ∧ x < y ∧
      ∀ l' < l, (p.timestamp d.src s q)[l']? = (p.timestamp d.dest t q)[l']? := by
  have hb1 := hsep b hb d hd hr hne s t q hin.hs hin.ht hin.hp hin.sat
  have uniq : ∀ c ∈ bands, ∀ e ∈ bands, ∀ i, i ∈ c.loop.stmts → i ∈ e.loop.stmts → c = e := by
    intro c hc e he i h1 h2
    by_contra hne
    obtain ⟨nc, hnc⟩ := List.getElem?_of_mem hc
    obtain ⟨ne, hne'⟩ := List.getElem?_of_mem he
    have hnn : nc ≠ ne := fun h => hne (by rw [h, hne'] at hnc; cases hnc; rfl)
    have pw := hdis
    rw [List.pairwise_iff_getElem] at pw
    obtain ⟨b1, b2⟩ := List.getElem?_eq_some_iff.mp hnc
    obtain ⟨c1, c2⟩ := List.getElem?_eq_some_iff.mp hne'
    rcases Nat.lt_or_gt_of_ne hnn with h' | h'
    · exact pw nc ne b1 c1 h' i (by rw [b2]; exact h1) (by rw [c2]; exact h2)
    · exact pw ne nc c1 b1 h' i (by rw [c2]; exact h2) (by rw [b2]; exact h1)
  have step : ∀ i j, (i = d.src ∧ j = d.dest ∨ i = d.dest ∧ j = d.src) → i ∈ b.loop.stmts → j ∉ b.loop.stmts →
      ∃ l x y, l < b.loop.depth ∧ (∀ c ∈ bands, (d.src ∈ c.loop.stmts ∨ d.dest ∈ c.loop.stmts) → l < c.loop.depth) ∧
    (p.timestamp d.src s q)[l]? = some x ∧ (p.timestamp d.dest t q)[l]? = some y ∧ x < y ∧
    ∀ l' < l, (p.timestamp d.src s q)[l']? = (p.timestamp d.dest t q)[l']? := by
    intro i j hij hi hj
    by_cases cj : ∃ c ∈ bands, j ∈ c.loop.stmts
    · obtain ⟨c, hc, hjc⟩ := cj
      have hic : i ∉ c.loop.stmts := fun h => hj (by rw [uniq b hb c hc i hi h]; exact hjc)
      have hne2 : ¬(d.src ∈ c.loop.stmts ↔ d.dest ∈ c.loop.stmts) := by
        rcases hij with ⟨rfl, rfl⟩ | ⟨rfl, rfl⟩
        · exact fun h => hic (h.mpr hjc)
        · exact fun h => hic (h.mp hjc)
      have hc1 := hsep c hc d hd hr hne2 s t q hin.hs hin.ht hin.hp hin.sat
      obtain ⟨l, x, y, y1, y2, y3, y4, y5, y6⟩ := take_take_lex hb1 hc1
      refine ⟨l, x, y, y1, ?_, y3, y4, y5, y6⟩
      intro e he hor
      have : e = b ∨ e = c := by
        rcases hij with ⟨rfl, rfl⟩ | ⟨rfl, rfl⟩
        · rcases hor with h | h
          · exact .inl (uniq e he b hb _ h hi)
          · exact .inr (uniq e he c hc _ h hjc)
        · rcases hor with h | h
          · exact .inr (uniq e he c hc _ h hjc)
          · exact .inl (uniq e he b hb _ h hi)
      rcases this with rfl | rfl
      · exact y1
      · exact y2
    · push Not at cj
      obtain ⟨l, x, y, y1, y2, y3, y4, y5, y6⟩ := take_take_lex hb1 hb1
      refine ⟨l, x, y, y1, ?_, y3, y4, y5, y6⟩
      intro e he hor
      have : e = b := by
        rcases hij with ⟨rfl, rfl⟩ | ⟨rfl, rfl⟩
        · rcases hor with h | h
          · exact uniq e he b hb _ h hi
          · exact absurd h (cj e he)
        · rcases hor with h | h
          · exact absurd h (cj e he)
          · exact uniq e he b hb _ h hi
      rw [this]; exact y1
  by_cases cs : d.src ∈ b.loop.stmts
  · exact step _ _ (.inl ⟨rfl, rfl⟩) cs (fun h => hne ⟨fun _ => h, fun _ => cs⟩)
  · by_cases ct : d.dest ∈ b.loop.stmts
    · exact step _ _ (.inr ⟨rfl, rfl⟩) ct cs
    · exact absurd ⟨fun h => absurd h cs, fun h => absurd h ct⟩ hne

section
variable {p p' : Prog} {same : Nat → Nat → Prop} (E : Edit p p' same)
include E

theorem Edit.phi {i l : Nat} (h : same i l) (x q : List Int) : p'.phi i l x q = p.phi i l x q := by
  unfold Prog.phi
  rw [E.rows i l h]

theorem Edit.const {i l : Nat} (h : same i l) : p'.const l i = p.const l i := by
  unfold Prog.const
  rw [E.rows i l h]

theorem Edit.scalar (hok : p.OK) (hok' : p'.OK) {i l : Nat} (hi : i < p.stmts.length) (hl : l < p.hProps.length) (h : same i l) :
    p'.Scalar l i ↔ p.Scalar l i := by
  rw [scalar_iff_row hok hi hl, scalar_iff_row hok' (by rw [E.len]; exact hi) (by rw [E.levels]; exact hl), E.rows i l h, E.dim]

/-- A dependent pair of the edited program. -/
theorem Edit.pull {d' : Dep} (hd' : d' ∈ p'.deps) {s t q : List Int} (hin : p'.Inst d' s t q) :
    ∃ d ∈ p.deps, d'.src = d.src ∧ d'.dest = d.dest ∧ d'.rar = d.rar ∧ p.Inst d s t q ∧
      ∀ l, same d.src l → same d.dest l → p'.comp d' l s t q = p.comp d l s t q := by
  obtain ⟨d, hd, e1, e2, e3, e4⟩ := E.dep d' hd'
  refine ⟨d, hd, e1, e2, e3, ⟨?_, ?_, ?_, ?_⟩, ?_⟩
  · rw [← E.dim, ← e1]; exact hin.hs
  · rw [← E.dim, ← e2]; exact hin.ht
  · rw [← E.npar]; exact hin.hp
  · rw [← e4]; exact hin.sat
  · intro l h1 h2
    unfold Prog.comp
    rw [e1, e2, E.phi h1, E.phi h2]

theorem Edit.timestamp (hok : p.OK) (hok' : p'.OK) {i l : Nat} (hi : i < p.stmts.length) (hl : l < p.hProps.length) (h : same i l)
    (x q : List Int) : (p'.timestamp i x q)[l]? = (p.timestamp i x q)[l]? := by
  have gi := List.getElem?_eq_getElem hi
  have gi' := List.getElem?_eq_getElem (show i < p'.stmts.length by rw [E.len]; exact hi)
  have l1 := hok.levels _ (List.mem_of_getElem? gi)
  have l2 := hok'.levels _ (List.mem_of_getElem? gi')
  rw [E.levels] at l2
  rw [timestamp_get gi (by omega), timestamp_get gi' (by omega), E.phi h]

theorem Edit.separated (hok : p.OK) (hok' : p'.OK) {bands : List Band} (hdis : bands.Pairwise (fun b c => ∀ i ∈ b.loop.stmts, i ∉ c.loop.stmts))
    (hsep : ∀ b ∈ bands, Separated p b) (hle : ∀ b ∈ bands, b.loop.depth ≤ p.hProps.length)
    (hch : ∀ i l, (∀ c ∈ bands, i ∈ c.loop.stmts → l < c.loop.depth) → same i l) : ∀ b ∈ bands, Separated p' b := by
  intro b hb d' hd' hr' hne s t q e1 e2 e3 e4
  obtain ⟨d, hd, es, et, er, hin, _⟩ := E.pull hd' (⟨e1, e2, e3, e4⟩ : p'.Inst d' s t q)
  obtain ⟨d1, d2, _⟩ := hok.deps d hd
  have hr : d.rar = false := by rw [← er]; exact hr'
  rw [es, et] at hne ⊢
  obtain ⟨l, x, y, y1, y2, y3, y4, y5, y6⟩ := sep_level hdis hsep hb hd hr hne hin
  have hbl := hle b hb
  have q1 : ∀ l' ≤ l, (p'.timestamp d.src s q)[l']? = (p.timestamp d.src s q)[l']? := fun l' hl' =>
    E.timestamp hok hok' d1 (by omega) (hch _ _ (fun c hc hi => by have := y2 c hc (.inl hi); omega)) s q
  have q2 : ∀ l' ≤ l, (p'.timestamp d.dest t q)[l']? = (p.timestamp d.dest t q)[l']? := fun l' hl' =>
    E.timestamp hok hok' d2 (by omega) (hch _ _ (fun c hc hi => by have := y2 c hc (.inr hi); omega)) t q
  refine ⟨l, x, y, ?_, ?_, y5, ?_⟩
  · rw [List.getElem?_take_of_lt y1, q1 l le_rfl, y3]
  · rw [List.getElem?_take_of_lt y1, q2 l le_rfl, y4]
  · intro l' hl'
    rw [List.getElem?_take_of_lt (by omega), List.getElem?_take_of_lt (by omega), q1 l' (by omega), q2 l' (by omega)]
    exact y6 l' hl'

theorem Edit.uniform (hok : p.OK) (hok' : p'.OK) {S : List Nat} {f : Nat} (hr : ∀ i ∈ S, i < p.stmts.length) (hS : ∀ i ∈ S, ∀ l, same i l)
    (hU : Uniform p f p.hProps.length S) : Uniform p' f p'.hProps.length S := by
  intro l h1 h2 i hi j hj hag hsc
  rw [E.levels] at h2
  rw [E.scalar hok hok' (hr j hj) h2 (hS j hj l)]
  rw [E.scalar hok hok' (hr i hi) h2 (hS i hi l)] at hsc
  refine hU l h1 h2 i hi j hj (fun l' x1 x2 x3 x4 => ?_) hsc
  have := hag l' x1 x2 ((E.scalar hok hok' (hr i hi) (by omega) (hS i hi l')).mpr x3)
    ((E.scalar hok hok' (hr j hj) (by omega) (hS j hj l')).mpr x4)
  rwa [E.const (hS i hi l'), E.const (hS j hj l')] at this

theorem Edit.compsOK {S : List Nat} {F w : Nat} (hS : ∀ i ∈ S, ∀ l, same i l) (hc : CompsOK p F w S) : CompsOK p' F w S := by
  intro d' hd' hr' hs' ht' s t q hin htied m hm
  obtain ⟨d, hd, es, et, er, hi, hcp⟩ := E.pull hd' hin
  rw [es] at hs'
  rw [et] at ht'
  have hcp : ∀ l, p'.comp d' l s t q = p.comp d l s t q := fun l => hcp l (hS _ hs' l) (hS _ ht' l)
  rw [hcp]
  exact hc d hd (by rw [← er]; exact hr') hs' ht' s t q hi (fun l hl => by rw [← hcp]; exact htied l hl) m hm

theorem Edit.tband (hok : p.OK) (hok' : p'.OK) {b : Band} {k : Nat} (hS : ∀ i ∈ b.loop.stmts, ∀ l, same i l) (T : TBand p b k)
    (hsep : Separated p' b) : TBand p' b k :=
  ⟨T.ne, T.nodup, fun i hi => by rw [E.len]; exact T.range i hi, T.width, by rw [E.levels]; exact T.len, hsep,
    E.uniform hok hok' T.range hS T.uni, E.uniform hok hok' T.range hS T.uniF, fun hk => E.compsOK hS (T.comps hk)⟩

theorem Edit.forward (hok : p.OK) (hok' : p'.OK) {b : Band} (hr : ∀ i ∈ b.loop.stmts, i < p.stmts.length)
    (hle : b.loop.depth + b.width ≤ p.hProps.length)
    (hS : ∀ i ∈ b.loop.stmts, ∀ l < b.loop.depth + b.width, same i l) (hf : Forward p b) : Forward p' b := by
  intro d' hd' hr' hs' ht' s t q hin htied k hk
  obtain ⟨d, hd, es, et, er, hi, hcp⟩ := E.pull hd' hin
  rw [es] at hs'
  rw [et] at ht'
  have hcp : ∀ l < b.loop.depth + b.width, p'.comp d' l s t q = p.comp d l s t q := fun l hl => hcp l (hS _ hs' l hl) (hS _ ht' l hl)
  obtain ⟨k1, k2, k3⟩ := hk
  rw [hcp k k2]
  refine hf d hd (by rw [← er]; exact hr') hs' ht' s t q hi (fun l hl => by rw [← hcp l (by omega)]; exact htied l hl) k
    ⟨k1, k2, fun i hi hc => k3 i hi ((E.scalar hok hok' (hr i hi) (by omega) (hS i hi k k2)).mpr hc)⟩

end

theorem Inside.edit {p p' : Prog} {F : Nat} {g : List Nat} (h : Inside p p' F g) : Edit p p' (fun i l => i ∉ g ∨ l < F) := by
  refine ⟨by rw [h.eq], by rw [h.eq], h.len, h.dim, ?_, fun d' hd' => ⟨d', by rw [h.eq] at hd'; exact hd', rfl, rfl, rfl, rfl⟩⟩
  intro i l hc
  unfold Prog.row
  rcases hc with hc | hc
  · rw [h.other i hc]
  · cases hi : p'.stmts[i]? with
    | none =>
      have : p.stmts[i]? = none := by
        rw [List.getElem?_eq_none_iff] at hi ⊢
        rw [← h.len]; exact hi
      rw [this]
    | some st' =>
      obtain ⟨st, h1, h2, h3, _⟩ := h.stmt i st' hi
      rw [h1, Option.bind_some, Option.bind_some, h3 l hc]

theorem Waved.edit {p p' : Prog} {b : Band} {ks : List Nat} (h : Waved p p' b ks) (hok : p.OK) (hf : b.loop.depth < p.hProps.length)
    (hks : b.loop.depth ∉ ks) : Edit p p' (fun i l => i ∉ b.loop.stmts ∨ l ≠ b.loop.depth) := by
  refine ⟨h.npar, by rw [h.levels], h.len, h.dim hok hf hks, ?_, fun d' hd' => ?_⟩
  · intro i l hc
    unfold Prog.row
    by_cases hi : i ∈ b.loop.stmts
    · have hl : l ≠ b.loop.depth := by rcases hc with hc | hc; exacts [absurd hi hc, hc]
      obtain ⟨st, st', h1, h2, h3⟩ := h.inside i hi
      have sok := hok.stmts st (List.mem_of_getElem? h1)
      have lev := hok.levels st (List.mem_of_getElem? h1)
      rw [h1, h3, Option.bind_some, Option.bind_some, ((wavefrontStmt_spec (c := st.dim + p.npar + 1) h2 hks (fun r hr => sok.trans r hr) (by rw [lev]; exact hf)).2.2.2.1 l hl)]
    · rw [h.outside i hi]
  · obtain ⟨d, hd, _, e⟩ := h.dep hok hf hks hd'
    exact ⟨d, hd, by rw [e], by rw [e], by rw [e], by rw [e]⟩

end Pluto
