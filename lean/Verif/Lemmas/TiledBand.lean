import Verif.Lemmas.TiledShift
import Verif.Props.Wavefront

/-! A permutable band after tiling: the tile loops are a permutable band again, and so are the loops
inside the tiles. -/

namespace Pluto

/-- Dependences within `S` that are tied outside level `F` are not negative on the levels
`[F, F + w)`. -/
def CompsOK (p : Prog) (F w : Nat) (S : List Nat) : Prop :=
  ∀ d ∈ p.deps, d.rar = false → d.src ∈ S → d.dest ∈ S → ∀ s t q, p.Inst d s t q → p.TiedBelow d F s t q →
    ∀ m < w, 0 ≤ p.comp d (F + m) s t q

/-- A band that has been tiled `k` times: its tile loops start at its first level, the loops within the
innermost tiles `k * width` levels below. -/
structure TBand (p : Prog) (b : Band) (k : Nat) : Prop where
  ne : b.loop.stmts ≠ []
  nodup : b.loop.stmts.Nodup
  range : ∀ i ∈ b.loop.stmts, i < p.stmts.length
  width : 0 < b.width
  len : b.loop.depth + (k + 1) * b.width ≤ p.hProps.length
  sep : Separated p b
  uni : Uniform p b.loop.depth p.hProps.length b.loop.stmts
  uniF : Uniform p (b.loop.depth + k * b.width) p.hProps.length b.loop.stmts
  comps : 0 < k → CompsOK p (b.loop.depth + k * b.width) b.width b.loop.stmts

variable {p : Prog} {a : Nat → TArg} {p' : Prog}

theorem lift_uniform_shift {S : List Nat} {f w c : Nat} (hL : ∀ i ∈ S, Lift p p' i f w) (hc : f ≤ c)
    (hU : Uniform p c p.hProps.length S) : Uniform p' (c + w) p'.hProps.length S := by
  intro l h1 h2 i hi j hj hag hsc
  by_cases cl : p.hProps.length + w ≤ l
  · exact ((hL j hj).pad l cl h2).1
  obtain ⟨l0, rfl⟩ : ∃ l0, l = l0 + w := ⟨l - w, by omega⟩
  have key : ∀ l0, c ≤ l0 → l0 < p.hProps.length → ∀ i ∈ S, (p'.Scalar (l0 + w) i ↔ p.Scalar l0 i) ∧ p'.const (l0 + w) i = p.const l0 i := by
    intro l0 g1 g2 i hi
    have := (hL i hi).old l0 g2
    rwa [up_ge (by omega)] at this
  have hlt : l0 < p.hProps.length := by omega
  refine (key l0 (by omega) hlt j hj).1.mpr (hU l0 (by omega) hlt i hi j hj ?_ ((key l0 (by omega) hlt i hi).1.mp hsc))
  intro l1 x1 x2 x3 x4
  have ki := key l1 x1 (by omega) i hi
  have kj := key l1 x1 (by omega) j hj
  have := hag (l1 + w) (by omega) (by omega) (ki.1.mpr x3) (kj.1.mpr x4)
  rw [ki.2, kj.2] at this
  exact this

theorem lift_uniform {S : List Nat} {f w : Nat} (hT : TypesRight p) (hr : ∀ i ∈ S, i < p.stmts.length) (hfw : f + w ≤ p.hProps.length)
    (hL : ∀ i ∈ S, Lift p p' i f w)
    (hU : Uniform p f p.hProps.length S) : Uniform p' f p'.hProps.length S := by
  intro l h1 h2 i hi j hj hag hsc
  by_cases cl : f + w ≤ l
  · exact lift_uniform_shift hL le_rfl hU l cl h2 i hi j hj (hag.mono (by omega)) hsc
  obtain ⟨m, rfl⟩ : ∃ m, l = f + m := ⟨l - f, by omega⟩
  have key : ∀ m < w, ∀ i ∈ S, (p'.Scalar (f + m) i ↔ p.Scalar (f + m) i) ∧ (p.Scalar (f + m) i → p'.const (f + m) i = p.const (f + m) i) := by
    intro m hm i hi
    have := (hL i hi).tile m hm
    rwa [hT i (hr i hi) _ (by omega)] at this
  refine (key m (by omega) j hj).1.mpr (hU (f + m) (by omega) (by omega) i hi j hj ?_ ((key m (by omega) i hi).1.mp hsc))
  intro l1 x1 x2 x3 x4
  obtain ⟨m1, rfl⟩ : ∃ m, l1 = f + m := ⟨l1 - f, by omega⟩
  have ki := key m1 (by omega) i hi
  have kj := key m1 (by omega) j hj
  have := hag (f + m1) (by omega) (by omega) (ki.1.mpr x3) (kj.1.mpr x4)
  rw [ki.2 x3, kj.2 x4] at this
  exact this

theorem unmixed_of_uniform {b : Band} (hT : TypesRight p) (hps : PureScalars p) (hr : ∀ i ∈ b.loop.stmts, i < p.stmts.length)
    (hle : b.loop.depth + b.width ≤ p.hProps.length)
    (hU : Uniform p b.loop.depth p.hProps.length b.loop.stmts) : Unmixed p b := by
  intro i hi j hj x y q hx hy hq m hm h1 h2 h3
  exfalso
  refine h2 ((hT j (hr j hj) _ (by omega)).mpr (hU _ (by omega) (by omega) i hi j hj ?_ ((hT i (hr i hi) _ (by omega)).mp h1)))
  intro l x1 x2 x3 x4
  have e : b.loop.depth + (l - b.loop.depth) = l := by omega
  have := h3 (l - b.loop.depth) (by omega) (by rw [e]; exact (hT i (hr i hi) l (by omega)).mpr x3)
    (by rw [e]; exact (hT j (hr j hj) l (by omega)).mpr x4)
  rwa [e, hps _ _ _ _ x3 hx hq, hps _ _ _ _ x4 hy hq] at this

/-- If two statements of a permutable band are a loop and scalar at a level of the band, then dependent
pairs are separated by a scalar level before. -/
theorem mixed_sep {b : Band} (hT : TypesRight p) (hps : PureScalars p) (hr : ∀ i ∈ b.loop.stmts, i < p.stmts.length)
    (hle : b.loop.depth + b.width ≤ p.hProps.length) (hU : Uniform p b.loop.depth p.hProps.length b.loop.stmts)
    (hperm : Permutable p b) {d : Dep} (hd : d ∈ p.deps) (hrar : d.rar = false) (hs : d.src ∈ b.loop.stmts) (ht : d.dest ∈ b.loop.stmts)
    {s t q : List Int} (hin : p.Inst d s t q) (htied : p.TiedBelow d b.loop.depth s t q) {m : Nat} (hm : m < b.width)
    (hmix : ¬(p.ScalarType (b.loop.depth + m) d.src ↔ p.ScalarType (b.loop.depth + m) d.dest)) :
    ∃ m0 < m, p.ScalarType (b.loop.depth + m0) d.src ∧ p.ScalarType (b.loop.depth + m0) d.dest ∧
      1 ≤ p.comp d (b.loop.depth + m0) s t q := by
  have hag : ¬ Agree p b.loop.depth (b.loop.depth + m) d.src d.dest := by
    intro hag
    apply hmix
    rw [hT _ (hr _ hs) _ (by omega), hT _ (hr _ ht) _ (by omega)]
    exact ⟨hU _ (by omega) (by omega) _ hs _ ht hag, hU _ (by omega) (by omega) _ ht _ hs hag.symm⟩
  unfold Agree at hag
  push Not at hag
  obtain ⟨l, l1, l2, l3, l4, l5⟩ := hag
  obtain ⟨m1, rfl⟩ : ∃ m, l = b.loop.depth + m := ⟨l - b.loop.depth, by omega⟩
  have hne : p.comp d (b.loop.depth + m1) s t q ≠ 0 := by
    unfold Prog.comp
    rw [hps _ _ _ _ l3 hin.hs hin.hp, hps _ _ _ _ l4 hin.ht hin.hp]
    omega
  rcases hperm d hd hrar hs ht s t q hin.hs hin.ht hin.hp hin.sat htied m1 (by omega) with x | ⟨m0, x1, x2⟩
  · exact ⟨m1, by omega, (hT _ (hr _ hs) _ (by omega)).mpr l3, (hT _ (hr _ ht) _ (by omega)).mpr l4, by omega⟩
  · exact ⟨m0, by omega, x2⟩

/-- What is assumed about tiling a list of bands. -/
structure TileSetup (p : Prog) (a : Nat → TArg) (p' : Prog) (bands : List Band) (sizes : Nat → Nat → Int) : Prop where
  ok : p.OK
  types : TypesRight p
  pure : PureScalars p
  bandsOK : BandsOK p bands
  pos : ∀ (n : Nat) (b : Band), bands[n]? = some b → ∀ m < b.width, 1 ≤ sizes n m
  args : ∀ (n : Nat) (b : Band), bands[n]? = some b → ∀ i ∈ b.loop.stmts, a i = ⟨b.loop.depth, sizes n, b.width⟩
  none : ∀ i, (∀ b ∈ bands, i ∉ b.loop.stmts) → a i = ⟨0, fun _ => 0, 0⟩
  tiled : Tiled p a p'

namespace TileSetup

variable {bands : List Band} {sizes : Nat → Nat → Int} (H : TileSetup p a p' bands sizes)
include H

theorem levels : ∀ i < p.stmts.length, (a i).f + (a i).k ≤ p.hProps.length ∨ (a i).k = 0 := by
  intro i hi
  by_cases hc : ∃ b ∈ bands, i ∈ b.loop.stmts
  · obtain ⟨b, hbm, hib⟩ := hc
    obtain ⟨n, hn⟩ := List.getElem?_of_mem hbm
    left
    rw [H.args n b hn i hib]
    exact (H.bandsOK.range b hbm).1
  · push Not at hc
    right; rw [H.none i hc]

theorem ok' : p'.OK := H.tiled.ok H.ok (fun i st0 hi => by
  have := H.levels i (List.getElem?_eq_some_iff.mp hi).1
  rwa [← H.ok.levels st0 (List.mem_of_getElem? hi)] at this)

theorem types' : TypesRight p' := H.tiled.typesRight H.ok H.types H.levels

theorem pure' : PureScalars p' := H.tiled.pure H.ok H.types H.levels H.pure

theorem lift {n : Nat} {b : Band} (hn : bands[n]? = some b) {i : Nat} (hi : i ∈ b.loop.stmts) : Lift p p' i b.loop.depth b.width := by
  have hr := (H.bandsOK.range b (List.mem_of_getElem? hn)).2 i hi
  have := H.tiled.lift H.ok H.types hr (H.levels i hr)
  rwa [H.args n b hn i hi] at this

theorem pull {d' : Dep} (hd' : d' ∈ p'.deps) {s' t' q : List Int} (hin : p'.Inst d' s' t' q) :
    ∃ d ∈ p.deps, d'.src = d.src ∧ d'.dest = d.dest ∧ d'.rar = d.rar ∧ ∃ s t, p.Inst d s t q ∧
      ValLift p p' d.src (a d.src) s' s q ∧ ValLift p p' d.dest (a d.dest) t' t q :=
  H.tiled.pull H.ok H.levels hd' hin

theorem legal' (hleg : p.Legal) (hperm : ∀ b ∈ bands, Permutable p b)
    (hsep : ∀ b ∈ bands, Separated p b) (hmix : ∀ b ∈ bands, Unmixed p b) : p'.Legal :=
  tile_legal H.ok H.bandsOK H.pos H.args H.none H.tiled hleg hperm hsep hmix

/-- A pair within a band: its components in the tiled program. -/
theorem inner {n : Nat} {b : Band} (hn : bands[n]? = some b) {d' : Dep} (hd' : d' ∈ p'.deps) (hr' : d'.rar = false)
    (hs' : d'.src ∈ b.loop.stmts) (ht' : d'.dest ∈ b.loop.stmts) {s' t' q : List Int} (hin : p'.Inst d' s' t' q) :
    ∃ d ∈ p.deps, d.rar = false ∧ d'.src = d.src ∧ d'.dest = d.dest ∧ ∃ s t, p.Inst d s t q ∧
      (∀ l < p.hProps.length, p'.comp d' (up b.loop.depth b.width l) s' t' q = p.comp d l s t q) ∧
      (∀ m < b.width, p.ScalarType (b.loop.depth + m) d.src → p.ScalarType (b.loop.depth + m) d.dest →
        p'.comp d' (b.loop.depth + m) s' t' q = p.comp d (b.loop.depth + m) s t q) ∧
      (∀ m < b.width, ¬ p.ScalarType (b.loop.depth + m) d.src → ¬ p.ScalarType (b.loop.depth + m) d.dest →
        0 ≤ p.comp d (b.loop.depth + m) s t q → 0 ≤ p'.comp d' (b.loop.depth + m) s' t' q) ∧
      (∀ m < b.width, ¬ p.ScalarType (b.loop.depth + m) d.src → ¬ p.ScalarType (b.loop.depth + m) d.dest →
        p.comp d (b.loop.depth + m) s t q = 0 → p'.comp d' (b.loop.depth + m) s' t' q = 0) := by
  obtain ⟨d, hd, e1, e2, e3, s, t, hi, v1, v2⟩ := H.pull hd' hin
  rw [H.args n b hn _ (by rw [← e1]; exact hs')] at v1
  rw [H.args n b hn _ (by rw [← e2]; exact ht')] at v2
  refine ⟨d, hd, by rw [← e3]; exact hr', e1, e2, s, t, hi, ?_, ?_, ?_, ?_⟩
  · intro l hl
    have x1 := v1.old l hl
    have x2 := v2.old l hl
    simp only at x1 x2
    unfold Prog.comp
    rw [e1, e2, x1, x2]
  · intro m hm c1 c2
    have x1 := v1.scalar m hm c1
    have x2 := v2.scalar m hm c2
    simp only at x1 x2
    unfold Prog.comp
    rw [e1, e2, x1, x2]
  · intro m hm c1 c2 h0
    have x1 := v1.loop m hm c1
    have x2 := v2.loop m hm c2
    simp only at x1 x2
    unfold Prog.comp at h0 ⊢
    rw [e1, e2, x1, x2]
    have := fdiv_mono (H.pos n b hn m hm) (show p.phi d.src (b.loop.depth + m) s q ≤ p.phi d.dest (b.loop.depth + m) t q by omega)
    omega
  · intro m hm c1 c2 h0
    have x1 := v1.loop m hm c1
    have x2 := v2.loop m hm c2
    simp only at x1 x2
    unfold Prog.comp at h0 ⊢
    rw [e1, e2, x1, x2, show p.phi d.src (b.loop.depth + m) s q = p.phi d.dest (b.loop.depth + m) t q by omega]
    omega

theorem tied_before {n : Nat} {b : Band} (hn : bands[n]? = some b) {d d' : Dep} {s t s' t' q : List Int}
    (hold : ∀ l < p.hProps.length, p'.comp d' (up b.loop.depth b.width l) s' t' q = p.comp d l s t q)
    (ht : p'.TiedBelow d' b.loop.depth s' t' q) : p.TiedBelow d b.loop.depth s t q := by
  intro l hl
  have hb := (H.bandsOK.range b (List.mem_of_getElem? hn)).1
  rw [← hold l (by omega), up_lt hl]
  exact ht l hl

theorem permutable' {n : Nat} {b : Band} (hn : bands[n]? = some b) (hU : Uniform p b.loop.depth p.hProps.length b.loop.stmts)
    (hperm : Permutable p b) : Permutable p' b := by
  obtain ⟨r1, r2⟩ := H.bandsOK.range b (List.mem_of_getElem? hn)
  intro d' hd' hr' hs' ht' s' t' q e1 e2 e3 e4 htied m hm
  obtain ⟨d, hd, hr, es, et, s, t, hin, c1, c2, c3, _⟩ := H.inner hn hd' hr' hs' ht' (⟨e1, e2, e3, e4⟩ : p'.Inst d' s' t' q)
  rw [es] at hs'
  rw [et] at ht'
  have htied0 := H.tied_before hn c1 htied
  have up' : ∀ m < b.width, ∀ i ∈ b.loop.stmts, p'.ScalarType (b.loop.depth + m) i ↔ p.ScalarType (b.loop.depth + m) i := by
    intro m hm i hi
    have L := H.lift hn hi
    have := L.len
    rw [L.types _ (by omega), (L.tile m hm).1]
  have lift0 : (∃ m0 < m, p.ScalarType (b.loop.depth + m0) d.src ∧ p.ScalarType (b.loop.depth + m0) d.dest ∧
      1 ≤ p.comp d (b.loop.depth + m0) s t q) → ∃ m0 < m, p'.ScalarType (b.loop.depth + m0) d'.src ∧ p'.ScalarType (b.loop.depth + m0) d'.dest ∧
      1 ≤ p'.comp d' (b.loop.depth + m0) s' t' q := by
    rintro ⟨m0, x1, x2, x3, x4⟩
    refine ⟨m0, x1, ?_, ?_, by rw [c2 m0 (by omega) x2 x3]; exact x4⟩
    · rw [es]; exact (up' m0 (by omega) _ hs').mpr x2
    · rw [et]; exact (up' m0 (by omega) _ ht').mpr x3
  by_cases cs : p.ScalarType (b.loop.depth + m) d.src
  · by_cases ct : p.ScalarType (b.loop.depth + m) d.dest
    · rcases hperm d hd hr hs' ht' s t q hin.hs hin.ht hin.hp hin.sat htied0 m hm with x | x
      · left; rw [c2 m hm cs ct]; exact x
      · exact .inr (lift0 x)
    · exact .inr (lift0 (mixed_sep H.types H.pure r2 r1 hU hperm hd hr hs' ht' hin htied0 hm (by simp [cs, ct])))
  · by_cases ct : p.ScalarType (b.loop.depth + m) d.dest
    · exact .inr (lift0 (mixed_sep H.types H.pure r2 r1 hU hperm hd hr hs' ht' hin htied0 hm (by simp [cs, ct])))
    · rcases hperm d hd hr hs' ht' s t q hin.hs hin.ht hin.hp hin.sat htied0 m hm with x | x
      · left; exact c3 m hm cs ct x
      · exact .inr (lift0 x)

theorem forward' {n : Nat} {b : Band} (hn : bands[n]? = some b) (hf : Forward p b) : Forward p' b := by
  obtain ⟨r1, r2⟩ := H.bandsOK.range b (List.mem_of_getElem? hn)
  intro d' hd' hr' hs' ht' s' t' q hin' htied k hk
  obtain ⟨d, hd, hr, es, et, s, t, hin, c1, c2, c3, _⟩ := H.inner hn hd' hr' hs' ht' hin'
  rw [es] at hs'
  rw [et] at ht'
  obtain ⟨k1, k2, k3⟩ := hk
  obtain ⟨m, rfl⟩ : ∃ m, k = b.loop.depth + m := ⟨k - b.loop.depth, by omega⟩
  have ns : ∀ i ∈ b.loop.stmts, ¬ p.ScalarType (b.loop.depth + m) i := by
    intro i hi hc
    exact k3 i hi (((H.lift hn hi).tile m (by omega)).1.mpr hc)
  refine c3 m (by omega) (ns _ hs') (ns _ ht') (hf d hd hr hs' ht' s t q hin (H.tied_before hn c1 htied) _ ⟨k1, k2, ?_⟩)
  intro i hi hc
  exact ns i hi ((H.types i (r2 i hi) _ (by omega)).mpr hc)

theorem comps_first {n : Nat} {b : Band} (hn : bands[n]? = some b) (hperm : Permutable p b) :
    CompsOK p' (b.loop.depth + b.width) b.width b.loop.stmts := by
  obtain ⟨r1, r2⟩ := H.bandsOK.range b (List.mem_of_getElem? hn)
  intro d' hd' hr' hs' ht' s' t' q hin' htied m hm
  obtain ⟨d, hd, hr, es, et, s, t, hin, c1, c2, c3, _⟩ := H.inner hn hd' hr' hs' ht' hin'
  rw [es] at hs'
  rw [et] at ht'
  have := c1 (b.loop.depth + m) (by omega)
  rw [up_ge (by omega), show b.loop.depth + m + b.width = b.loop.depth + b.width + m by omega] at this
  rw [this]
  rcases hperm d hd hr hs' ht' s t q hin.hs hin.ht hin.hp hin.sat (H.tied_before hn c1 (fun l hl => htied l (by omega))) m hm with x | ⟨m0, x1, x2, x3, x4⟩
  · exact x
  · exfalso
    rw [← c2 m0 (by omega) x2 x3, htied _ (by omega)] at x4
    omega

theorem comps_shift {n : Nat} {b : Band} (hn : bands[n]? = some b) {F : Nat} (hF : b.loop.depth ≤ F) (hle : F + b.width ≤ p.hProps.length)
    (hc : CompsOK p F b.width b.loop.stmts) : CompsOK p' (F + b.width) b.width b.loop.stmts := by
  obtain ⟨r1, r2⟩ := H.bandsOK.range b (List.mem_of_getElem? hn)
  intro d' hd' hr' hs' ht' s' t' q hin' htied m hm
  obtain ⟨d, hd, hr, es, et, s, t, hin, c1, _⟩ := H.inner hn hd' hr' hs' ht' hin'
  rw [es] at hs'
  rw [et] at ht'
  have := c1 (F + m) (by omega)
  rw [up_ge (by omega), show F + m + b.width = F + b.width + m by omega] at this
  rw [this]
  refine hc d hd hr hs' ht' s t q hin (fun l hl => ?_) m hm
  rw [← c1 l (by omega)]
  refine htied _ ?_
  unfold up
  split_ifs <;> omega

theorem timestamp_at {i : Nat} (hi : i < p.stmts.length) {l : Nat} (hl : l < p.hProps.length) (hlow : l < (a i).f ∨ (a i).k = 0)
    {x' x q : List Int} (hv : ValLift p p' i (a i) x' x q) : (p'.timestamp i x' q)[l]? = (p.timestamp i x q)[l]? := by
  have gi := List.getElem?_eq_getElem hi
  have gi' := List.getElem?_eq_getElem (show i < p'.stmts.length by rw [H.tiled.len]; exact hi)
  have l1 := H.ok.levels _ (List.mem_of_getElem? gi)
  have l2 := H.ok'.levels _ (List.mem_of_getElem? gi')
  have := (H.tiled.lift H.ok H.types hi (H.levels i hi)).len
  rw [timestamp_get gi (by omega), timestamp_get gi' (by omega)]
  have e := hv.old l hl
  have : up (a i).f (a i).k l = l := by
    unfold up
    split_ifs
    · rfl
    · omega
  rw [this] at e
  rw [e]

theorem separated' (hsep : ∀ b ∈ bands, Separated p b) : ∀ b ∈ bands, Separated p' b := by
  intro b hb d' hd' hr' hne s' t' q e1 e2 e3 e4
  obtain ⟨d, hd, es, et, er, s, t, hin, v1, v2⟩ := H.pull hd' (⟨e1, e2, e3, e4⟩ : p'.Inst d' s' t' q)
  obtain ⟨d1, d2, _⟩ := H.ok.deps d hd
  have hr : d.rar = false := by rw [← er]; exact hr'
  rw [es, et] at hne ⊢
  have hb1 := hsep b hb d hd hr hne s t q hin.hs hin.ht hin.hp hin.sat
  have hbr := (H.bandsOK.range b hb).1
  -- a level before all bands of the two statements
  have key : ∃ l x y, l < b.loop.depth ∧ (∀ c ∈ bands, (d.src ∈ c.loop.stmts ∨ d.dest ∈ c.loop.stmts) → l < c.loop.depth) ∧
      (p.timestamp d.src s q)[l]? = some x ∧ (p.timestamp d.dest t q)[l]? = some y ∧ x < y ∧
      ∀ l' < l, (p.timestamp d.src s q)[l']? = (p.timestamp d.dest t q)[l']? := by
    have uniq : ∀ c ∈ bands, ∀ e ∈ bands, ∀ i, i ∈ c.loop.stmts → i ∈ e.loop.stmts → c = e := by
      intro c hc e he i h1 h2
      by_contra hne
      obtain ⟨nc, hnc⟩ := List.getElem?_of_mem hc
      obtain ⟨ne, hne'⟩ := List.getElem?_of_mem he
      have hnn : nc ≠ ne := fun h => hne (by rw [h, hne'] at hnc; cases hnc; rfl)
      have pw := H.bandsOK.disjoint
      rw [List.pairwise_iff_getElem] at pw
      obtain ⟨b1, b2⟩ := List.getElem?_eq_some_iff.mp hnc
      obtain ⟨c1, c2⟩ := List.getElem?_eq_some_iff.mp hne'
      rcases Nat.lt_or_gt_of_ne hnn with h' | h'
      · exact pw nc ne b1 c1 h' i (by rw [b2]; exact h1) (by rw [c2]; exact h2)
      · exact pw ne nc c1 b1 h' i (by rw [c2]; exact h2) (by rw [b2]; exact h1)
    have step : ∀ i j, (i = d.src ∧ j = d.dest ∨ i = d.dest ∧ j = d.src) → i ∈ b.loop.stmts → j ∉ b.loop.stmts →
        ∃ l x y, l < b.loop.depth ∧ (∀ c ∈ bands, (d.src ∈ c.loop.stmts ∨ d.dest ∈ c.loop.stmts) → l < c.loop.depth) ∧
      (p.timestamp d.src s q)[l]? = some x ∧ (p.timestamp d.dest t q)[l]? = some y ∧ x < y ∧
      ∀ l' < l, (p.timestamp d.src s q)[l']? = (p.timestamp d.dest t q)[l']? := by
      intro i j hij hi hj
      by_cases cj : ∃ c ∈ bands, j ∈ c.loop.stmts
      · obtain ⟨c, hc, hjc⟩ := cj
        have hic : i ∉ c.loop.stmts := fun h => hj (by rw [uniq b hb c hc i hi h]; exact hjc)
        have hne2 : ¬(d.src ∈ c.loop.stmts ↔ d.dest ∈ c.loop.stmts) := by
          rcases hij with ⟨rfl, rfl⟩ | ⟨rfl, rfl⟩
          · exact fun h => hic (h.mpr hjc)
          · exact fun h => hic (h.mp hjc)
        have hc1 := hsep c hc d hd hr hne2 s t q hin.hs hin.ht hin.hp hin.sat
        obtain ⟨l, x, y, y1, y2, y3, y4, y5, y6⟩ := take_take_lex hb1 hc1
        refine ⟨l, x, y, y1, ?_, y3, y4, y5, y6⟩
        intro e he hor
        have : e = b ∨ e = c := by
          rcases hij with ⟨rfl, rfl⟩ | ⟨rfl, rfl⟩
          · rcases hor with h | h
            · exact .inl (uniq e he b hb _ h hi)
            · exact .inr (uniq e he c hc _ h hjc)
          · rcases hor with h | h
            · exact .inr (uniq e he c hc _ h hjc)
            · exact .inl (uniq e he b hb _ h hi)
        rcases this with rfl | rfl
        · exact y1
        · exact y2
      · push Not at cj
        obtain ⟨l, x, y, y1, y2, y3, y4, y5, y6⟩ := take_take_lex hb1 hb1
        refine ⟨l, x, y, y1, ?_, y3, y4, y5, y6⟩
        intro e he hor
        have : e = b := by
          rcases hij with ⟨rfl, rfl⟩ | ⟨rfl, rfl⟩
          · rcases hor with h | h
            · exact uniq e he b hb _ h hi
            · exact absurd h (cj e he)
          · rcases hor with h | h
            · exact absurd h (cj e he)
            · exact uniq e he b hb _ h hi
        rw [this]; exact y1
    by_cases cs : d.src ∈ b.loop.stmts
    · exact step _ _ (.inl ⟨rfl, rfl⟩) cs (fun h => hne ⟨fun _ => h, fun _ => cs⟩)
    · by_cases ct : d.dest ∈ b.loop.stmts
      · exact step _ _ (.inr ⟨rfl, rfl⟩) ct cs
      · exact absurd ⟨fun h => absurd h cs, fun h => absurd h ct⟩ hne
  obtain ⟨l, x, y, y1, y2, y3, y4, y5, y6⟩ := key
  have low : ∀ i, (i = d.src ∨ i = d.dest) → ∀ l' ≤ l, l' < (a i).f ∨ (a i).k = 0 := by
    intro i hi l' hl'
    by_cases hc : ∃ c ∈ bands, i ∈ c.loop.stmts
    · obtain ⟨c, hcm, hic⟩ := hc
      obtain ⟨n, hn⟩ := List.getElem?_of_mem hcm
      left
      rw [H.args n c hn i hic]
      have := y2 c hcm (by rcases hi with rfl | rfl; exacts [.inl hic, .inr hic])
      simp only; omega
    · push Not at hc
      right; rw [H.none i hc]
  have q1 : ∀ l' ≤ l, (p'.timestamp d.src s' q)[l']? = (p.timestamp d.src s q)[l']? := fun l' hl' =>
    H.timestamp_at d1 (by omega) (low _ (.inl rfl) l' hl') v1
  have q2 : ∀ l' ≤ l, (p'.timestamp d.dest t' q)[l']? = (p.timestamp d.dest t q)[l']? := fun l' hl' =>
    H.timestamp_at d2 (by omega) (low _ (.inr rfl) l' hl') v2
  refine ⟨l, x, y, ?_, ?_, y5, ?_⟩
  · rw [List.getElem?_take_of_lt y1, q1 l le_rfl, y3]
  · rw [List.getElem?_take_of_lt y1, q2 l le_rfl, y4]
  · intro l' hl'
    rw [List.getElem?_take_of_lt (by omega), List.getElem?_take_of_lt (by omega), q1 l' (by omega), q2 l' (by omega)]
    exact y6 l' hl'

/-- One round of tiling. -/
theorem step {k : Nat} (hb : ∀ b ∈ bands, TBand p b k ∧ Permutable p b) : ∀ b ∈ bands, TBand p' b (k + 1) ∧ Permutable p' b := by
  intro b hbm
  obtain ⟨n, hn⟩ := List.getElem?_of_mem hbm
  obtain ⟨T, hP⟩ := hb b hbm
  have r1 := (H.bandsOK.range b hbm).1
  have hL : ∀ i ∈ b.loop.stmts, Lift p p' i b.loop.depth b.width := fun i hi => H.lift hn hi
  have e : b.loop.depth + (k + 1) * b.width = b.loop.depth + k * b.width + b.width := by ring
  refine ⟨⟨T.ne, T.nodup, fun i hi => by rw [H.tiled.len]; exact T.range i hi, T.width, ?_, ?_, ?_, ?_, ?_⟩, H.permutable' hn T.uni hP⟩
  · obtain ⟨i, _, hi⟩ := List.exists_cons_of_ne_nil T.ne
    have := (hL i (by rw [hi]; simp)).len
    have := T.len
    have : (k + 1 + 1) * b.width = (k + 1) * b.width + b.width := by ring
    omega
  · exact H.separated' (fun c hc => (hb c hc).1.sep) b hbm
  · exact lift_uniform H.types T.range r1 hL T.uni
  · rw [e]
    exact lift_uniform_shift hL (Nat.le_add_right _ _) T.uniF
  · intro _
    rw [e]
    rcases Nat.eq_zero_or_pos k with rfl | hk
    · simpa using H.comps_first hn hP
    · refine H.comps_shift hn (Nat.le_add_right _ _) ?_ (T.comps hk)
      have := T.len
      have : (k + 1) * b.width = k * b.width + b.width := by ring
      omega

end TileSetup

end Pluto
