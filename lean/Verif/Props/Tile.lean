import Verif.Lemmas.TileLegal
import Verif.Props.Auto

/-! C18, C19: tiling (`tileScatteringDims` is `pluto_tile_scattering_dims`, `tileBand` is
`pluto_tile_band`). `TiledExactly`, `tileCoords`, `tileTime`, `Prog.Legal`, `Permutable`, ...:
Verif/Spec/Tile.lean. -/

namespace Pluto

/-- C18. Tiling any number of disjoint bands with sizes at least 1 succeeds; every statement of a band
has every iteration extended to exactly one iteration of the tiled domain, whose tile coordinates are
the hyperplane values divided by the sizes, rounded down; every iteration of the tiled domain projects
to an original one; the domains of the other statements keep their points. -/
theorem C18_exactly_once (p : Prog) (hok : p.OK) (bands : List Band) (sizes : Nat → Nat → Int) (hb : BandsOK p bands)
    (hz : ∀ (n : Nat) (b : Band), bands[n]? = some b → ∀ m < b.width, 1 ≤ sizes n m) :
    ∃ p', tileScatteringDims p bands sizes = some p' ∧ p'.OK ∧ p'.npar = p.npar ∧ p'.stmts.length = p.stmts.length ∧
      (∀ (n : Nat) (b : Band), bands[n]? = some b → ∀ i ∈ b.loop.stmts, ∀ st : Stmt, p.stmts[i]? = some st →
        ∃ st', p'.stmts[i]? = some st' ∧ TiledExactly p.npar b.loop.depth (sizes n) b.width st st') ∧
      (∀ i : Nat, (∀ b ∈ bands, i ∉ b.loop.stmts) → ∀ st : Stmt, p.stmts[i]? = some st →
        ∃ st', p'.stmts[i]? = some st' ∧ st'.dim = st.dim ∧
          ∀ x q : List Int, x.length = st.dim → q.length = p.npar →
            (st'.domain.Sat (x ++ q) ↔ st.domain.Sat (x ++ q))) := by
  obtain ⟨a, p', h1, h2, h3, h4⟩ := tileScattering_spec hok hb hz
  refine ⟨p', h1, ?_, h2.npar, h2.len, ?_, ?_⟩
  · refine h2.ok hok (fun i st0 hi => ?_)
    by_cases hc : ∃ b ∈ bands, i ∈ b.loop.stmts
    · obtain ⟨b, hbm, hib⟩ := hc
      obtain ⟨n, hn⟩ := List.getElem?_of_mem hbm
      left
      rw [h3 n b hn i hib, hok.levels st0 (List.mem_of_getElem? hi)]
      exact (hb.range b hbm).1
    · push Not at hc
      right; rw [h4 i hc]
  · intro n b hn i hi st hst
    obtain ⟨st1, st', k1, k2, k3, _⟩ := h2.stmts i st hst
    rw [h3 n b hn i hi] at k2
    exact ⟨st', k1, k2.exactly k3.2.2.1 k3.1⟩
  · intro i hi st hst
    obtain ⟨st1, st', k1, k2, k3, _⟩ := h2.stmts i st hst
    rw [h4 i hi] at k2
    have hn : (tileOffsets st 0 0).length = 0 := rfl
    refine ⟨st', k1, by rw [k3.1, k2.dim, hn, Nat.zero_add], fun x q hx hq => ?_⟩
    have := k2.sat [] x q rfl hx hq
    rw [k3.2.2.1]
    simpa [tileCoords, tileOffsets] using this

/-- C18, the schedule. The time stamp of an iteration after tiling is its old one with the tile
coordinates inserted before the band, and zeros at the end. -/
theorem C18_schedule (p : Prog) (hok : p.OK) (bands : List Band) (sizes : Nat → Nat → Int) (hb : BandsOK p bands)
    (hz : ∀ (n : Nat) (b : Band), bands[n]? = some b → ∀ m < b.width, 1 ≤ sizes n m) (p' : Prog)
    (h : tileScatteringDims p bands sizes = some p') (n : Nat) (b : Band) (hn : bands[n]? = some b)
    (i : Nat) (hi : i ∈ b.loop.stmts) (st : Stmt) (hst : p.stmts[i]? = some st) (x q : List Int) :
    ∃ z, p'.timestamp i (tileCoords st b.loop.depth (sizes n) b.width x q ++ x) q =
      (p.timestamp i x q).take b.loop.depth ++ tileTime st b.loop.depth (sizes n) b.width x q ++
      (p.timestamp i x q).drop b.loop.depth ++ List.replicate z 0 := by
  obtain ⟨a, p1, h1, h2, h3, h4⟩ := tileScattering_spec hok hb hz
  rw [h] at h1; cases h1
  have ha := h3 n b hn i hi
  obtain ⟨z, hz'⟩ := h2.timestamp hst (by
    left
    rw [ha, hok.levels st (List.mem_of_getElem? hst)]
    exact (hb.range b (List.mem_of_getElem? hn)).1) x q
  rw [ha] at hz'
  exact ⟨z, by simpa [TArg.coords] using hz'⟩

/-- C18, the dependences. The tiled program has the same dependences, and the dependent pairs are
exactly the old ones with the tile coordinates of both ends. `T` gives the tile coordinates of the
statements: those of its band, none outside the bands. -/
theorem C18_dependences (p : Prog) (hok : p.OK) (bands : List Band) (sizes : Nat → Nat → Int) (hb : BandsOK p bands)
    (hz : ∀ (n : Nat) (b : Band), bands[n]? = some b → ∀ m < b.width, 1 ≤ sizes n m) (p' : Prog)
    (h : tileScatteringDims p bands sizes = some p')
    (T : Nat → List Int → List Int → List Int)
    (hT : ∀ (n : Nat) (b : Band), bands[n]? = some b → ∀ i ∈ b.loop.stmts, ∀ st : Stmt, p.stmts[i]? = some st →
      ∀ x q, T i x q = tileCoords st b.loop.depth (sizes n) b.width x q)
    (hT0 : ∀ i : Nat, (∀ b ∈ bands, i ∉ b.loop.stmts) → ∀ x q, T i x q = []) :
    List.Forall₂ (fun d d' : Dep => d'.src = d.src ∧ d'.dest = d.dest ∧ d'.rar = d.rar ∧
      ∀ s' t' q : List Int, s'.length = p'.dim d.src → t'.length = p'.dim d.dest → q.length = p.npar →
        (d'.dpoly.Sat (s' ++ t' ++ q) ↔ ∃ s t : List Int, s.length = p.dim d.src ∧ t.length = p.dim d.dest ∧
          d.dpoly.Sat (s ++ t ++ q) ∧ s' = T d.src s q ++ s ∧ t' = T d.dest t q ++ t)) p.deps p'.deps := by
  obtain ⟨a, p1, h1, h2, h3, h4⟩ := tileScattering_spec hok hb hz
  rw [h] at h1; cases h1
  have hTa : ∀ (i : Nat) (st : Stmt), p.stmts[i]? = some st → ∀ x q, T i x q = (a i).coords st x q := by
    intro i st hi x q
    by_cases hc : ∃ b ∈ bands, i ∈ b.loop.stmts
    · obtain ⟨b, hbm, hib⟩ := hc
      obtain ⟨n, hn⟩ := List.getElem?_of_mem hbm
      rw [h3 n b hn i hib, hT n b hn i hib st hi]; rfl
    · push Not at hc
      rw [h4 i hc, hT0 i hc]; simp [TArg.coords, tileCoords, tileOffsets]
  have hd := List.forall₂_and_left p.deps p'.deps |>.mpr ⟨hok.deps, h2.deps⟩
  refine hd.imp ?_
  rintro d d' ⟨⟨k1, k2, _⟩, hD⟩
  have gs := List.getElem?_eq_getElem k1
  have gt := List.getElem?_eq_getElem k2
  obtain ⟨_, _, sat⟩ := hD.sat _ _ gs gt
  refine ⟨hD.src, hD.dest, hD.rar, ?_⟩
  intro s' t' q hs' ht' hq
  have ds : p.dim d.src = p.stmts[d.src].dim := by simp [Prog.dim, gs]
  have dt : p.dim d.dest = p.stmts[d.dest].dim := by simp [Prog.dim, gt]
  rw [h2.dim gs] at hs'
  rw [h2.dim gt] at ht'
  constructor
  · intro hsat
    obtain ⟨S, s, rfl, lS, ls⟩ : ∃ S s, s' = S ++ s ∧ S.length = (a d.src).n p.stmts[d.src] ∧ s.length = p.stmts[d.src].dim :=
      ⟨s'.take ((a d.src).n p.stmts[d.src]), s'.drop ((a d.src).n p.stmts[d.src]), by simp, by simp; omega, by simp; omega⟩
    obtain ⟨T', t, rfl, lT, lt⟩ : ∃ T' t, t' = T' ++ t ∧ T'.length = (a d.dest).n p.stmts[d.dest] ∧ t.length = p.stmts[d.dest].dim :=
      ⟨t'.take ((a d.dest).n p.stmts[d.dest]), t'.drop ((a d.dest).n p.stmts[d.dest]), by simp, by simp; omega, by simp; omega⟩
    obtain ⟨x1, x2, x3⟩ := (sat S s T' t q lS ls lT lt hq).mp hsat
    exact ⟨s, t, by rw [ls, ds], by rw [lt, dt], x1, by rw [hTa _ _ gs, ← x2], by rw [hTa _ _ gt, ← x3]⟩
  · rintro ⟨s, t, ls, lt, x1, rfl, rfl⟩
    rw [hTa _ _ gs, hTa _ _ gt]
    exact (sat _ s _ t q (tileCoords_length _ _ _ _ _ _) (by rw [ls, ds]) (tileCoords_length _ _ _ _ _ _)
      (by rw [lt, dt]) hq).mpr ⟨x1, rfl, rfl⟩

/-- C19 for bands whose levels are loops for all their statements or scalar for all of them (or
scalar with value zero), statements separated by an outer scalar level of the band apart. If the schedule is legal, the bands are permutable and dependences leaving a
band are satisfied before it, then the tiled schedule is legal: all dependent pairs of the tiled program
are executed in order.
Missing for the full C19: bands with a statement that has a non-zero constant at a level where another
has a loop; there the claim is false (`C19_violated`). -/
theorem C19_legal_partial (p : Prog) (hok : p.OK) (bands : List Band) (sizes : Nat → Nat → Int) (hb : BandsOK p bands)
    (hz : ∀ (n : Nat) (b : Band), bands[n]? = some b → ∀ m < b.width, 1 ≤ sizes n m)
    (hleg : p.Legal) (hperm : ∀ b ∈ bands, Permutable p b) (hsep : ∀ b ∈ bands, Separated p b)
    (hmix : ∀ b ∈ bands, Unmixed p b) (p' : Prog) (h : tileScatteringDims p bands sizes = some p') : p'.Legal := by
  obtain ⟨a, p1, h1, h2, h3, h4⟩ := tileScattering_spec hok hb hz
  rw [h] at h1; cases h1
  exact tile_legal hok hb hz h3 h4 h2 hleg hperm hsep hmix

/-! ### Examples -/

instance (npar : Nat) (st : Stmt) : Decidable (st.OK npar) :=
  decidable_of_iff (st.domain.WF ∧ st.domain.ncols = st.dim + npar + 1 ∧
    (∀ r ∈ st.trans, r.length = st.dim + npar + 1) ∧ st.hypTypes.length = st.trans.length)
    ⟨fun ⟨a, b, c, d⟩ => ⟨a, b, c, d⟩, fun ⟨a, b, c, d⟩ => ⟨a, b, c, d⟩⟩

instance (p : Prog) : Decidable p.OK :=
  decidable_of_iff ((∀ st ∈ p.stmts, st.OK p.npar) ∧ (∀ st ∈ p.stmts, st.trans.length = p.hProps.length) ∧
    ∀ d ∈ p.deps, d.src < p.stmts.length ∧ d.dest < p.stmts.length ∧ p.DepFits d)
    ⟨fun ⟨a, b, c⟩ => ⟨a, b, c⟩, fun ⟨a, b, c⟩ => ⟨a, b, c⟩⟩

instance (p : Prog) (bands : List Band) : Decidable (BandsOK p bands) :=
  decidable_of_iff ((∀ b ∈ bands, b.loop.depth + b.width ≤ p.hProps.length ∧ ∀ i ∈ b.loop.stmts, i < p.stmts.length) ∧
    (∀ b ∈ bands, b.loop.stmts.Nodup) ∧ bands.Pairwise (fun b c => ∀ i ∈ b.loop.stmts, i ∉ c.loop.stmts))
    ⟨fun ⟨a, b, c⟩ => ⟨a, b, c⟩, fun ⟨a, b, c⟩ => ⟨a, b, c⟩⟩

/-- Two distributed nests of depth 2 over `0 ≤ i, j < N`, the first one skewed to `(i, i + j)`; the
first depends on itself with distance `(1, -1)`, the second reads what the first computes. -/
def exTile : Prog where
  nvar := 2
  npar := 1
  stmts := [
    ⟨2, 2, ⟨4, [⟨false, [1, 0, 0, 0]⟩, ⟨false, [0, 1, 0, 0]⟩, ⟨false, [-1, 0, 1, -1]⟩, ⟨false, [0, -1, 1, -1]⟩]⟩, [true, true],
      [[0, 0, 0, 0], [1, 0, 0, 0], [1, 1, 0, 0]], [.scalar, .loop, .loop]⟩,
    ⟨2, 2, ⟨4, [⟨false, [1, 0, 0, 0]⟩, ⟨false, [0, 1, 0, 0]⟩, ⟨false, [-1, 0, 1, -1]⟩, ⟨false, [0, -1, 1, -1]⟩]⟩, [true, true],
      [[0, 0, 0, 1], [1, 0, 0, 0], [0, 1, 0, 0]], [.scalar, .loop, .loop]⟩]
  deps := [
    ⟨0, 0, false, ⟨6, [⟨true, [-1, 0, 1, 0, 0, -1]⟩, ⟨true, [0, -1, 0, 1, 0, 1]⟩]⟩, ⟨6, []⟩, true, 1, [false, true, false], [.zero, .plus, .zero]⟩,
    ⟨0, 1, false, ⟨6, [⟨true, [-1, 0, 1, 0, 0, 0]⟩, ⟨true, [0, -1, 0, 1, 0, 0]⟩]⟩, ⟨6, []⟩, true, 0, [true, false, false], [.plus, .zero, .star]⟩]
  hProps := [.scalar, .loop, .loop]

def exBands : List Band := [⟨⟨1, [0]⟩, 2⟩, ⟨⟨1, [1]⟩, 2⟩]

example : outermostBands exTile = some exBands := by decide +kernel

theorem exTile_ok : exTile.OK ∧ BandsOK exTile exBands := by
  constructor <;> decide +kernel

theorem length_two {l : List Int} (h : l.length = 2) : ∃ a b, l = [a, b] := List.length_eq_two.mp h
theorem length_one {l : List Int} (h : l.length = 1) : ∃ a, l = [a] := List.length_eq_one_iff.mp h

theorem exTile_pairs {d : Dep} (hd : d ∈ exTile.deps) {s t q : List Int} (hs : s.length = exTile.dim d.src)
    (ht : t.length = exTile.dim d.dest) (hq : q.length = exTile.npar) (h : d.dpoly.Sat (s ++ t ++ q)) :
    ∃ i j n : Int, s = [i, j] ∧ q = [n] ∧ ((d.src = 0 ∧ d.dest = 0 ∧ t = [i + 1, j - 1]) ∨ (d.src = 0 ∧ d.dest = 1 ∧ t = [i, j])) := by
  simp only [exTile, List.mem_cons, List.not_mem_nil, or_false] at hd
  rcases hd with rfl | rfl
  all_goals
    obtain ⟨i, j, rfl⟩ := length_two hs
    obtain ⟨i', j', rfl⟩ := length_two ht
    obtain ⟨n, rfl⟩ := length_one hq
    refine ⟨i, j, n, rfl, rfl, ?_⟩
    simp [Cst.Sat, Row.Sat, aff, dot] at h
    simp
    omega

example : exTile.Legal ∧ (∀ b ∈ exBands, Permutable exTile b) ∧ (∀ b ∈ exBands, Separated exTile b) ∧
    ∀ b ∈ exBands, Unmixed exTile b := by
  refine ⟨?_, ?_, ?_, ?_⟩
  · intro d hd _ s t q hs ht hq h
    obtain ⟨i, j, n, rfl, rfl, ⟨e1, e2, rfl⟩ | ⟨e1, e2, rfl⟩⟩ := exTile_pairs hd hs ht hq h
    · rw [e1, e2]
      exact ⟨1, i, i + 1, by simp [Prog.timestamp, exTile, aff, dot], by simp [Prog.timestamp, exTile, aff, dot], by omega, by
        intro l hl
        interval_cases l
        simp [Prog.timestamp, exTile, aff, dot]⟩
    · rw [e1, e2]
      exact ⟨0, 0, 1, by simp [Prog.timestamp, exTile, aff, dot], by simp [Prog.timestamp, exTile, aff, dot], by omega, by
        intro l hl; omega⟩
  · intro b hb d hd _ hsb htb s t q hs ht hq h _ m hm
    left
    obtain ⟨i, j, n, rfl, rfl, ⟨e1, e2, rfl⟩ | ⟨e1, e2, rfl⟩⟩ := exTile_pairs hd hs ht hq h
    · simp only [exBands, List.mem_cons, List.not_mem_nil, or_false] at hb
      rcases hb with rfl | rfl
      · interval_cases m <;> simp [Prog.comp, Prog.phi, Prog.row, e1, e2, exTile, aff, dot]
      · rw [e1] at hsb; simp at hsb
    · simp only [exBands, List.mem_cons, List.not_mem_nil, or_false] at hb
      rcases hb with rfl | rfl
      · rw [e2] at htb; simp at htb
      · rw [e1] at hsb; simp at hsb
  · intro b hb d hd _ hne s t q hs ht hq h
    obtain ⟨i, j, n, rfl, rfl, ⟨e1, e2, rfl⟩ | ⟨e1, e2, rfl⟩⟩ := exTile_pairs hd hs ht hq h
    · simp [e1, e2] at hne
    · simp only [exBands, List.mem_cons, List.not_mem_nil, or_false] at hb
      rcases hb with rfl | rfl <;>
      exact ⟨0, 0, 1, by simp [Prog.timestamp, exTile, aff, dot, e1], by simp [Prog.timestamp, exTile, aff, dot, e2], by omega, by
          intro l hl; omega⟩
  · intro b hb i hi j hj x y q _ _ _ m hm h1 h2 _
    exfalso
    simp only [exBands, List.mem_cons, List.not_mem_nil, or_false] at hb
    obtain ⟨st, a1, a2⟩ := h1
    rcases hb with rfl | rfl <;>
    · simp at hi; subst hi
      interval_cases m <;> simp [exTile] at a1 <;> subst a1 <;> simp at a2

/-- The tiled program of the example: tile coordinates of the point `(40, 7)` of the first statement. -/
example : (tileScatteringDims exTile exBands (fun _ _ => 32)).map (fun p => p.stmts.map (·.trans)) =
    some [[[0, 0, 0, 0, 0, 0], [1, 0, 0, 0, 0, 0], [0, 1, 0, 0, 0, 0], [0, 0, 1, 0, 0, 0], [0, 0, 1, 1, 0, 0]],
      [[0, 0, 0, 0, 0, 1], [1, 0, 0, 0, 0, 0], [0, 1, 0, 0, 0, 0], [0, 0, 1, 0, 0, 0], [0, 0, 0, 1, 0, 0]]] := by
  decide +kernel

example : tileCoords exTile.stmts[0] 1 (fun _ => 32) 2 [40, 7] [100] = [1, 1] := by decide +kernel

/-! ### Violation -/

/-- Fused statements: the first one has the constant 5 at the second level, the second one the loop
`j + 5` there. The instance `0` of the first must come before the instance `(0, 1)` of the second. -/
def exMixed : Prog where
  nvar := 2
  npar := 0
  stmts := [
    ⟨1, 1, ⟨2, []⟩, [true], [[1, 0], [0, 5]], [.loop, .scalar]⟩,
    ⟨2, 2, ⟨3, []⟩, [true, true], [[1, 0, 0], [0, 1, 5]], [.loop, .loop]⟩]
  deps := [⟨0, 1, false, ⟨4, [⟨true, [1, 0, 0, 0]⟩, ⟨true, [0, 1, 0, 0]⟩, ⟨true, [0, 0, 1, -1]⟩]⟩, ⟨4, []⟩, true, 1,
    [false, true], [.zero, .plus]⟩]
  hProps := [.loop, .loop]

theorem exMixed_pairs {d : Dep} (hd : d ∈ exMixed.deps) {s t q : List Int} (hs : s.length = exMixed.dim d.src)
    (ht : t.length = exMixed.dim d.dest) (hq : q.length = exMixed.npar) (h : d.dpoly.Sat (s ++ t ++ q)) :
    d = exMixed.deps[0] ∧ s = [0] ∧ t = [0, 1] ∧ q = [] := by
  simp only [exMixed, List.mem_cons, List.not_mem_nil, or_false] at hd
  subst hd
  obtain ⟨i, rfl⟩ := length_one hs
  obtain ⟨i', j', rfl⟩ := length_two ht
  obtain rfl := List.length_eq_zero_iff.mp hq
  simp [Cst.Sat, Row.Sat, aff, dot] at h
  refine ⟨rfl, by rw [h.1], by rw [h.2.1]; simp; omega, rfl⟩

/-- C19 is violated by `pluto_tile_band` when a band statement has a non-zero constant at a level
where another has a loop: a legal schedule, the bands found by the code itself, permutable and with no
dependence leaving them, size 32: the tiled schedule is not legal. -/
theorem C19_violated : ∃ (p : Prog) (bands : List Band) (sizes : Nat → Nat → Int) (p' : Prog),
    p.OK ∧ BandsOK p bands ∧ p.Legal ∧ outermostBands p = some bands ∧
    (∀ b ∈ bands, Permutable p b ∧ Separated p b) ∧ (∀ n m, sizes n m = 32) ∧
    tileScatteringDims p bands sizes = some p' ∧ ¬ p'.Legal := by
  obtain ⟨p', hp'⟩ : ∃ p', tileScatteringDims exMixed [⟨⟨0, [0, 1]⟩, 2⟩] (fun _ _ => 32) = some p' :=
    Option.isSome_iff_exists.mp (by decide +kernel)
  refine ⟨exMixed, [⟨⟨0, [0, 1]⟩, 2⟩], fun _ _ => 32, p', by decide +kernel, by decide +kernel, ?_, by decide +kernel, ?_,
    fun _ _ => rfl, hp', ?_⟩
  · intro d hd _ s t q hs ht hq h
    obtain ⟨rfl, rfl, rfl, rfl⟩ := exMixed_pairs hd hs ht hq h
    decide +kernel
  · intro b hb
    simp only [List.mem_singleton] at hb
    subst hb
    refine ⟨?_, ?_⟩
    · intro d hd _ _ _ s t q hs ht hq h _ m hm
      obtain ⟨rfl, rfl, rfl, rfl⟩ := exMixed_pairs hd hs ht hq h
      left
      have : m < 2 := hm
      interval_cases m <;> decide +kernel
    · intro d hd _ hne s t q hs ht hq h
      obtain ⟨rfl, rfl, rfl, rfl⟩ := exMixed_pairs hd hs ht hq h
      exact absurd hne (by decide +kernel)
  · intro hl
    have e1 : p'.deps[0]?.map (fun d => (d.src, d.dest, d.rar)) = some (0, 1, false) := by
      have : (tileScatteringDims exMixed [⟨⟨0, [0, 1]⟩, 2⟩] (fun _ _ => 32)).bind
          (fun p' => p'.deps[0]?.map (fun d => (d.src, d.dest, d.rar))) = some (0, 1, false) := by decide +kernel
      rwa [hp'] at this
    have e2 : (tileScatteringDims exMixed [⟨⟨0, [0, 1]⟩, 2⟩] (fun _ _ => 32)).map
        (fun p' => decide (p'.npar = 0 ∧ p'.dim 0 = 2 ∧ p'.dim 1 = 4 ∧
          (∀ d ∈ p'.deps, d.dpoly.Sat ([0, 0] ++ [0, 0, 0, 1] ++ [] : List Int)) ∧
          ¬ LexBefore (p'.timestamp 0 [0, 0] []) (p'.timestamp 1 [0, 0, 0, 1] []))) = some true := by decide +kernel
    rw [hp'] at e2
    simp only [Option.map_some, Option.some.injEq, decide_eq_true_eq] at e2
    obtain ⟨n0, d0, d1, hsat, hnl⟩ := e2
    cases hd : p'.deps[0]? with
    | none => rw [hd] at e1; simp at e1
    | some d =>
      rw [hd] at e1
      simp only [Option.map_some, Option.some.injEq, Prod.mk.injEq] at e1
      obtain ⟨s1, s2, s3⟩ := e1
      have hm := List.mem_of_getElem? hd
      have := hl d hm s3 [0, 0] [0, 0, 0, 1] [] (by rw [s1, d0]; rfl) (by rw [s2, d1]; rfl) (by rw [n0]; rfl) (hsat d hm)
      rw [s1, s2] at this
      exact hnl this

end Pluto
