import Verif.Props.Flow
import Verif.Props.IslLib

/-! C62: what `pluto_schedule` returns. -/

namespace Pluto

theorem related_union {fo : FlowOps} {reads writes : List IslAcc} {s : List IslTime} (ho : fo.OK reads writes s) {o : FlowOpts} {deps : List IslDep}
    (h : scheduleDeps fo o reads writes s = some deps) :
    ∃ d, computeDeps fo o false reads writes s = some d ∧ ∀ q a b, Related deps q a b ↔ Related d.raw q a b ∨ Related d.war q a b ∨ Related d.waw q a b := by
  unfold scheduleDeps at h
  obtain ⟨d, h1, h2⟩ := Option.bind_eq_some_iff.mp h
  cases h2
  exact ⟨d, h1, fun q a b => by rw [ho.union, ho.union, or_assoc]⟩

/-- C62, for any scheduler that `pluto_transform` returns legal schedules with. -/
theorem C62_order (ops : IslOps) (fo : FlowOps) (o : FlowOpts) (run : Prog → Option Outcome) (reads writes : List IslAcc) (s : List IslTime)
    (ho : fo.OK reads writes s) (hd : fo.DomainOK s) (hu : ∀ q p t t', AtTime s q p t → AtTime s q p t' → t = t')
    (hf : ∀ q e, {p | Touches writes q p e}.Finite) (deps : List IslDep) (hdeps : scheduleDeps fo o reads writes s = some deps)
    (ms : List BMap) (hT : plutoTransform ops run (fo.domain s) deps = some (some ms)) (h1 : OneTime (fo.domain s) ms)
    (h2 : RespectsDeps (fo.domain s) deps ms) :
    ∃ ms', plutoSchedule ops fo o run reads writes s = some (some ms') ∧ SameInstances s ms' ∧ KeepsOrder reads writes s ms' := by
  obtain ⟨d, c1, c2⟩ := related_union ho hdeps
  set ms' := fo.intersectDomain ms (fo.domain s) with hms'
  obtain ⟨i1, i2⟩ := hd.intersect ms
  rw [← hms'] at i1 i2
  have back : ∀ (i : Nat) (m' : BMap), ms'[i]? = some m' → ∃ m, ms[i]? = some m ∧ ∀ x t q, m'.Has x t q ↔ m.Has x t q ∧ Instance (fo.domain s) i x q := by
    intro i m' hm
    have hi : i < ms.length := by rw [← i1]; exact (List.getElem?_eq_some_iff.mp hm).1
    exact ⟨_, List.getElem?_eq_getElem hi, i2 i _ _ (List.getElem?_eq_getElem hi) hm⟩
  have forth : ∀ (i : Nat) (m : BMap), ms[i]? = some m → ∃ m', ms'[i]? = some m' ∧ ∀ x t q, m'.Has x t q ↔ m.Has x t q ∧ Instance (fo.domain s) i x q := by
    intro i m hm
    have hi : i < ms'.length := by rw [i1]; exact (List.getElem?_eq_some_iff.mp hm).1
    exact ⟨_, List.getElem?_eq_getElem hi, i2 i _ _ hm (List.getElem?_eq_getElem hi)⟩
  refine ⟨ms', ?_, ?_, ?_⟩
  · unfold plutoSchedule
    simp only [hdeps, hT, Option.bind_eq_bind, Option.bind_some, Option.pure_def]
    rfl
  · intro i x q
    constructor
    · rw [← hd.domain]
      constructor
      · intro hi
        obtain ⟨m, a1, t, a2, -⟩ := h1 i x q hi
        obtain ⟨m', b1, b2⟩ := forth i m a1
        exact ⟨m', b1, t, (b2 x t q).mpr ⟨a2, hi⟩⟩
      · rintro ⟨m', a1, t, a2⟩
        obtain ⟨m, -, b2⟩ := back i m' a1
        exact ((b2 x t q).mp a2).2
    · intro m' t t' a1 a2 a3
      obtain ⟨m, b1, b2⟩ := back i m' a1
      obtain ⟨n, n1, t0, -, n2⟩ := h1 i x q ((b2 x t q).mp a2).2
      rw [b1] at n1
      cases n1
      exact (n2 t ((b2 x t q).mp a2).1).trans (n2 t' ((b2 x t' q).mp a3).1).symm
  · intro q a b hab m m' u v hm hm' hu1 hv1
    have chain := C61_complete fo o false reads writes s ho d c1 q (hu q) (hf q) a b hab
    have inst : ∀ p t, AtTime s q p t → Instance (fo.domain s) p.1 p.2 q := fun p t hp => (hd.domain p.1 p.2 q).mpr ⟨t, hp⟩
    have link : ∀ x y, Related d.raw q x y ∨ Related d.war q x y ∨ Related d.waw q x y →
        ∃ n n' u v, ms[x.1]? = some n ∧ ms[y.1]? = some n' ∧ n.Has x.2 u q ∧ n'.Has y.2 v q ∧ LexBefore u v := by
      intro x y hxy
      have hE : ∃ t t', AtTime s q x t ∧ AtTime s q y t' := by
        rcases C61_sound fo o false reads writes s ho d c1 q x y hxy with ⟨_, _, _, t, t', k1, k2, _⟩ | ⟨_, _, _, t, t', k1, k2, _⟩ | ⟨_, _, _, t, t', k1, k2, _⟩ <;>
          exact ⟨t, t', k1, k2⟩
      obtain ⟨t, t', k1, k2⟩ := hE
      obtain ⟨n, n1, w, n2, -⟩ := h1 x.1 x.2 q (inst x t k1)
      obtain ⟨n', n1', w', n2', -⟩ := h1 y.1 y.2 q (inst y t' k2)
      obtain ⟨dd, g1, g2, g3, g4⟩ := (c2 q x y).mpr hxy
      refine ⟨n, n', w, w', n1, n1', n2, n2', ?_⟩
      exact h2 dd g1 x.2 y.2 q (by rw [g2]; exact inst x t k1) (by rw [g3]; exact inst y t' k2) g4 n n' w w' (by rw [g2]; exact n1)
        (by rw [g3]; exact n1') n2 n2'
    have all : ∃ n n' u v, ms[a.1]? = some n ∧ ms[b.1]? = some n' ∧ n.Has a.2 u q ∧ n'.Has b.2 v q ∧ LexBefore u v := by
      clear hm' hv1 hab
      induction chain with
      | single hxy => exact link _ _ hxy
      | tail _ hxy ih =>
        rename_i y z _
        obtain ⟨n, n', w, w', e1, e2, e3, e4, e5⟩ := ih
        obtain ⟨k, k', z, z', f1, f2, f3, f4, f5⟩ := link _ _ hxy
        rw [e2] at f1
        cases f1
        have hy : Instance (fo.domain s) y.1 y.2 q := by
          rcases C61_sound fo o false reads writes s ho d c1 q _ _ hxy with ⟨_, _, _, t, t', k1, k2, _⟩ | ⟨_, _, _, t, t', k1, k2, _⟩ | ⟨_, _, _, t, t', k1, k2, _⟩ <;>
            exact inst _ _ k1
        obtain ⟨p, p1, t0, -, p2⟩ := h1 y.1 y.2 q hy
        rw [e2] at p1
        cases p1
        rw [(p2 w' e4).trans (p2 z f3).symm] at e5
        exact ⟨n, k', w, z', e1, f2, e3, f4, e5.trans f5⟩
    obtain ⟨n, n', w, w', e1, e2, e3, e4, e5⟩ := all
    obtain ⟨k, k1, k2⟩ := back _ _ hm
    obtain ⟨k', k1', k2'⟩ := back _ _ hm'
    rw [e1] at k1
    rw [e2] at k1'
    cases k1
    cases k1'
    obtain ⟨g1, g2⟩ := (k2 _ _ _).mp hu1
    obtain ⟨g1', g2'⟩ := (k2' _ _ _).mp hv1
    obtain ⟨p, p1, t0, -, p2⟩ := h1 _ _ _ g2
    obtain ⟨p', p1', t0', -, p2'⟩ := h1 _ _ _ g2'
    rw [e1] at p1
    rw [e2] at p1'
    cases p1
    cases p1'
    rw [(p2 u g1).trans (p2 w e3).symm, (p2' v g1').trans (p2' w' e4).symm]
    exact e5

/-- C62. `pluto_schedule` returns a schedule with the semantics of the given one: if the automatic transformation
succeeds, the result has exactly one time for every instance that the given schedule runs and none for
others, and any two of them that access the same element, at least one writing, run in the same order as
under the given schedule.
Missing: as for `C60_transform_partial`. -/
theorem C62_schedule_partial (ops : IslOps) (hops : ops.OK) (fo : FlowOps) (fl : FlowOpts) (reads writes : List IslAcc) (s : List IslTime)
    (ho : fo.OK reads writes s) (hdo : fo.DomainOK s) (hu : ∀ q p t t', AtTime s q p t → AtTime s q p t' → t = t')
    (hf : ∀ q e, {p | Touches writes q p e}.Finite) (deps : List IslDep) (hdeps : scheduleDeps fo fl reads writes s = some deps)
    (npar : Nat) (hd : DomsOK npar (fo.domain s)) (hdp : DepsOK npar (fo.domain s) deps)
    (ao : AutoOpts) (L : Libs) (hE : EmptyOracle L.isEmpty) (hL : FeasibleOracle L.solve) (fuel : Nat) (d0 : DfsState)
    (best : Prog → List Loop → Option Loop) (hbest : ∀ p ls L, best p ls = some L → L ∈ ls) (o : TileOpts) (hip : o.innerpar = false)
    (tile : Bool) (sizes sizes2 : Nat → Nat → Int) (hz : ∀ n m, 1 ≤ sizes n m) (hz2 : ∀ n m, 1 ≤ sizes2 n m)
    (p0 : Prog) (h0 : progFromIsl ops (fo.domain s) deps = some p0) (hea : EagerAuto ao L noDiamond fuel d0 p0)
    (p : Prog) (h : autoTransform ao L noDiamond fuel d0 p0 = some (.success p))
    (hU : Uniform p 0 p.hProps.length (List.range p.stmts.length))
    (hfw : o.parallel = true → tile = true → ∀ p1 bands, recompute L.isEmpty p = some p1 → tileBands p1 = some bands → LoopBands p1 bands)
    (hfw' : o.parallel = true → tile = false → ∀ p1 bands, beforeWave L.isEmpty best o false sizes sizes2 p = some p1 →
      outermostBands p1 = some bands → LoopBands p1 bands)
    (hsm : ∀ p', scheduleProg ao L noDiamond fuel d0 best o tile false sizes sizes2 p0 = some (.success p') → SmallEntries p') :
    ∃ ms, plutoSchedule ops fo fl (scheduleProg ao L noDiamond fuel d0 best o tile false sizes sizes2) reads writes s = some (some ms) ∧
      SameInstances s ms ∧ KeepsOrder reads writes s ms := by
  obtain ⟨ms, k1, -, k2, k3⟩ := C60_transform_partial ops hops npar (fo.domain s) deps hd hdp ao L hE hL fuel d0 best hbest o hip tile sizes sizes2
    hz hz2 p0 h0 hea p h hU hfw hfw' hsm
  exact C62_order ops fo fl _ reads writes s ho hdo hu hf deps hdeps ms k1 k2 k3

/-- C62 fails with `--lastwriter` and `--isldepcoalesce` together, on every input: `pluto_schedule` does not
return, as `compute_deps_isl` uses pointers that are NULL. -/
theorem C62_violated_null (ops : IslOps) (fo : FlowOps) (o : FlowOpts) (run : Prog → Option Outcome) (reads writes : List IslAcc) (s : List IslTime)
    (h1 : o.lastwriter = true) (h2 : o.coalesce = true) : plutoSchedule ops fo o run reads writes s = none := by
  unfold plutoSchedule scheduleDeps computeDeps
  simp [h1, h2]

/-- Otherwise the dependences are always computed. -/
theorem C62_deps_computed (fo : FlowOps) (o : FlowOpts) (reads writes : List IslAcc) (s : List IslTime) (h : ¬ (o.lastwriter = true ∧ o.coalesce = true)) :
    ∃ deps, scheduleDeps fo o reads writes s = some deps := by
  unfold scheduleDeps computeDeps
  by_cases hc : o.coalesce = true
  · simp [hc, show o.lastwriter = false by simpa [hc] using h]
  · simp [hc]

/-! ### Example: `for (i = 0; i < N; i++) s = s + a[i];` -/

/-- `{ S_0[i] : 0 <= i < N }`. -/
def sumDom : BMap := ⟨0, 1, 0, 1, [], [[1, 0, 0], [-1, 1, -1]]⟩
/-- `{ S_0[i] -> s[] : 0 <= i < N }`. -/
def sumWrites : List IslAcc := [⟨0, 0, ⟨1, 0, 0, 1, [], [[1, 0, 0], [-1, 1, -1]]⟩⟩]
/-- `{ S_0[i] -> s[]; S_0[i] -> a[i] : 0 <= i < N }`. -/
def sumReads : List IslAcc := [⟨0, 0, ⟨1, 0, 0, 1, [], [[1, 0, 0], [-1, 1, -1]]⟩⟩, ⟨0, 1, ⟨1, 1, 0, 1, [[-1, 1, 0, 0]], [[1, 0, 0, 0], [-1, 0, 1, -1]]⟩⟩]
/-- `{ S_0[i] -> [i] : 0 <= i < N }`. -/
def sumTimes : List IslTime := [⟨0, ⟨1, 1, 0, 1, [[-1, 1, 0, 0]], [[1, 0, 0, 0], [-1, 0, 1, -1]]⟩⟩]
/-- `{ S_0[i] -> S_0[i + 1] : 0 <= i, i + 1 < N }`. -/
def sumNext : IslDep := ⟨0, 0, ⟨1, 1, 0, 1, [[-1, 1, 0, -1]], [[1, 0, 0, 0], [0, -1, 1, -1]]⟩⟩
/-- `{ S_0[i] -> S_0[j] : 0 <= i < j < N }`. -/
def sumLater : IslDep := ⟨0, 0, ⟨1, 1, 0, 1, [], [[-1, 1, 0, -1], [1, 0, 0, 0], [0, -1, 1, -1]]⟩⟩

/-- Answers of isl for the example. -/
def sumOps : FlowOps where
  flow _ must may _ := if must = [] then ([], if may = [] then [] else [sumLater]) else ([sumNext], [])
  coalesce ds := ds
  union ds ds' := ds ++ ds'.filter (fun d => !ds.contains d)
  domain _ := [⟨0, sumDom⟩]
  intersectDomain ms _ := ms.mapIdx fun i m =>
    if i = 0 ∧ m.nin = 1 ∧ m.npar = 1 then
      { m with ineqs := ([1] ++ List.replicate (m.nout + m.ndiv) 0 ++ [0, 0]) :: ([-1] ++ List.replicate (m.nout + m.ndiv) 0 ++ [1, -1]) :: m.ineqs }
    else ⟨m.nin, m.nout, 0, m.npar, [], [List.replicate (m.nin + m.nout + m.npar) 0 ++ [-1]]⟩

theorem sum_at (q : List Int) (p : Pt) (t : List Int) : AtTime sumTimes q p t ↔ ∃ i n, q = [n] ∧ p = (0, [i]) ∧ t = [i] ∧ 0 ≤ i ∧ i < n := by
  obtain ⟨k, x⟩ := p
  unfold AtTime sumTimes
  simp only [List.mem_singleton, exists_eq_left, BMap.Has]
  constructor
  · rintro ⟨rfl, h1, h2, h3, z, h4, h5, h6⟩
    obtain ⟨i, rfl⟩ := List.length_eq_one_iff.mp h1
    obtain ⟨j, rfl⟩ := List.length_eq_one_iff.mp h2
    obtain ⟨n, rfl⟩ := List.length_eq_one_iff.mp h3
    obtain rfl := List.length_eq_zero_iff.mp h4
    simp [aff, dot] at h5 h6
    exact ⟨i, n, rfl, rfl, by congr 1; omega, by omega, by omega⟩
  · rintro ⟨i, n, rfl, hp, rfl, h1, h2⟩
    simp only [Prod.mk.injEq] at hp
    obtain ⟨rfl, rfl⟩ := hp
    refine ⟨rfl, rfl, rfl, rfl, [], rfl, ?_, ?_⟩ <;> simp [aff, dot] <;> omega

theorem sum_earlier (q : List Int) (a b : Pt) : Earlier sumTimes q a b ↔ ∃ i j n, q = [n] ∧ a = (0, [i]) ∧ b = (0, [j]) ∧ 0 ≤ i ∧ i < j ∧ j < n := by
  unfold Earlier
  simp only [sum_at]
  constructor
  · rintro ⟨_, _, ⟨i, n, rfl, rfl, rfl, h1, h2⟩, ⟨j, n', e, rfl, rfl, h3, h4⟩, l, x, y, g1, g2, g3, -⟩
    simp only [List.cons.injEq, and_true] at e
    subst e
    cases l with
    | succ l => simp at g1
    | zero =>
      simp at g1 g2
      exact ⟨i, j, n, rfl, rfl, rfl, h1, by omega, h4⟩
  · rintro ⟨i, j, n, rfl, rfl, rfl, h1, h2, h3⟩
    exact ⟨[i], [j], ⟨i, n, rfl, rfl, rfl, h1, by omega⟩, ⟨j, n, rfl, rfl, rfl, by omega, h3⟩, 0, i, j, rfl, rfl, h2, by simp⟩

theorem sum_writes (q : List Int) (p e : Pt) : Touches sumWrites q p e ↔ ∃ i n, q = [n] ∧ p = (0, [i]) ∧ e = (0, []) ∧ 0 ≤ i ∧ i < n := by
  obtain ⟨k, x⟩ := p
  obtain ⟨k', y⟩ := e
  unfold Touches sumWrites
  simp only [List.mem_singleton, exists_eq_left, BMap.Has, Prod.mk.injEq]
  constructor
  · rintro ⟨rfl, rfl, h1, h2, h3, z, h4, h5, h6⟩
    obtain ⟨i, rfl⟩ := List.length_eq_one_iff.mp h1
    obtain rfl := List.length_eq_zero_iff.mp h2
    obtain ⟨n, rfl⟩ := List.length_eq_one_iff.mp h3
    obtain rfl := List.length_eq_zero_iff.mp h4
    simp [aff, dot] at h6
    exact ⟨i, n, rfl, ⟨rfl, rfl⟩, ⟨rfl, rfl⟩, by omega, by omega⟩
  · rintro ⟨i, n, rfl, ⟨rfl, rfl⟩, ⟨rfl, rfl⟩, h1, h2⟩
    refine ⟨rfl, rfl, rfl, rfl, rfl, [], rfl, ?_, ?_⟩ <;> simp [aff, dot] <;> omega

theorem sum_reads (q : List Int) (p e : Pt) : Touches sumReads q p e ↔ ∃ i n, q = [n] ∧ p = (0, [i]) ∧ (e = (0, []) ∨ e = (1, [i])) ∧ 0 ≤ i ∧ i < n := by
  have hs : sumReads = sumWrites ++ [⟨0, 1, ⟨1, 1, 0, 1, [[-1, 1, 0, 0]], [[1, 0, 0, 0], [-1, 0, 1, -1]]⟩⟩] := rfl
  rw [hs, touches_append, sum_writes]
  have h1 : Touches [⟨0, 1, ⟨1, 1, 0, 1, [[-1, 1, 0, 0]], [[1, 0, 0, 0], [-1, 0, 1, -1]]⟩⟩] q p e ↔ AtTime sumTimes q p e.2 ∧ e.1 = 1 := by
    unfold Touches AtTime sumTimes
    simp only [List.mem_singleton, exists_eq_left]
    constructor
    · rintro ⟨a, b, c⟩; exact ⟨⟨a, c⟩, b.symm⟩
    · rintro ⟨⟨a, c⟩, b⟩; exact ⟨a, b.symm, c⟩
  rw [h1, sum_at]
  obtain ⟨k, y⟩ := e
  constructor
  · rintro (⟨i, n, rfl, rfl, h, h2, h3⟩ | ⟨⟨i, n, rfl, rfl, h, h2, h3⟩, h4⟩)
    · exact ⟨i, n, rfl, rfl, .inl h, h2, h3⟩
    · simp only at h h4
      subst h; subst h4
      exact ⟨i, n, rfl, rfl, .inr rfl, h2, h3⟩
  · rintro ⟨i, n, rfl, rfl, h | h, h2, h3⟩
    · exact .inl ⟨i, n, rfl, rfl, h, h2, h3⟩
    · cases h
      exact .inr ⟨⟨i, n, rfl, rfl, rfl, h2, h3⟩, rfl⟩

theorem sum_later (q : List Int) (a b : Pt) : Related [sumLater] q a b ↔ ∃ i j n, q = [n] ∧ a = (0, [i]) ∧ b = (0, [j]) ∧ 0 ≤ i ∧ i < j ∧ j < n := by
  obtain ⟨k, x⟩ := a
  obtain ⟨k', y⟩ := b
  unfold Related sumLater
  simp only [List.mem_singleton, exists_eq_left, BMap.Has, Prod.mk.injEq]
  constructor
  · rintro ⟨rfl, rfl, h1, h2, h3, z, h4, h5, h6⟩
    obtain ⟨i, rfl⟩ := List.length_eq_one_iff.mp h1
    obtain ⟨j, rfl⟩ := List.length_eq_one_iff.mp h2
    obtain ⟨n, rfl⟩ := List.length_eq_one_iff.mp h3
    obtain rfl := List.length_eq_zero_iff.mp h4
    simp [aff, dot] at h6
    exact ⟨i, j, n, rfl, ⟨rfl, rfl⟩, ⟨rfl, rfl⟩, by omega, by omega, by omega⟩
  · rintro ⟨i, j, n, rfl, ⟨rfl, rfl⟩, ⟨rfl, rfl⟩, h1, h2, h3⟩
    refine ⟨rfl, rfl, rfl, rfl, rfl, [], rfl, ?_, ?_⟩ <;> simp [aff, dot] <;> omega

theorem sum_next (q : List Int) (a b : Pt) : Related [sumNext] q a b ↔ ∃ i n, q = [n] ∧ a = (0, [i]) ∧ b = (0, [i + 1]) ∧ 0 ≤ i ∧ i + 1 < n := by
  obtain ⟨k, x⟩ := a
  obtain ⟨k', y⟩ := b
  unfold Related sumNext
  simp only [List.mem_singleton, exists_eq_left, BMap.Has, Prod.mk.injEq]
  constructor
  · rintro ⟨rfl, rfl, h1, h2, h3, z, h4, h5, h6⟩
    obtain ⟨i, rfl⟩ := List.length_eq_one_iff.mp h1
    obtain ⟨j, rfl⟩ := List.length_eq_one_iff.mp h2
    obtain ⟨n, rfl⟩ := List.length_eq_one_iff.mp h3
    obtain rfl := List.length_eq_zero_iff.mp h4
    simp [aff, dot] at h5 h6
    exact ⟨i, n, rfl, ⟨rfl, rfl⟩, ⟨rfl, by congr 1; omega⟩, by omega, by omega⟩
  · rintro ⟨i, n, rfl, ⟨rfl, rfl⟩, ⟨rfl, rfl⟩, h1, h2⟩
    refine ⟨rfl, rfl, rfl, rfl, rfl, [], rfl, ?_, ?_⟩ <;> simp [aff, dot] <;> omega

theorem sum_either {l : List IslAcc} (h : l ∈ [sumReads, sumWrites]) :
    (∀ i n : Int, 0 ≤ i → i < n → Touches l [n] (0, [i]) (0, [])) ∧ ∀ q p e, Touches l q p e → Touches sumReads q p e := by
  have key : (∀ i n : Int, 0 ≤ i → i < n → Touches sumReads [n] (0, [i]) (0, [])) := fun i n h1 h2 => (sum_reads _ _ _).mpr ⟨i, n, rfl, rfl, .inl rfl, h1, h2⟩
  simp only [List.mem_cons, List.not_mem_nil, or_false] at h
  rcases h with rfl | rfl
  · exact ⟨key, fun _ _ _ h => h⟩
  · refine ⟨fun i n h1 h2 => (sum_writes _ _ _).mpr ⟨i, n, rfl, rfl, rfl, h1, h2⟩, fun q p e h => ?_⟩
    obtain ⟨i, n, h1, h2, h3, h4⟩ := (sum_writes _ _ _).mp h
    exact (sum_reads _ _ _).mpr ⟨i, n, h1, h2, .inl h3, h4⟩

/-- Only `s` is accessed by two instances. -/
theorem sum_conflict {la lb : List IslAcc} (ha : ∀ q p e, Touches la q p e → Touches sumReads q p e) (hb : ∀ q p e, Touches lb q p e → Touches sumReads q p e)
    {q : List Int} {a b e : Pt} (h1 : Touches la q a e) (h2 : Touches lb q b e) (h3 : Earlier sumTimes q a b) : e = (0, []) := by
  obtain ⟨i, j, n, rfl, rfl, rfl, -, h4, -⟩ := (sum_earlier _ _ _).mp h3
  obtain ⟨i', n', -, e1, e2, -⟩ := (sum_reads _ _ _).mp (ha _ _ _ h1)
  obtain ⟨j', n'', -, e3, e4, -⟩ := (sum_reads _ _ _).mp (hb _ _ _ h2)
  simp only [Prod.mk.injEq, List.cons.injEq, and_true, true_and] at e1 e3
  subst e1; subst e3
  rcases e2 with e2 | e2
  · exact e2
  · rcases e4 with e4 | e4
    · exact e4
    · rw [e2] at e4
      simp at e4
      omega

theorem sumOps_ok : sumOps.OK sumReads sumWrites sumTimes where
  coalesce _ _ _ _ := Iff.rfl
  union ds ds' q a b := by
    unfold Related sumOps
    simp only [List.mem_append, List.mem_filter, Bool.not_eq_true', List.contains_eq_mem, decide_eq_false_iff_not]
    constructor
    · rintro ⟨d, h | ⟨h, -⟩, h2⟩
      · exact .inl ⟨d, h, h2⟩
      · exact .inr ⟨d, h, h2⟩
    · rintro (⟨d, h, h2⟩ | ⟨d, h, h2⟩)
      · exact ⟨d, .inl h, h2⟩
      · by_cases hd : d ∈ ds
        · exact ⟨d, .inl hd, h2⟩
        · exact ⟨d, .inr ⟨h, hd⟩, h2⟩
  flow sink must may h1 h2 h3 := by
    obtain ⟨s1, s2⟩ := sum_either h1
    have hnil : ∀ l : List IslAcc, l ∈ [[], sumReads, sumWrites] → l ≠ [] → l ∈ [sumReads, sumWrites] := by
      intro l hl hn
      simpa [hn] using hl
    have hsub : ∀ l : List IslAcc, l ∈ [[], sumReads, sumWrites] → ∀ q p e, Touches l q p e → Touches sumReads q p e := by
      intro l hl q p e h
      by_cases hn : l = []
      · subst hn; exact absurd h touches_nil
      · exact (sum_either (hnil l hl hn)).2 q p e h
    have happ : ∀ q p e, Touches (must ++ may) q p e → Touches sumReads q p e := by
      intro q p e h
      rcases touches_append.mp h with h | h
      · exact hsub must h2 q p e h
      · exact hsub may h3 q p e h
    unfold FlowRight
    by_cases hm : must = []
    · subst hm
      refine ⟨fun q a b => ?_, fun hy q a b => ?_, fun _ q a b => by simp [sumOps, Related]⟩
      · rw [lastConflict_nil]
        by_cases hy : may = []
        · subst hy
          simp [sumOps, Related, Conflict, touches_nil]
        · obtain ⟨y1, y2⟩ := sum_either (hnil may h3 hy)
          simp only [sumOps, if_true, hy, if_false, List.nil_append]
          rw [sum_later]
          simp only [Related, List.not_mem_nil, false_and, exists_false, false_or]
          constructor
          · rintro ⟨i, j, n, rfl, rfl, rfl, g1, g2, g3⟩
            exact ⟨(0, []), y1 i n g1 (by omega), s1 j n (by omega) g3, (sum_earlier _ _ _).mpr ⟨i, j, n, rfl, rfl, rfl, g1, g2, g3⟩⟩
          · rintro ⟨e, -, -, g⟩
            exact (sum_earlier _ _ _).mp g
      · simp [sumOps, hy, Related]
    · obtain ⟨m1, m2⟩ := sum_either (hnil must h2 hm)
      refine ⟨fun q a b => ?_, fun _ q a b => by simp [sumOps, hm, Related], fun hc => absurd hc hm⟩
      simp only [sumOps, hm, if_false]
      rw [sum_next]
      simp only [Related, List.not_mem_nil, false_and, exists_false, or_false]
      constructor
      · rintro ⟨i, n, rfl, rfl, rfl, g1, g2⟩
        refine ⟨(0, []), touches_append.mpr (.inl (m1 i n g1 (by omega))), s1 (i + 1) n (by omega) g2,
          (sum_earlier _ _ _).mpr ⟨i, i + 1, n, rfl, rfl, rfl, g1, by omega, g2⟩, ?_⟩
        rintro ⟨c, -, c1, c2⟩
        obtain ⟨i1, j1, n1, -, e1, e2, k1⟩ := (sum_earlier _ _ _).mp c1
        obtain ⟨i2, j2, n2, -, e3, e4, k2⟩ := (sum_earlier _ _ _).mp c2
        rw [e2] at e3
        simp only [Prod.mk.injEq, List.cons.injEq, and_true, true_and] at e1 e3 e4
        omega
      · rintro ⟨e, g1, g2, g3, g4⟩
        have he := sum_conflict happ s2 g1 g2 g3
        subst he
        obtain ⟨i, j, n, rfl, rfl, rfl, k1, k2, k3⟩ := (sum_earlier _ _ _).mp g3
        have : j = i + 1 := by
          by_contra hne
          exact g4 ⟨(0, [i + 1]), m1 (i + 1) n (by omega) (by omega), (sum_earlier _ _ _).mpr ⟨i, i + 1, n, rfl, rfl, rfl, k1, by omega, by omega⟩,
            (sum_earlier _ _ _).mpr ⟨i + 1, j, n, rfl, rfl, rfl, by omega, by omega, k3⟩⟩
        subst this
        exact ⟨i, n, rfl, rfl, rfl, k1, k3⟩

theorem sum_instance (i : Nat) (x q : List Int) : Instance [⟨0, sumDom⟩] i x q ↔ ∃ k n, q = [n] ∧ x = [k] ∧ i = 0 ∧ 0 ≤ k ∧ k < n := by
  unfold Instance sumDom
  simp only [List.mem_singleton, exists_eq_left, BMap.Has]
  constructor
  · rintro ⟨rfl, h1, h2, h3, z, h4, h5, h6⟩
    obtain ⟨i, rfl⟩ := List.length_eq_one_iff.mp h2
    obtain ⟨n, rfl⟩ := List.length_eq_one_iff.mp h3
    obtain rfl := List.length_eq_zero_iff.mp h4
    simp [aff, dot] at h6
    exact ⟨i, n, rfl, rfl, rfl, by omega, by omega⟩
  · rintro ⟨k, n, rfl, rfl, rfl, h1, h2⟩
    refine ⟨rfl, rfl, rfl, rfl, [], rfl, ?_, ?_⟩ <;> simp [aff, dot] <;> omega

theorem sumOps_domain : sumOps.DomainOK sumTimes where
  domain i x q := by
    simp only [sumOps, sum_instance, sum_at, Prod.mk.injEq]
    constructor
    · rintro ⟨k, n, rfl, rfl, rfl, h1, h2⟩
      exact ⟨[k], k, n, rfl, ⟨rfl, rfl⟩, rfl, h1, h2⟩
    · rintro ⟨t, k, n, rfl, ⟨rfl, rfl⟩, rfl, h1, h2⟩
      exact ⟨k, n, rfl, rfl, rfl, h1, h2⟩
  intersect ms := by
    refine ⟨by simp [sumOps], fun i m m' hm hm' x t q => ?_⟩
    simp only [sumOps, List.getElem?_mapIdx, hm, Option.map_some, Option.some.injEq] at hm'
    subst hm'
    simp only [sumOps, sum_instance]
    by_cases c : i = 0 ∧ m.nin = 1 ∧ m.npar = 1
    · rw [if_pos c]
      obtain ⟨c1, c2, c3⟩ := c
      have row : ∀ (a b d k n : Int) (t z : List Int), t.length = m.nout → z.length = m.ndiv →
          aff ([a] ++ List.replicate (m.nout + m.ndiv) 0 ++ [b, d]) ([k] ++ t ++ z ++ [n]) = a * k + b * n + d := by
        intro a b d k n t z ht hz
        rw [show [k] ++ t ++ z ++ [n] = [k] ++ (t ++ z) ++ [n] by simp, aff, List.append_assoc, List.append_assoc, List.append_assoc,
          dot_append _ _ _ _ (by simp), dot_append _ _ _ _ (by simp [ht, hz])]
        have : dot (List.replicate (m.nout + m.ndiv) 0) (t ++ z) = (0 : Int) := by
          rw [← zrow, dot_zrow]
        rw [this]
        simp [dot]
        ring
      simp only [BMap.Has]
      constructor
      · rintro ⟨h1, h2, h3, z, h4, h5, h6⟩
        obtain ⟨k, rfl⟩ := List.length_eq_one_iff.mp (h1.trans c2)
        obtain ⟨n, rfl⟩ := List.length_eq_one_iff.mp (h3.trans c3)
        have r1 := h6 _ List.mem_cons_self
        have r2 := h6 _ (List.mem_cons_of_mem _ List.mem_cons_self)
        rw [row _ _ _ _ _ t z h2 h4] at r1 r2
        exact ⟨⟨h1, h2, h3, z, h4, h5, fun r hr => h6 r (List.mem_cons_of_mem _ (List.mem_cons_of_mem _ hr))⟩, k, n, rfl, rfl, c1, by omega, by omega⟩
      · rintro ⟨⟨h1, h2, h3, z, h4, h5, h6⟩, k, n, rfl, rfl, -, g1, g2⟩
        refine ⟨h1, h2, h3, z, h4, h5, fun r hr => ?_⟩
        rcases List.mem_cons.mp hr with rfl | hr
        · rw [row _ _ _ _ _ t z h2 h4]; omega
        rcases List.mem_cons.mp hr with rfl | hr
        · rw [row _ _ _ _ _ t z h2 h4]; omega
        · exact h6 r hr
    · rw [if_neg c]
      constructor
      · rintro ⟨h1, h2, h3, z, h4, -, h6⟩
        have := h6 _ (List.mem_singleton.mpr rfl)
        have hz : z = [] := List.length_eq_zero_iff.mp h4
        subst hz
        simp only at h1 h2 h3
        rw [aff, dot_append _ _ _ _ (by simp [h1, h2, h3]; omega), ← zrow, dot_zrow] at this
        simp [dot] at this
      · rintro ⟨⟨h1, -, h3, -⟩, k, n, rfl, rfl, c1, -⟩
        exact absurd ⟨c1, h1.symm, h3.symm⟩ c

theorem sum_finite (q : List Int) (e : Pt) : {p | Touches sumWrites q p e}.Finite := by
  have : {p | Touches sumWrites q p e} ⊆ (fun i : Int => ((0, [i]) : Pt)) '' Set.Ico 0 (q.headD 0) := by
    intro p hp
    obtain ⟨i, n, rfl, rfl, -, h1, h2⟩ := (sum_writes _ _ _).mp hp
    exact ⟨i, ⟨h1, h2⟩, rfl⟩
  exact ((Set.finite_Ico _ _).image _).subset this

/-- `{ S_0[i] -> S_0[i + 1] }` as a dependence. -/
def sumCst : Cst := ⟨4, [⟨true, [-1, 1, 0, -1]⟩, ⟨false, [1, 0, 0, 0]⟩, ⟨false, [0, -1, 1, -1]⟩]⟩

def sumProg : Prog where
  nvar := 1
  npar := 1
  stmts := [⟨1, 1, ⟨3, [⟨false, [1, 0, 0]⟩, ⟨false, [-1, 1, -1]⟩]⟩, [true], [], []⟩]
  deps := [⟨0, 0, false, sumCst, sumCst, false, -1, [], []⟩]
  hProps := []

def sumTab : List (Cst × Bool) :=
  [(⟨4, ⟨false, [-1, 1, 0, -1]⟩ :: sumCst.rows⟩, false), (⟨4, ⟨false, [1, -1, 0, -1]⟩ :: sumCst.rows⟩, true),
   (⟨4, ⟨false, [1, -1, 0, 0]⟩ :: sumCst.rows⟩, true)]

noncomputable def sumKernel (n : Nat) (rows : List (List Int)) : List (List Int) :=
  if n = 1 ∧ rows = [] then [[1]] else exists_kernelOracle.choose n rows

noncomputable def sumLibs : Libs := ⟨sumKernel, tabOracle sumTab, listSolver [[0, 1, 1, 0]]⟩

theorem sumTab_ok : EmptyOracle (tabOracle sumTab) := by
  refine tabOracle_ok _ ?_
  intro e he
  simp only [sumTab, sumCst, List.mem_cons, List.not_mem_nil, or_false] at he
  rcases he with rfl | rfl | rfl
  · simp only [Bool.false_eq_true, false_iff, not_not]
    exact ⟨[0, 1, 2], rfl, by decide⟩
  all_goals
    simp only [true_iff]
    rintro ⟨x, hx, hs⟩
    obtain ⟨i, j, n, rfl⟩ : ∃ i j n, x = [i, j, n] := by
      match x, hx with
      | [i, j, n], _ => exact ⟨i, j, n, rfl⟩
    have h1 := hs _ List.mem_cons_self
    have h2 := hs _ (List.mem_cons_of_mem _ List.mem_cons_self)
    simp [Row.Sat, aff, dot] at h1 h2
    omega

/-- The hypotheses of C62 are met by the example, with `--lastwriter`; chains of dependences are needed there:
`S_0[0]` and `S_0[2]` conflict, but no dependence relates them. -/
example : simpleOps.OK ∧ sumOps.OK sumReads sumWrites sumTimes ∧ sumOps.DomainOK sumTimes ∧
    (∀ q p t t', AtTime sumTimes q p t → AtTime sumTimes q p t' → t = t') ∧ (∀ q e, {p | Touches sumWrites q p e}.Finite) ∧
    scheduleDeps sumOps ⟨true, false, false⟩ sumReads sumWrites sumTimes = some [sumNext] ∧
    DomsOK 1 (sumOps.domain sumTimes) ∧ DepsOK 1 (sumOps.domain sumTimes) [sumNext] ∧
    EmptyOracle sumLibs.isEmpty ∧ FeasibleOracle sumLibs.solve ∧ progFromIsl simpleOps (sumOps.domain sumTimes) [sumNext] = some sumProg ∧
    EagerAuto exAutoOpts sumLibs noDiamond 10 exDfs sumProg ∧
    (∃ p, autoTransform exAutoOpts sumLibs noDiamond 10 exDfs sumProg = some (.success p) ∧
      Uniform p 0 p.hProps.length (List.range p.stmts.length) ∧
      (∀ p1 bands, recompute sumLibs.isEmpty p = some p1 → tileBands p1 = some bands → LoopBands p1 bands) ∧
      (∀ p', scheduleProg exAutoOpts sumLibs noDiamond 10 exDfs exBest exTileOpts true false (fun _ _ => 32) (fun _ _ => 8) sumProg =
        some (.success p') → SmallEntries p')) ∧
    Conflict sumWrites sumReads sumTimes [3] (0, [0]) (0, [2]) ∧ ¬ Related [sumNext] [3] (0, [0]) (0, [2]) := by
  refine ⟨simpleOps_ok, sumOps_ok, sumOps_domain, fun q p t t' h1 h2 => ?_, sum_finite, by decide +kernel, ⟨by decide, fun d hd => ?_⟩, fun d hd => ?_,
    sumTab_ok, listSolver_ok _, by decide +kernel, eagerAutoCheck_ok (by decide +kernel), ?_, ?_, ?_⟩
  · obtain ⟨i, n, -, rfl, rfl, -⟩ := (sum_at _ _ _).mp h1
    obtain ⟨j, n', -, e, rfl, -⟩ := (sum_at _ _ _).mp h2
    simp only [Prod.mk.injEq, true_and] at e
    exact e
  · simp only [sumOps, List.mem_singleton] at hd
    subst hd
    exact ⟨⟨by decide, by decide⟩, rfl, rfl⟩
  · simp only [List.mem_singleton] at hd
    subst hd
    exact ⟨⟨by decide, by decide⟩, rfl, _, List.mem_cons_self, _, List.mem_cons_self, rfl, rfl, rfl, rfl⟩
  · have h : Outcome.holds (fun p => decide (Uniform p 0 p.hProps.length (List.range p.stmts.length)) && match recompute sumLibs.isEmpty p with
          | some p1 => (match tileBands p1 with | some bands => loopBandsCheck p1 bands | none => false)
          | none => false)
        (autoTransform exAutoOpts sumLibs noDiamond 10 exDfs sumProg) = true := by decide +kernel
    have h' : Outcome.holds smallCheck (scheduleProg exAutoOpts sumLibs noDiamond 10 exDfs exBest exTileOpts true false (fun _ _ => 32) (fun _ _ => 8)
        sumProg) = true := by decide +kernel
    generalize autoTransform exAutoOpts sumLibs noDiamond 10 exDfs sumProg = r at h
    match r, h with
    | some (.success p), h =>
      simp only [Outcome.holds, Bool.and_eq_true, decide_eq_true_eq] at h
      refine ⟨p, rfl, h.1, fun p1 bands h1 h2 => ?_, fun p' hp' => ?_⟩
      · have := h.2
        simp only [h1, h2] at this
        exact loopBandsCheck_ok this
      · rw [hp'] at h'
        exact smallCheck_ok h'
  · exact ⟨(0, []), (sum_writes _ _ _).mpr ⟨0, 3, rfl, rfl, rfl, by omega, by omega⟩, (sum_reads _ _ _).mpr ⟨2, 3, rfl, rfl, .inl rfl, by omega, by omega⟩,
      (sum_earlier _ _ _).mpr ⟨0, 2, 3, rfl, rfl, rfl, by omega, by omega, by omega⟩⟩
  · rw [sum_next]
    rintro ⟨i, n, -, e1, e2, -⟩
    simp only [Prod.mk.injEq, List.cons.injEq, and_true, true_and] at e1 e2
    omega

end Pluto
