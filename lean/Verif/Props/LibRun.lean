import Verif.Props.Semantics
import Verif.Props.FlowSchedule

/-! C65 for the library: the schedule that `pluto_schedule` returns computes what the given one computes. -/

namespace Pluto

/-- The instances of `run` are those that the schedule `s` has times for, in the order of their times. -/
structure TimedRun (s : List IslTime) (q : List Int) (run : List Pt) : Prop where
  once : run.Nodup
  all : ∀ a, a ∈ run ↔ ∃ t, AtTime s q a t
  order : run.Pairwise (Earlier s q)

/-- The instances of `run` are those that the schedules `ms` (one for each statement) have times for, and none comes
after one with a later time. -/
structure MapsRun (ms : List BMap) (q : List Int) (run : List Pt) : Prop where
  once : run.Nodup
  all : ∀ a, a ∈ run ↔ ∃ m t, ms[a.1]? = some m ∧ m.Has a.2 t q
  order : run.Pairwise (fun a b => ∀ m m' t u, ms[a.1]? = some m → ms[b.1]? = some m' → m.Has a.2 t q → m'.Has b.2 u q → ¬ LexBefore u t)

/-- C65. Schedules of the same instances that keep conflicting accesses in order compute the same. -/
theorem C65_maps {V : Type*} (reads writes : List IslAcc) (s : List IslTime) (ms : List BMap) (hS : SameInstances s ms) (hK : KeepsOrder reads writes s ms)
    (q : List Int) (orig run : List Pt) (ho : TimedRun s q orig) (hr : MapsRun ms q run) (act : Pt → Action Pt V)
    (hact : ∀ a e, ((act a).reads e → Touches reads q a e) ∧ ((act a).writes e → Touches writes q a e)) (m : Pt → V) :
    execute act run m = execute act orig m := by
  have hmem : ∀ a, a ∈ orig ↔ a ∈ run := by
    rintro ⟨i, x⟩
    rw [ho.all, hr.all, (hS i x q).1]
    constructor
    · rintro ⟨m, h1, t, h2⟩; exact ⟨m, t, h1, h2⟩
    · rintro ⟨m, t, h1, h2⟩; exact ⟨m, h1, t, h2⟩
  refine (C65_order act orig run ho.once hr.once hmem (fun a b hab hc => ?_) m).symm
  have hE := hab.of_pairwise ho.order
  have hconf : Conflict writes reads s q a b ∨ Conflict reads writes s q a b ∨ Conflict writes writes s q a b := by
    obtain ⟨e, ⟨h1, h2 | h2⟩ | ⟨h1, h2 | h2⟩⟩ := hc
    · exact .inl ⟨e, (hact a e).2 h1, (hact b e).1 h2, hE⟩
    · exact .inr (.inr ⟨e, (hact a e).2 h1, (hact b e).2 h2, hE⟩)
    · exact .inr (.inl ⟨e, (hact a e).1 h2, (hact b e).2 h1, hE⟩)
    · exact .inr (.inr ⟨e, (hact a e).2 h2, (hact b e).2 h1, hE⟩)
  obtain ⟨i, j, hij, hi, hj⟩ := hab
  have ha : a ∈ run := (hmem a).mp (List.mem_of_getElem? hi)
  have hb : b ∈ run := (hmem b).mp (List.mem_of_getElem? hj)
  obtain ⟨ma, ta, a1, a2⟩ := (hr.all a).mp ha
  obtain ⟨mb, tb, b1, b2⟩ := (hr.all b).mp hb
  have hlex := hK q a b hconf ma mb ta tb a1 b1 a2 b2
  obtain ⟨k, hk, ek⟩ := List.getElem_of_mem ha
  obtain ⟨l, hl, el⟩ := List.getElem_of_mem hb
  refine ⟨k, l, ?_, by rw [← ek]; exact List.getElem?_eq_getElem hk, by rw [← el]; exact List.getElem?_eq_getElem hl⟩
  rcases Nat.lt_trichotomy k l with h | h | h
  · exact h
  · subst h
    have : a = b := ek.symm.trans el
    subst this
    rw [a1] at b1
    cases b1
    rw [(hS a.1 a.2 q).2 ma ta tb a1 a2 b2] at hlex
    exact absurd hlex (lexBefore_irrefl _)
  · have := List.pairwise_iff_getElem.mp hr.order l k hl hk h
    rw [ek, el] at this
    exact absurd hlex (this mb ma tb ta b1 a1 b2 a2)

/-- C65, for `pluto_schedule`: if the automatic transformation succeeds, running the instances in the order of the
schedule returned computes what running them in the order of the given schedule computes.
Missing: as for `C62_schedule_partial`. -/
theorem C65_schedule_partial {V : Type*} (ops : IslOps) (hops : ops.OK) (fo : FlowOps) (fl : FlowOpts) (reads writes : List IslAcc) (s : List IslTime)
    (ho : fo.OK reads writes s) (hdo : fo.DomainOK s) (hu : ∀ q p t t', AtTime s q p t → AtTime s q p t' → t = t')
    (hf : ∀ q e, {p | Touches writes q p e}.Finite) (deps : List IslDep) (hdeps : scheduleDeps fo fl reads writes s = some deps)
    (npar : Nat) (hd : DomsOK npar (fo.domain s)) (hdp : DepsOK npar (fo.domain s) deps)
    (ao : AutoOpts) (L : Libs) (hE : EmptyOracle L.isEmpty) (hL : FeasibleOracle L.solve) (fuel : Nat) (d0 : DfsState)
    (best : Prog → List Loop → Option Loop) (hbest : ∀ p ls L, best p ls = some L → L ∈ ls) (o : TileOpts) (hip : o.innerpar = false)
    (tile : Bool) (sizes sizes2 : Nat → Nat → Int) (hz : ∀ n m, 1 ≤ sizes n m) (hz2 : ∀ n m, 1 ≤ sizes2 n m)
    (p0 : Prog) (h0 : progFromIsl ops (fo.domain s) deps = some p0) (hea : EagerAuto ao L noDiamond fuel d0 p0)
    (p : Prog) (h : autoTransform ao L noDiamond fuel d0 p0 = some (.success p))
    (hU : Uniform p 0 p.hProps.length (List.range p.stmts.length))
    (hfw : o.parallel = true → tile = true → ∀ p1 bands, recompute L.isEmpty p = some p1 → tileBands p1 = some bands → LoopBands p1 bands)
    (hfw' : o.parallel = true → tile = false → ∀ p1 bands, beforeWave L.isEmpty best o false sizes sizes2 p = some p1 →
      outermostBands p1 = some bands → LoopBands p1 bands)
    (hsm : ∀ p', scheduleProg ao L noDiamond fuel d0 best o tile false sizes sizes2 p0 = some (.success p') → SmallEntries p') :
    ∃ ms, plutoSchedule ops fo fl (scheduleProg ao L noDiamond fuel d0 best o tile false sizes sizes2) reads writes s = some (some ms) ∧
      ∀ q orig run, TimedRun s q orig → MapsRun ms q run → ∀ act : Pt → Action Pt V,
        (∀ a e, ((act a).reads e → Touches reads q a e) ∧ ((act a).writes e → Touches writes q a e)) →
          ∀ m : Pt → V, execute act run m = execute act orig m := by
  obtain ⟨ms, k1, k2, k3⟩ := C62_schedule_partial ops hops fo fl reads writes s ho hdo hu hf deps hdeps npar hd hdp ao L hE hL fuel d0 best hbest o hip
    tile sizes sizes2 hz hz2 p0 h0 hea p h hU hfw hfw' hsm
  exact ⟨ms, k1, fun q orig run h1 h2 act h3 m => C65_maps reads writes s ms k2 k3 q orig run h1 h2 act h3 m⟩

/-- The example of C62: a schedule is met by its runs. -/
example : TimedRun sumTimes [3] [(0, [0]), (0, [1]), (0, [2])] := by
  refine ⟨by decide, fun a => ?_, ?_⟩
  · constructor
    · intro h
      simp only [List.mem_cons, List.not_mem_nil, or_false] at h
      rcases h with rfl | rfl | rfl
      · exact ⟨[0], (sum_at _ _ _).mpr ⟨0, 3, rfl, rfl, rfl, by omega, by omega⟩⟩
      · exact ⟨[1], (sum_at _ _ _).mpr ⟨1, 3, rfl, rfl, rfl, by omega, by omega⟩⟩
      · exact ⟨[2], (sum_at _ _ _).mpr ⟨2, 3, rfl, rfl, rfl, by omega, by omega⟩⟩
    · rintro ⟨t, h⟩
      obtain ⟨i, n, e, rfl, -, h1, h2⟩ := (sum_at _ _ _).mp h
      simp only [List.cons.injEq, and_true] at e
      have : i = 0 ∨ i = 1 ∨ i = 2 := by omega
      rcases this with rfl | rfl | rfl <;> simp
  · have hb : ∀ i j : Int, 0 ≤ i → i < j → j < 3 → Earlier sumTimes [3] (0, [i]) (0, [j]) := fun i j h1 h2 h3 =>
      (sum_earlier _ _ _).mpr ⟨i, j, 3, rfl, rfl, rfl, h1, h2, h3⟩
    refine List.Pairwise.cons ?_ (List.Pairwise.cons ?_ (List.Pairwise.cons (by simp) List.Pairwise.nil))
    · intro a ha
      simp only [List.mem_cons, List.not_mem_nil, or_false] at ha
      rcases ha with rfl | rfl <;> exact hb _ _ (by omega) (by omega) (by omega)
    · intro a ha
      simp only [List.mem_cons, List.not_mem_nil, or_false] at ha
      subst ha
      exact hb _ _ (by omega) (by omega) (by omega)

end Pluto
