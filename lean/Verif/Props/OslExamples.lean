import Verif.Props.OslMore
import Verif.Props.PetExamples

/-! C68 and C65 for OpenScop: examples, and constants that do not fit `int`. -/

namespace Pluto

/-! ### Example: `for (i = 0; i < N; i++) A[i + 1] = A[i];`, with `N >= 1` known -/

/-- Scattering (0, i, 0); the rows of scattering and read are not in the order of the output dimensions. -/
def chainOsl : OslStmt :=
  ⟨[⟨[[1, 1, 0, 0], [1, -1, 1, -1]], 1, 0, 0, 1⟩],
    ⟨[[0, 0, -1, 0, 1, 0, 0], [0, 0, 0, -1, 0, 0, 0], [0, -1, 0, 0, 0, 0, 0]], 3, 1, 0, 1⟩,
    [(.read, ⟨[[0, 0, -1, 1, 0, 0], [0, -1, 0, 0, 0, 1]], 2, 1, 0, 1⟩),
     (.write, ⟨[[0, -1, 0, 0, 0, 1], [0, 0, -1, 1, 0, 1]], 2, 1, 0, 1⟩)]⟩

def chainScop : OslScop := ⟨⟨[[1, 1, -1]], 0, 0, 0, 1⟩, [chainOsl]⟩

def chainIsl : OslIsl :=
  ⟨⟨1, 3, 0, 1, [[0, -1, 0, 0, 0, 0], [1, 0, -1, 0, 0, 0], [0, 0, 0, -1, 0, 0]], []⟩,
    [⟨0, [⟨1, 1, 0, 1, [[1, -1, 0, 0]], [[1, 0, 0, 0], [-1, 0, 1, -1], [0, 0, 1, -1]]⟩]⟩],
    [⟨0, [⟨1, 1, 0, 1, [[1, -1, 0, 1]], [[1, 0, 0, 0], [-1, 0, 1, -1], [0, 0, 1, -1]]⟩]⟩]⟩

theorem chainIsl_eq : chainScop.stmts.mapM (oslIslStmt (oslSet chainScop.context)) = some [chainIsl] := by decide +kernel

/-- The same answers as for the front end with pet. -/
def chainOslOps : FlowOps :=
  let conv := fun l : List IslAcc => if l = oslReads true [chainIsl] then petReads [chainStmt] else if l = oslWrites true [chainIsl] then petWrites [chainStmt] else []
  { chainOps with flow := fun sink must may s => chainOps.flow (conv sink) (conv must) (conv may) s }

theorem shiftOsl_has (k : Int) (x y q : List Int) : (⟨1, 1, 0, 1, [[1, -1, 0, k]], [[1, 0, 0, 0], [-1, 0, 1, -1], [0, 0, 1, -1]]⟩ : BMap).Has x y q ↔
    (⟨1, 1, 0, 1, [[-1, 1, 0, -k]], [[1, 0, 0, 0], [-1, 0, 1, -1]]⟩ : BMap).Has x y q := by
  rw [shift_has]
  unfold BMap.Has
  simp only
  constructor
  · rintro ⟨h1, h2, h3, z, h4, h5, h6⟩
    obtain ⟨i, rfl⟩ := List.length_eq_one_iff.mp h1
    obtain ⟨j, rfl⟩ := List.length_eq_one_iff.mp h2
    obtain ⟨n, rfl⟩ := List.length_eq_one_iff.mp h3
    obtain rfl := List.length_eq_zero_iff.mp h4
    simp [aff, dot] at h5 h6
    exact ⟨i, n, rfl, rfl, by congr 1; omega, by omega, by omega⟩
  · rintro ⟨i, n, rfl, rfl, rfl, h1, h2⟩
    refine ⟨rfl, rfl, rfl, [], rfl, ?_, ?_⟩ <;> simp [aff, dot] <;> omega

theorem chainOsl_sched (x t q : List Int) : chainIsl.sched.Has x t q ↔ ∃ i n, q = [n] ∧ x = [i] ∧ t = [0, i, 0] := by
  unfold chainIsl BMap.Has
  simp only
  constructor
  · rintro ⟨h1, h2, h3, z, h4, h5, h6⟩
    obtain ⟨i, rfl⟩ := List.length_eq_one_iff.mp h1
    obtain ⟨a, b, c, rfl⟩ := List.length_eq_three.mp h2
    obtain ⟨n, rfl⟩ := List.length_eq_one_iff.mp h3
    obtain rfl := List.length_eq_zero_iff.mp h4
    simp [aff, dot] at h5
    exact ⟨i, n, rfl, rfl, by simp; omega⟩
  · rintro ⟨i, n, rfl, rfl, rfl⟩
    refine ⟨rfl, rfl, rfl, [], rfl, ?_, ?_⟩ <;> simp [aff, dot]

theorem chainOsl_reads (q : List Int) (p e : Pt) : Touches (oslReads true [chainIsl]) q p e ↔ Touches (petReads [chainStmt]) q p e := by
  have h1 : petReads [chainStmt] = [⟨accCode 0 false 0, 0, ⟨1, 1, 0, 1, [[-1, 1, 0, -0]], [[1, 0, 0, 0], [-1, 0, 1, -1]]⟩⟩] := rfl
  have h2 : oslReads true [chainIsl] = [⟨accCode 0 false 0, 0, ⟨1, 1, 0, 1, [[1, -1, 0, 0]], [[1, 0, 0, 0], [-1, 0, 1, -1], [0, 0, 1, -1]]⟩⟩] := rfl
  rw [h1, h2]
  unfold Touches
  simp only [List.mem_singleton, exists_eq_left, shiftOsl_has]

theorem chainOsl_writes (q : List Int) (p e : Pt) : Touches (oslWrites true [chainIsl]) q p e ↔ Touches (petWrites [chainStmt]) q p e := by
  have h1 : petWrites [chainStmt] = [⟨accCode 0 true 0, 0, ⟨1, 1, 0, 1, [[-1, 1, 0, -1]], [[1, 0, 0, 0], [-1, 0, 1, -1]]⟩⟩] := rfl
  have h2 : oslWrites true [chainIsl] = [⟨accCode 0 true 0, 0, ⟨1, 1, 0, 1, [[1, -1, 0, 1]], [[1, 0, 0, 0], [-1, 0, 1, -1], [0, 0, 1, -1]]⟩⟩] := rfl
  rw [h1, h2]
  unfold Touches
  simp only [List.mem_singleton, exists_eq_left, shiftOsl_has]

theorem chainOsl_at (q : List Int) (c : Nat) (x t : List Int) : AtTime (oslTimes true [chainIsl]) q (c, x) t ↔
    (c = accCode 0 false 0 ∨ c = accCode 0 true 0) ∧ ∃ i n, q = [n] ∧ x = [i] ∧ t = [0, i, 0] := by
  have hr : oslTimes true [chainIsl] = [⟨accCode 0 false 0, chainIsl.sched⟩, ⟨accCode 0 true 0, chainIsl.sched⟩] := rfl
  rw [hr]
  unfold AtTime
  simp only [List.mem_cons, List.not_mem_nil, or_false, ← chainOsl_sched]
  constructor
  · rintro ⟨m, rfl | rfl, h1, h2⟩
    · exact ⟨.inl h1.symm, h2⟩
    · exact ⟨.inr h1.symm, h2⟩
  · rintro ⟨rfl | rfl, h⟩
    · exact ⟨_, .inl rfl, rfl, h⟩
    · exact ⟨_, .inr rfl, rfl, h⟩

/-- The order of accesses is the same as with pet. -/
theorem chainOsl_earlier (q : List Int) (a b e e' : Pt)
    (ha : Touches (petReads [chainStmt]) q a e ∨ Touches (petWrites [chainStmt]) q a e)
    (hb : Touches (petReads [chainStmt]) q b e' ∨ Touches (petWrites [chainStmt]) q b e') :
    Earlier (oslTimes true [chainIsl]) q a b ↔ Earlier (petTimes [chainStmt]) q a b := by
  have pt : ∀ a e, (Touches (petReads [chainStmt]) q a e ∨ Touches (petWrites [chainStmt]) q a e) →
      ∃ i n c, q = [n] ∧ a = (c, [i]) ∧ (c = accCode 0 false 0 ∨ c = accCode 0 true 0) ∧ 0 ≤ i ∧ i < n := by
    rintro a e (h | h)
    · obtain ⟨i, n, h1, h2, -, h3, h4⟩ := (chain_reads _ _ _).mp h
      exact ⟨i, n, _, h1, h2, .inl rfl, h3, h4⟩
    · obtain ⟨i, n, h1, h2, -, h3, h4⟩ := (chain_writes _ _ _).mp h
      exact ⟨i, n, _, h1, h2, .inr rfl, h3, h4⟩
  obtain ⟨i, n, c, rfl, rfl, hc, h1, h2⟩ := pt a e ha
  obtain ⟨j, m, c', e1, rfl, hc', h3, h4⟩ := pt b e' hb
  simp only [List.cons.injEq, and_true] at e1
  subst e1
  constructor
  · rintro ⟨t, u, k1, k2, l, x, y, g1, g2, g3, -⟩
    obtain ⟨-, i', _, -, e2, rfl⟩ := (chainOsl_at _ _ _ _).mp k1
    obtain ⟨-, j', _, -, e3, rfl⟩ := (chainOsl_at _ _ _ _).mp k2
    simp only [List.cons.injEq, and_true] at e2 e3
    refine chain_before n i j c c' hc hc' h1 ?_ h4
    match l with
    | 0 => simp at g1 g2; omega
    | 1 => simp at g1 g2; omega
    | 2 => simp at g1 g2; omega
    | l + 3 => simp at g1
  · intro h
    have := chain_earlier _ _ _ _ _ h
    exact ⟨[0, i, 0], [0, j, 0], (chainOsl_at _ _ _ _).mpr ⟨hc, i, n, rfl, rfl, rfl⟩, (chainOsl_at _ _ _ _).mpr ⟨hc', j, n, rfl, rfl, rfl⟩,
      1, i, j, rfl, rfl, this, fun k hk => by have : k = 0 := by omega
                                              subst this; rfl⟩

theorem chainOsl_ne : oslReads true [chainIsl] ≠ oslWrites true [chainIsl] ∧ oslReads true [chainIsl] ≠ [] ∧ oslWrites true [chainIsl] ≠ [] := by decide +kernel

theorem chainOslOps_ok : chainOslOps.OK (oslReads true [chainIsl]) (oslWrites true [chainIsl]) (oslTimes true [chainIsl]) where
  coalesce := chainOps_ok.coalesce
  union := chainOps_ok.union
  flow sink must may h1 h2 h3 := by
    obtain ⟨n1, n2, n3⟩ := chainOsl_ne
    have hnil : ∀ q a e, Touches [] q a e ↔ Touches [] q a e := fun _ _ _ => Iff.rfl
    have conv : ∀ l ∈ [[], oslReads true [chainIsl], oslWrites true [chainIsl]], ∃ l', (if l = oslReads true [chainIsl] then petReads [chainStmt] else
        if l = oslWrites true [chainIsl] then petWrites [chainStmt] else []) = l' ∧ l' ∈ [[], petReads [chainStmt], petWrites [chainStmt]] ∧
        (l = [] ↔ l' = []) ∧ (∀ q a e, Touches l q a e ↔ Touches l' q a e) ∧
        ∀ q a e, Touches l' q a e → Touches (petReads [chainStmt]) q a e ∨ Touches (petWrites [chainStmt]) q a e := by
      intro l hl
      simp only [List.mem_cons, List.not_mem_nil, or_false] at hl
      rcases hl with rfl | rfl | rfl
      · exact ⟨[], by rw [if_neg n2.symm, if_neg n3.symm], by simp, Iff.rfl, hnil, fun q a e h => absurd h touches_nil⟩
      · exact ⟨_, if_pos rfl, by simp, ⟨fun h => absurd h n2, fun h => absurd h chain_ne.2.1⟩, chainOsl_reads, fun q a e h => .inl h⟩
      · exact ⟨_, by rw [if_neg n1.symm, if_pos rfl], by simp, ⟨fun h => absurd h n3, fun h => absurd h chain_ne.2.2⟩, chainOsl_writes, fun q a e h => .inr h⟩
    obtain ⟨s', s1, s2, s3, s4, s5⟩ := conv sink (List.mem_cons_of_mem _ h1)
    obtain ⟨m', m1, m2, m3, m4, m5⟩ := conv must h2
    obtain ⟨y', y1, y2, y3, y4, y5⟩ := conv may h3
    have hs' : s' ∈ [petReads [chainStmt], petWrites [chainStmt]] := by
      rcases List.mem_cons.mp s2 with h | h
      · exfalso
        have := s3.mpr h
        subst this
        simp only [List.mem_cons, List.not_mem_nil, or_false] at h1
        exact h1.elim (fun h => n2 h.symm) (fun h => n3 h.symm)
      · exact h
    obtain ⟨r1, r2, r3⟩ := chainOps_ok.flow s' m' y' hs' m2 y2
    have hf : chainOslOps.flow sink must may (oslTimes true [chainIsl]) = chainOps.flow s' m' y' (petTimes [chainStmt]) := by
      unfold chainOslOps
      simp only [s1, m1, y1]
      rfl
    unfold FlowRight
    rw [hf]
    refine ⟨fun q a b => (r1 q a b).trans ?_, fun h => r2 (y3.mp h), fun h => r3 (m3.mp h)⟩
    unfold LastConflict
    simp only [touches_append, s4, m4, y4]
    refine exists_congr fun e => and_congr_right fun ha => and_congr_right fun hb => ?_
    have ha' := ha.elim (m5 q a e) (y5 q a e)
    have hb' := s5 q b e hb
    rw [chainOsl_earlier q a b e e ha' hb']
    refine and_congr_right fun _ => not_congr (exists_congr fun c => and_congr_right fun hc => ?_)
    rw [chainOsl_earlier q a c e e ha' (m5 q c e hc), chainOsl_earlier q c b e e (m5 q c e hc) hb']

theorem chainScop_ok : chainScop.OK := by
  refine ⟨⟨⟨rfl, by decide, by decide⟩, rfl, rfl⟩, fun s hs => ?_⟩
  obtain rfl := List.mem_singleton.mp hs
  refine ⟨⟨_, rfl, ⟨rfl, by decide, by decide⟩, rfl, rfl, rfl, by decide⟩, ⟨⟨rfl, by decide, by decide⟩, rfl, [[0, 0, 0], [1, 0, 0], [0, 0, 0]], rfl, by decide, by decide⟩,
    fun a ha => ?_⟩
  simp only [chainOsl, List.mem_cons, List.not_mem_nil, or_false] at ha
  rcases ha with rfl | rfl
  · exact ⟨⟨rfl, by decide, by decide⟩, rfl, 1, [[1, 0, 0]], by decide, rfl, by decide, by decide⟩
  · exact ⟨⟨rfl, by decide, by decide⟩, rfl, 1, [[1, 0, 1]], by decide, rfl, by decide, by decide⟩

theorem chainScop_dims : chainScop.SameDims := by
  intro s hs t ht a ha b hb id f g h1 h2
  obtain rfl := List.mem_singleton.mp hs
  obtain rfl := List.mem_singleton.mp ht
  have two : ∀ a ∈ chainOsl.accs, ∀ f, a.2.IsAcc id f → f.length = 1 := by
    intro a ha f h
    have h1 := h.2.out
    simp only [List.length_cons] at h1
    simp only [chainOsl, List.mem_cons, List.not_mem_nil, or_false] at ha
    rcases ha with rfl | rfl <;> simpa using h1.symm
  rw [two a ha f h1, two b hb g h2]

theorem chainScop_flow : OslFlowOK chainOslOps ⟨true, false, false⟩ true chainScop := by
  intro isl h
  rw [chainIsl_eq] at h
  cases h
  refine ⟨chainOslOps_ok, fun d hd => ?_⟩
  have e : computeDeps chainOslOps ⟨true, false, false⟩ true (oslReads true [chainIsl]) (oslWrites true [chainIsl]) (oslTimes true [chainIsl]) =
      some ⟨[chainNext], [], [], none, some [], some []⟩ := by decide +kernel
  rw [e] at hd
  cases hd
  refine ⟨fun d hd => ?_, fun d hd => by simp at hd, fun d hd => by simp at hd, fun d hd => by simp at hd⟩
  obtain rfl := List.mem_singleton.mp hd
  exact ⟨⟨by decide, by decide⟩, rfl, 0, 0, true, false, 0, 0, chainOsl, chainOsl, rfl, rfl, rfl, rfl, rfl, rfl, by decide, by decide, rfl⟩

/-- The program made from the example. -/
def chainOslProg : Prog where
  nvar := 1
  npar := 1
  stmts := [⟨1, 1, ⟨3, [⟨false, [1, 0, 0]⟩, ⟨false, [-1, 1, -1]⟩]⟩, [true], [[0, 0, 0], [1, 0, 0], [0, 0, 0]], [.loop, .loop, .loop]⟩]
  deps := [⟨0, 0, false, sumCst, sumCst, false, -1, [], []⟩]
  hProps := [.scalar, .loop, .scalar]

theorem chainScop_ctx (q : List Int) : chainScop.context.Has [] [] q ↔ ∃ n, q = [n] ∧ 1 ≤ n := by
  unfold chainScop OslRel.Has
  simp only
  constructor
  · rintro ⟨-, -, h3, z, h4, h5⟩
    obtain ⟨n, rfl⟩ := List.length_eq_one_iff.mp h3
    obtain rfl := List.length_eq_zero_iff.mp h4
    simp [aff, dot] at h5
    exact ⟨n, rfl, by omega⟩
  · rintro ⟨n, rfl, h⟩
    refine ⟨rfl, rfl, rfl, [], rfl, ?_⟩
    simp [aff, dot]; omega

theorem chainOsl_runs (q : List Int) (p : Pt) : OslRuns chainScop q p ↔ ∃ i n, q = [n] ∧ p = (0, [i]) ∧ 0 ≤ i ∧ i < n := by
  obtain ⟨k, x⟩ := p
  unfold OslRuns
  rw [chainScop_ctx]
  constructor
  · rintro ⟨⟨n, rfl, hn⟩, s, hs, d, hd, h1, -, -, z, h4, h5⟩
    have hk : k < 1 := (List.getElem?_eq_some_iff.mp hs).1
    have hk : k = 0 := by omega
    subst hk
    obtain rfl := List.mem_singleton.mp (List.mem_of_getElem? hs)
    obtain rfl := List.mem_singleton.mp hd
    obtain ⟨i, rfl⟩ := List.length_eq_one_iff.mp h1
    obtain rfl := List.length_eq_zero_iff.mp h4
    simp [aff, dot] at h5
    exact ⟨i, n, rfl, rfl, by omega, by omega⟩
  · rintro ⟨i, n, rfl, h, h1, h2⟩
    simp only [Prod.mk.injEq] at h
    obtain ⟨rfl, rfl⟩ := h
    refine ⟨⟨n, rfl, by omega⟩, _, rfl, _, List.mem_singleton.mpr rfl, rfl, rfl, rfl, [], rfl, ?_⟩
    simp [aff, dot]; omega

theorem chainOsl_before (q : List Int) (i j n : Int) (hq : q = [n]) (h : i < j) : OslBefore chainScop q (0, [i]) (0, [j]) := by
  subst hq
  refine ⟨_, _, [0, i, 0], [0, j, 0], rfl, rfl, ⟨rfl, rfl, rfl, [], rfl, ?_⟩, ⟨rfl, rfl, rfl, [], rfl, ?_⟩, 1, i, j, rfl, rfl, h,
    fun k hk => by have : k = 0 := by omega
                   subst this; rfl⟩ <;> simp [aff, dot, chainOsl]

theorem chainOsl_source : OslSourceRun chainScop [3] [(0, [0]), (0, [1]), (0, [2])] := by
  refine ⟨by decide, fun a => ?_, ?_⟩
  · rw [chainOsl_runs]
    constructor
    · intro h
      simp only [List.mem_cons, List.not_mem_nil, or_false] at h
      rcases h with rfl | rfl | rfl <;> exact ⟨_, _, rfl, rfl, by omega, by omega⟩
    · rintro ⟨k, n, e1, rfl, h1, h2⟩
      simp only [List.cons.injEq, and_true] at e1
      have : k = 0 ∨ k = 1 ∨ k = 2 := by omega
      rcases this with rfl | rfl | rfl <;> simp
  · refine List.Pairwise.cons ?_ (List.Pairwise.cons ?_ (List.Pairwise.cons (by simp) List.Pairwise.nil))
    · intro a ha
      simp only [List.mem_cons, List.not_mem_nil, or_false] at ha
      rcases ha with rfl | rfl <;> exact chainOsl_before _ _ _ 3 rfl (by omega)
    · intro a ha
      simp only [List.mem_cons, List.not_mem_nil, or_false] at ha
      subst ha
      exact chainOsl_before _ _ _ 3 rfl (by omega)

theorem chainOsl_readsElem (q : List Int) (a e : Pt) : OslReadsElem chainScop q a e ↔ ∃ i n, q = [n] ∧ a = (0, [i]) ∧ e = (1, [i]) ∧ 0 ≤ i ∧ i < n := by
  unfold OslReadsElem
  rw [chainOsl_runs]
  obtain ⟨k, y⟩ := e
  constructor
  · rintro ⟨⟨i, n, rfl, rfl, h1, h2⟩, s, hs, a, ha, e1, g1, -, -, z, g4, g5⟩
    obtain rfl := List.mem_singleton.mp (List.mem_of_getElem? hs)
    simp only [chainOsl, List.mem_cons, List.not_mem_nil, or_false] at ha
    rcases ha with rfl | rfl
    · obtain ⟨j, rfl⟩ := List.length_eq_one_iff.mp (show y.length = 1 by simpa using g1)
      obtain rfl := List.length_eq_zero_iff.mp g4
      simp [aff, dot] at g5
      exact ⟨i, n, rfl, rfl, by simp; omega, h1, h2⟩
    · cases e1
  · rintro ⟨i, n, rfl, rfl, h, h1, h2⟩
    simp only [Prod.mk.injEq] at h
    obtain ⟨rfl, rfl⟩ := h
    refine ⟨⟨i, n, rfl, rfl, h1, h2⟩, _, rfl, _, List.mem_cons_self, rfl, rfl, rfl, rfl, [], rfl, ?_⟩
    simp [aff, dot]

theorem chainOsl_writesElem (q : List Int) (a e : Pt) : OslWritesElem chainScop q a e ↔ ∃ i n, q = [n] ∧ a = (0, [i]) ∧ e = (1, [i + 1]) ∧ 0 ≤ i ∧ i < n := by
  unfold OslWritesElem
  rw [chainOsl_runs]
  obtain ⟨k, y⟩ := e
  constructor
  · rintro ⟨⟨i, n, rfl, rfl, h1, h2⟩, s, hs, a, ha, e1, g1, -, -, z, g4, g5⟩
    obtain rfl := List.mem_singleton.mp (List.mem_of_getElem? hs)
    simp only [chainOsl, List.mem_cons, List.not_mem_nil, or_false] at ha
    rcases ha with rfl | rfl
    · rcases e1 with e1 | e1 <;> cases e1
    · obtain ⟨j, rfl⟩ := List.length_eq_one_iff.mp (show y.length = 1 by simpa using g1)
      obtain rfl := List.length_eq_zero_iff.mp g4
      simp [aff, dot] at g5
      exact ⟨i, n, rfl, rfl, by simp; omega, h1, h2⟩
  · rintro ⟨i, n, rfl, rfl, h, h1, h2⟩
    simp only [Prod.mk.injEq] at h
    obtain ⟨rfl, rfl⟩ := h
    refine ⟨⟨i, n, rfl, rfl, h1, h2⟩, _, rfl, _, List.mem_cons_of_mem _ List.mem_cons_self, .inl rfl, rfl, rfl, rfl, [], rfl, ?_⟩
    simp [aff, dot]

/-- `A[i + 1] = A[i]` on a memory of integers. -/
noncomputable def chainOslAct (a : Pt) : Action Pt Int :=
  open Classical in
  { run := fun m e => if e = (1, [a.2.headD 0 + 1]) ∧ OslWritesElem chainScop [3] a e then m (1, [a.2.headD 0]) else m e
    reads := OslReadsElem chainScop [3] a
    writes := OslWritesElem chainScop [3] a
    keeps := fun m e h => if_neg fun h' => h h'.2
    depends := fun m m' h e he => by
      by_cases c : e = (1, [a.2.headD 0 + 1]) ∧ OslWritesElem chainScop [3] a e
      · rw [if_pos c, if_pos c]
        refine h _ (.inl ?_)
        obtain ⟨i, n, h1, rfl, -, h2, h3⟩ := (chainOsl_writesElem _ _ _).mp he
        exact (chainOsl_readsElem _ _ _).mpr ⟨i, n, h1, rfl, rfl, h2, h3⟩
      · rw [if_neg c, if_neg c]
        exact h e (.inr he) }

/-- The hypotheses of C68 and C65 are met by the example, with a name for every access and with tiling. -/
example : simpleOps.OK ∧ chainScop.OK ∧ chainScop.SameDims ∧ OslFlowOK chainOslOps ⟨true, false, false⟩ true chainScop ∧
    OslNoDivs chainOslOps ⟨true, false, false⟩ true chainScop ∧
    (∃ ds, oslToProg simpleOps chainOslOps ⟨true, false, false⟩ true chainScop = some (chainOslProg, ds)) ∧
    EmptyOracle sumLibs.isEmpty ∧ FeasibleOracle sumLibs.solve ∧ EagerAuto exAutoOpts sumLibs noDiamond 10 exDfs chainOslProg ∧
    (∃ p, autoTransform exAutoOpts sumLibs noDiamond 10 exDfs chainOslProg = some (.success p) ∧
      Uniform p 0 p.hProps.length (List.range p.stmts.length) ∧
      ∀ p1 bands, recompute sumLibs.isEmpty p = some p1 → tileBands p1 = some bands → LoopBands p1 bands) ∧
    oslToCst chainScop.context = some ⟨2, [⟨false, [1, -1]⟩]⟩ ∧
    OslSourceRun chainScop [3] [(0, [0]), (0, [1]), (0, [2])] ∧ OslActsAs chainScop [3] chainOslAct ∧
    OslConflict chainScop [3] (0, [0]) (0, [1]) ∧ OslBefore chainScop [3] (0, [0]) (0, [1]) := by
  refine ⟨simpleOps_ok, chainScop_ok, chainScop_dims, chainScop_flow, ?_, ?_, sumTab_ok, listSolver_ok _, eagerAutoCheck_ok (by decide +kernel), ?_, by decide,
    chainOsl_source, fun _ _ => ⟨id, id⟩, ?_, chainOsl_before _ _ _ 3 rfl (by omega)⟩
  · intro isl h d hd
    rw [chainIsl_eq] at h
    cases h
    have e : computeDeps chainOslOps ⟨true, false, false⟩ true (oslReads true [chainIsl]) (oslWrites true [chainIsl]) (oslTimes true [chainIsl]) =
        some ⟨[chainNext], [], [], none, some [], some []⟩ := by decide +kernel
    rw [e] at hd
    cases hd
    decide
  · have h : (oslToProg simpleOps chainOslOps ⟨true, false, false⟩ true chainScop).map (·.1) = some chainOslProg := by decide +kernel
    obtain ⟨⟨p, ds⟩, h1, h2⟩ := Option.map_eq_some_iff.mp h
    simp only at h2
    subst h2
    exact ⟨ds, h1⟩
  · have h : Outcome.holds (fun p => decide (Uniform p 0 p.hProps.length (List.range p.stmts.length)) && match recompute sumLibs.isEmpty p with
          | some p1 => (match tileBands p1 with | some bands => loopBandsCheck p1 bands | none => false)
          | none => false)
        (autoTransform exAutoOpts sumLibs noDiamond 10 exDfs chainOslProg) = true := by decide +kernel
    generalize autoTransform exAutoOpts sumLibs noDiamond 10 exDfs chainOslProg = r at h
    match r, h with
    | some (.success p), h =>
      simp only [Outcome.holds, Bool.and_eq_true, decide_eq_true_eq] at h
      refine ⟨p, rfl, h.1, fun p1 bands h1 h2 => ?_⟩
      have := h.2
      simp only [h1, h2] at this
      exact loopBandsCheck_ok this
  · exact ⟨(1, [1]), .inl ⟨(chainOsl_writesElem _ _ _).mpr ⟨0, 3, rfl, rfl, rfl, by omega, by omega⟩,
      .inl ((chainOsl_readsElem _ _ _).mpr ⟨1, 3, rfl, rfl, rfl, by omega, by omega⟩)⟩⟩

/-- An access to a scalar, array number 2, in a loop: the matrix of the program and the map of isl say element 0. -/
example : (⟨[[0, -1, 0, 0, 2]], 1, 1, 0, 1⟩ : OslRel).IsAcc 2 [] ∧ (⟨[[0, -1, 0, 0, 2]], 1, 1, 0, 1⟩ : OslRel).WF ∧
    oslAccMat ⟨[[0, -1, 0, 0, 2]], 1, 1, 0, 1⟩ = some [[0, 0, 0]] := by
  refine ⟨⟨by decide, rfl, by decide, by decide⟩, ⟨rfl, by decide, by decide⟩, by decide⟩

/-- The hypotheses of `C68_populate` are met by the example with its loop tiled by 32 (the new iterator comes first). -/
example : ∃ p : Prog, p.OK ∧ p.npar = chainScop.context.npar ∧ p.stmts.length ≤ chainScop.stmts.length ∧
    (∀ s ∈ chainScop.stmts, ∀ a ∈ s.accs, ∀ w ∈ a.2.rows, w.length = a.2.nout + a.2.nin + a.2.nloc + a.2.npar + 2) ∧
    (populateScop p chainScop (fun _ => 1)).map (fun sc => sc.stmts.map (fun s => s.accs.map (·.2.rows))) =
      some [[[[0, 0, -1, 0, 1, 0, 0], [0, -1, 0, 0, 0, 0, 1]], [[0, -1, 0, 0, 0, 0, 1], [0, 0, -1, 0, 1, 0, 1]]]] := by
  refine ⟨⟨1, 1, [⟨2, 1, ⟨4, [⟨false, [0, 1, 0, 0]⟩, ⟨false, [0, -1, 1, -1]⟩, ⟨false, [-32, 1, 0, 0]⟩, ⟨false, [32, -1, 0, 31]⟩]⟩, [false, true],
    [[1, 0, 0, 0], [0, 1, 0, 0]], [.loop, .loop]⟩], [], [.loop, .loop]⟩, ?_, rfl, by decide, by decide, by decide +kernel⟩
  refine ⟨fun s hs => ?_, fun s hs => ?_, fun d hd => by simp at hd⟩
  · obtain rfl := List.mem_singleton.mp hs
    exact ⟨⟨by decide, by decide⟩, rfl, by decide, by decide⟩
  · obtain rfl := List.mem_singleton.mp hs
    decide

/-! ### Constants that do not fit `int` -/

/-- `for (i = 1; i <= 2^32; i++) S0: x = ..; S1: .. = x;` -/
def wideScop : OslScop :=
  ⟨⟨[], 0, 0, 0, 0⟩,
    [⟨[⟨[[1, 1, -1], [1, -1, 4294967296]], 1, 0, 0, 0⟩], ⟨[[0, -1, 0, 0, 0], [0, 0, -1, 1, 0]], 2, 1, 0, 0⟩, [(.write, ⟨[[0, -1, 0, 1]], 1, 1, 0, 0⟩)]⟩,
     ⟨[⟨[], 0, 0, 0, 0⟩], ⟨[[0, -1, 0, 1], [0, 0, -1, 0]], 2, 0, 0, 0⟩, [(.read, ⟨[[0, -1, 1]], 1, 0, 0, 0⟩)]⟩]⟩

def wideIsl : List OslIsl :=
  [⟨⟨1, 2, 0, 0, [[0, -1, 0, 0], [1, 0, -1, 0]], []⟩, [], [⟨0, [⟨1, 1, 0, 0, [[0, -1, 0]], [[1, 0, -1], [-1, 0, 0]]⟩]⟩]⟩,
   ⟨⟨0, 2, 0, 0, [[-1, 0, 1], [0, -1, 0]], []⟩, [⟨0, [⟨0, 1, 0, 0, [[-1, 0]], []⟩]⟩], []⟩]

theorem wideIsl_eq : wideScop.stmts.mapM (oslIslStmt (oslSet wideScop.context)) = some wideIsl := by decide +kernel

/-- isl finds no dependences: no instance writes. -/
def wideOps : FlowOps := ⟨fun _ _ _ _ => ([], []), id, (· ++ ·), fun _ => [], fun ms _ => ms⟩

theorem wide_writes (accs : Bool) (q : List Int) (p e : Pt) : ¬ Touches (oslWrites accs wideIsl) q p e := by
  rintro ⟨m, hm, -, -, h1, h2, h3, z, h4, h5, h6⟩
  have : m.rel = ⟨1, 1, 0, 0, [[0, -1, 0]], [[1, 0, -1], [-1, 0, 0]]⟩ := by
    have hr : oslWrites accs wideIsl = [⟨oslCode accs 0 true 0, 0, ⟨1, 1, 0, 0, [[0, -1, 0]], [[1, 0, -1], [-1, 0, 0]]⟩⟩] := rfl
    rw [hr, List.mem_singleton] at hm
    rw [hm]
  rw [this] at h1 h2 h3 h4 h5 h6
  obtain ⟨i, h1⟩ := List.length_eq_one_iff.mp h1
  obtain ⟨j, h2⟩ := List.length_eq_one_iff.mp h2
  obtain rfl := List.length_eq_zero_iff.mp h3
  obtain rfl := List.length_eq_zero_iff.mp h4
  simp [h1, h2, aff, dot] at h6
  omega

theorem wide_reads (accs : Bool) (q : List Int) (p e : Pt) (h : Touches (oslReads accs wideIsl) q p e) : p = (oslCode accs 1 false 0, []) := by
  obtain ⟨m, hm, e1, -, h1, -⟩ := h
  have hr : oslReads accs wideIsl = [⟨oslCode accs 1 false 0, 0, ⟨0, 1, 0, 0, [[-1, 0]], []⟩⟩] := rfl
  rw [hr, List.mem_singleton] at hm
  subst hm
  obtain ⟨k, x⟩ := p
  exact Prod.ext e1.symm (List.length_eq_zero_iff.mp h1)

theorem wide_reads_time (accs : Bool) (q t : List Int) (h : AtTime (oslTimes accs wideIsl) q (oslCode accs 1 false 0, []) t) : t = [1, 0] := by
  obtain ⟨m, hm, e1, h1, h2, h3, z, h4, h5, h6⟩ := h
  have : m.rel = ⟨0, 2, 0, 0, [[-1, 0, 1], [0, -1, 0]], []⟩ := by
    cases accs
    · have hr : oslTimes false wideIsl = [⟨0, ⟨1, 2, 0, 0, [[0, -1, 0, 0], [1, 0, -1, 0]], []⟩⟩, ⟨1, ⟨0, 2, 0, 0, [[-1, 0, 1], [0, -1, 0]], []⟩⟩] := rfl
      rw [hr] at hm
      simp only [List.mem_cons, List.not_mem_nil, or_false] at hm
      rcases hm with rfl | rfl
      · simp [oslCode] at e1
      · rfl
    · have hr : oslTimes true wideIsl = [⟨accCode 0 true 0, ⟨1, 2, 0, 0, [[0, -1, 0, 0], [1, 0, -1, 0]], []⟩⟩, ⟨accCode 1 false 0, ⟨0, 2, 0, 0, [[-1, 0, 1], [0, -1, 0]], []⟩⟩] := rfl
      rw [hr] at hm
      simp only [List.mem_cons, List.not_mem_nil, or_false] at hm
      rcases hm with rfl | rfl
      · exact absurd e1 (by decide)
      · rfl
  rw [this] at h1 h2 h3 h4 h5 h6
  obtain ⟨a, b, rfl⟩ := List.length_eq_two.mp h2
  obtain rfl := List.length_eq_zero_iff.mp h3
  obtain rfl := List.length_eq_zero_iff.mp h4
  simp [aff, dot] at h5
  simp; omega

theorem wideOps_ok (accs : Bool) : wideOps.OK (oslReads accs wideIsl) (oslWrites accs wideIsl) (oslTimes accs wideIsl) where
  coalesce _ _ _ _ := Iff.rfl
  union ds ds' q a b := chainOps_ok.union ds ds' q a b
  flow sink must may h1 h2 h3 := by
    have hnil : ∀ q a b, ¬ Related [] q a b := by rintro q a b ⟨d, hd, -⟩; simp at hd
    have only : ∀ l ∈ [[], oslReads accs wideIsl, oslWrites accs wideIsl], ∀ q a e, Touches l q a e → a = (oslCode accs 1 false 0, []) := by
      intro l hl q a e h
      simp only [List.mem_cons, List.not_mem_nil, or_false] at hl
      rcases hl with rfl | rfl | rfl
      · exact absurd h touches_nil
      · exact wide_reads accs q a e h
      · exact absurd h (wide_writes accs q a e)
    refine ⟨fun q a b => ⟨fun h => (h.elim (hnil q a b) (hnil q a b)).elim, ?_⟩, fun _ => hnil, fun _ => hnil⟩
    rintro ⟨e, t1, t2, ⟨t, u, k1, k2, l, x, y, g1, g2, g3, -⟩, -⟩
    exfalso
    have ha := (touches_append.mp t1).elim (only must h2 q a e) (only may h3 q a e)
    have hb := only sink (List.mem_cons_of_mem _ h1) q b e t2
    subst ha; subst hb
    obtain rfl := wide_reads_time accs q t k1
    obtain rfl := wide_reads_time accs q u k2
    rw [g1] at g2
    cases g2
    omega

/-- C68, violated. A bound that does not fit `int` is another bound in isl: of the loop up to 2^32 no instance is left,
and the dependences on it are missing. -/
theorem C68_violated_width (accs : Bool) :
    (∀ isl, wideScop.stmts.mapM (oslIslStmt (oslSet wideScop.context)) = some isl → wideOps.OK (oslReads accs isl) (oslWrites accs isl) (oslTimes accs isl)) ∧
    ∃ p ds, oslToProg simpleOps wideOps ⟨true, false, false⟩ accs wideScop = some (p, ds) ∧
      ∃ a b, OslRuns wideScop [] a ∧ OslRuns wideScop [] b ∧ OslConflict wideScop [] a b ∧ OslBefore wideScop [] a b ∧ ¬ OslChain wideScop p [] a b := by
  refine ⟨fun isl h => ?_, ?_⟩
  · rw [wideIsl_eq] at h
    cases h
    exact wideOps_ok accs
  have hp : (oslToProg simpleOps wideOps ⟨true, false, false⟩ accs wideScop).map (fun r => r.1.deps) = some [] := by
    cases accs <;> decide +kernel
  obtain ⟨⟨p, ds⟩, h1, h2⟩ := Option.map_eq_some_iff.mp hp
  simp only at h2
  have r0 : OslRuns wideScop [] (0, [1]) := by
    refine ⟨⟨rfl, rfl, rfl, [], rfl, by simp [wideScop]⟩, _, rfl, _, List.mem_singleton.mpr rfl, rfl, rfl, rfl, [], rfl, ?_⟩
    simp [aff, dot]
  have r1 : OslRuns wideScop [] (1, []) :=
    ⟨⟨rfl, rfl, rfl, [], rfl, by simp [wideScop]⟩, _, rfl, _, List.mem_singleton.mpr rfl, rfl, rfl, rfl, [], rfl, by simp⟩
  refine ⟨p, ds, h1, (0, [1]), (1, []), r0, r1, ⟨(1, []), .inl ⟨⟨r0, _, rfl, _, List.mem_singleton.mpr rfl, .inl rfl, rfl, rfl, rfl, [], rfl, ?_⟩,
    .inl ⟨r1, _, rfl, _, List.mem_singleton.mpr rfl, rfl, rfl, rfl, rfl, [], rfl, ?_⟩⟩⟩,
    ⟨_, _, [0, 1], [1, 0], rfl, rfl, ⟨rfl, rfl, rfl, [], rfl, ?_⟩, ⟨rfl, rfl, rfl, [], rfl, ?_⟩, 0, 0, 1, rfl, rfl, by decide, by simp⟩, ?_⟩
  · simp [aff, dot]
  · simp [aff, dot]
  · simp [aff, dot]
  · simp [aff, dot]
  · intro h
    obtain ⟨c, -, -, -, d, hd, -⟩ := Relation.TransGen.tail'_iff.mp h
    rw [h2] at hd
    simp at hd

end Pluto
