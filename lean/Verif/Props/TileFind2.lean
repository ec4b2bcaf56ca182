import Verif.Props.TileSizesExamples
import Verif.Lemmas.LpScale
import Verif.Lemmas.Wavefront

/-! C70: what the selection of tile sizes looks at: wavefront, parallel loop, vectorized loop, and where the sizes go. -/

namespace Pluto

/-- C70: the selection takes the band to be run as a wavefront exactly if its outermost loop is not parallel and some deeper level of
the band is a loop of every statement of the band. -/
theorem C70_wavefront (p : Prog) (b : Band) (v : Bool) (h : hasWavefront p b = some v) :
    v = true ↔ loopIsParallel p b.loop = some false ∧
      ∃ k, 1 ≤ k ∧ k < b.width ∧ ∀ i ∈ b.loop.stmts, ¬ p.Scalar (b.loop.depth + k) i := by
  unfold hasWavefront at h
  obtain ⟨c, h1, h⟩ := Option.bind_eq_some_iff.mp h
  cases c with
  | true =>
    simp only [if_true, Option.pure_def, Option.some.injEq] at h
    simp [← h, h1]
  | false =>
    simp only [Bool.false_eq_true, if_false] at h
    obtain ⟨bs, h2, h⟩ := Option.bind_eq_some_iff.mp h
    cases h
    have key : ∀ k x, (do
        let sc ← b.loop.stmts.mapM (scalarAt p (b.loop.depth + 1 + k))
        return sc.all (fun b => !b) : Option Bool) = some x → (x = true ↔ ∀ i ∈ b.loop.stmts, ¬ p.Scalar (b.loop.depth + (k + 1)) i) := by
      intro k x hx
      obtain ⟨sc, g1, g2⟩ := Option.bind_eq_some_iff.mp hx
      cases g2
      rw [mapM_all (P := fun i => p.Scalar (b.loop.depth + 1 + k) i) (fun a b hb => scalarAt_iff hb) g1,
        show b.loop.depth + 1 + k = b.loop.depth + (k + 1) by omega]
    rw [decide_eq_true_eq]
    have hc : 1 < 1 + bs.count true ↔ true ∈ bs := by
      rw [← List.count_pos_iff]; omega
    rw [hc]
    constructor
    · intro hm
      obtain ⟨k, hk, e⟩ := mapM_mem _ _ _ h2 _ hm
      rw [List.mem_range] at hk
      exact ⟨h1, k + 1, by omega, by omega, (key k true e).mp rfl⟩
    · rintro ⟨_, k, hk1, hk2, hk3⟩
      obtain ⟨x, hx, e⟩ := mapM_some _ _ _ h2 (k - 1) (List.mem_range.mpr (by omega))
      have := (key _ x e).mpr (by rw [show k - 1 + 1 = k by omega]; exact hk3)
      subst this
      exact hx

example : hasWavefront exSeidel ⟨⟨0, [0]⟩, 2⟩ = some true ∧ loopIsParallel exSeidel ⟨0, [0]⟩ = some false := by decide +kernel
example : hasWavefront exMatmul ⟨⟨0, [0]⟩, 3⟩ = some false ∧ loopIsParallel exMatmul ⟨0, [0]⟩ = some true := by decide +kernel

/-- C70: the dimension to be vectorized is the last one of those with most reuse among the candidates; the number of dimensions stands
for none. -/
theorem C70_vector_dim (reuse : List Nat) (dims : List Bool) :
    (∀ i, dims.getD i false = false) ∧ vectorDimOf reuse dims = dims.length ∨
    dims.getD (vectorDimOf reuse dims) false = true ∧ ∀ i, dims.getD i false = true →
      reuse.getD i 0 ≤ reuse.getD (vectorDimOf reuse dims) 0 ∧
      (reuse.getD i 0 = reuse.getD (vectorDimOf reuse dims) 0 → i ≤ vectorDimOf reuse dims) := by
  have hlt : ∀ i, dims.getD i false = true → i < dims.length := by
    intro i hi
    by_contra hc
    rw [List.getD_eq_default _ _ (by omega)] at hi
    cases hi
  have key : ∀ n ≤ dims.length, let v := ((List.range n).foldl (fun v i =>
      if dims.getD i false then
        if v = dims.length then i else if reuse.getD v 0 ≤ reuse.getD i 0 then i else v
      else v) dims.length);
      (∀ i < n, dims.getD i false = false) ∧ v = dims.length ∨
      (v < n ∧ dims.getD v false = true) ∧ ∀ i < n, dims.getD i false = true → reuse.getD i 0 ≤ reuse.getD v 0 ∧
        (reuse.getD i 0 = reuse.getD v 0 → i ≤ v) := by
    intro n
    induction n with
    | zero => intro _; left; simp
    | succ n ih =>
      intro hn
      have ih := ih (by omega)
      dsimp only at ih ⊢
      rw [List.range_succ, List.foldl_append, List.foldl_cons, List.foldl_nil]
      generalize (List.range n).foldl (fun v i =>
        if dims.getD i false then
          if v = dims.length then i else if reuse.getD v 0 ≤ reuse.getD i 0 then i else v
        else v) dims.length = v at ih ⊢
      by_cases c : dims.getD n false = true
      · rw [if_pos c]
        right
        rcases ih with ⟨h1, h2⟩ | ⟨⟨h1, h2⟩, h3⟩
        · rw [if_pos h2]
          refine ⟨⟨by omega, c⟩, fun i hi hd => ?_⟩
          by_cases e : i = n
          · subst e; simp
          · rw [h1 i (by omega)] at hd; cases hd
        · rw [if_neg (by omega)]
          by_cases c2 : reuse.getD v 0 ≤ reuse.getD n 0
          · rw [if_pos c2]
            refine ⟨⟨by omega, c⟩, fun i hi hd => ?_⟩
            by_cases e : i = n
            · subst e; simp
            · have := (h3 i (by omega) hd).1
              exact ⟨by omega, fun _ => by omega⟩
          · rw [if_neg c2]
            refine ⟨⟨by omega, h2⟩, fun i hi hd => ?_⟩
            by_cases e : i = n
            · subst e; exact ⟨by omega, fun _ => by omega⟩
            · exact h3 i (by omega) hd
      · rw [if_neg c]
        rcases ih with ⟨h1, h2⟩ | ⟨⟨h1, h2⟩, h3⟩
        · left
          refine ⟨fun i hi => ?_, h2⟩
          by_cases e : i = n
          · subst e; simpa using c
          · exact h1 i (by omega)
        · right
          refine ⟨⟨by omega, h2⟩, fun i hi hd => ?_⟩
          by_cases e : i = n
          · subst e; exact absurd hd c
          · exact h3 i (by omega) hd
  have := key dims.length (le_refl _)
  dsimp only at this
  rcases this with ⟨h1, h2⟩ | ⟨⟨h1, h2⟩, h3⟩
  · left
    refine ⟨fun i => ?_, h2⟩
    by_contra hc
    have hc : dims.getD i false = true := by simpa using hc
    rw [h1 i (hlt i hc)] at hc
    cases hc
  · exact Or.inr ⟨h2, fun i hi => h3 i (hlt i hi) hi⟩

example : vectorDimOf [3, 5, 4, 5, 9] [true, true, true, true, false] = 3 := by decide

theorem putLoop_spec {g : Nat → Option Int} : ∀ (n : Nat) (a a' : List Int),
    (List.range n).foldlM (fun s i => do let x ← g i; putAt s i x) a = some a' →
    a'.length = a.length ∧ n ≤ a.length ∧ (∀ m < n, g m = some (a'.getD m 0)) ∧ ∀ m, n ≤ m → a'.getD m 0 = a.getD m 0
  | 0, a, a', h => by cases h; simp
  | n + 1, a, a', h => by
    rw [List.range_succ, List.foldlM_append] at h
    obtain ⟨a1, h1, h⟩ := Option.bind_eq_some_iff.mp h
    obtain ⟨k1, k2, k3, k4⟩ := putLoop_spec n a a1 h1
    rw [List.foldlM_cons] at h
    obtain ⟨a2, h2, h⟩ := Option.bind_eq_some_iff.mp h
    cases h
    obtain ⟨x, g1, g2⟩ := Option.bind_eq_some_iff.mp h2
    obtain ⟨g3, rfl⟩ := putAt_eq g2
    refine ⟨by rw [List.length_set]; exact k1, by omega, fun m hm => ?_, fun m hm => ?_⟩
    · by_cases e : m = n
      · subst e
        rw [g1]
        simp [List.getD_eq_getElem?_getD, List.getElem?_set, g3]
      · rw [k3 m (by omega)]
        simp [List.getD_eq_getElem?_getD, List.getElem?_set, Ne.symm e]
    · rw [← k4 m (by omega)]
      have : n ≠ m := by omega
      simp [List.getD_eq_getElem?_getD, List.getElem?_set, this]

/-- C70: the sizes that the selection comes to are the ones that are used: entry `m` of the array of tile sizes is the size chosen for
level `m` of the band if some statement has a loop there, and 42 otherwise. Entries beyond the band and the ratios stay. -/
theorem C70_find_used (ar : SizeArith) (root : Prog → Band → Option Nat) (A : Prog → Accs) (it dia : Bool) (u : BitVec 32)
    (p : Prog) (b : Band) (a a' : List Int × List Int) (h : findTileSizes ar root A it dia u p b a = some a') :
    ∃ v, findSizes ar root A it dia u p b = some v ∧ v.length = b.width ∧ a'.1.length = a.1.length ∧
      (∀ m < b.width, (p.LoopLevel b m → ∃ x, v[m]? = some x ∧ a'.1.getD m 0 = x.toInt) ∧ (¬ p.LoopLevel b m → a'.1.getD m 0 = 42)) ∧
      (∀ m, b.width ≤ m → a'.1.getD m 0 = a.1.getD m 0) ∧ a'.2 = a.2 := by
  unfold findTileSizes at h
  obtain ⟨v, h1, h⟩ := Option.bind_eq_some_iff.mp h
  by_cases c : v.length ≠ b.width
  · rw [if_pos c] at h; cases h
  rw [if_neg c] at h
  obtain ⟨sizes, h2, h⟩ := Option.bind_eq_some_iff.mp h
  cases h
  have h2' : (List.range b.width).foldlM (fun s i => do
      let x ← (anyLoopAt p b.loop.stmts (b.loop.depth + i)).map (fun lp => if lp then (v.getD i 0).toInt else 42)
      putAt s i x) a.1 = some sizes := by
    rw [← h2]
    congr 1
    funext s i
    cases anyLoopAt p b.loop.stmts (b.loop.depth + i) <;> rfl
  obtain ⟨k1, k2, k3, k4⟩ := putLoop_spec _ _ _ h2'
  refine ⟨v, h1, not_not.mp c, k1, fun m hm => ?_, k4, rfl⟩
  have e := k3 m hm
  obtain ⟨lp, e1, e2⟩ := Option.map_eq_some_iff.mp e
  have e3 := anyLoopAt_iff e1
  dsimp only
  constructor
  · intro hl
    have hv : m < v.length := by rw [not_not.mp c]; exact hm
    refine ⟨v[m], List.getElem?_eq_getElem hv, ?_⟩
    rw [← e2, if_pos (e3.mpr hl)]
    simp [List.getD_eq_getElem?_getD, hv]
  · intro hl
    rw [← e2, if_neg (fun h => hl (e3.mp h))]

example : findTileSizes exArith (fun _ _ => some 12) (fun _ => matmulAccs) true false 8 exMatmul ⟨⟨0, [0]⟩, 3⟩ (defaultSizes exMatmul) =
    some ([32, 24, 512], [8, 8, 8]) := by decide +kernel

/-- C70: the parallel loop that the selection looks for: the distance from the start of the band to the last loop of the band none of whose statements has a dependence on itself
satisfied there; the width of the band if there is none. -/
theorem C70_par_loop (p : Prog) (b : Band) (d : Nat) (h : parLoopDepth p b = some d) :
    ∃ loops, getLoopsUnder p b.loop.stmts b.loop.depth = some loops ∧
      ((d = b.width ∧ ∀ l ∈ loops, ∃ i ∈ l.stmts, ∃ e ∈ p.deps, e.rar = false ∧ e.src = i ∧ e.dest = i ∧ e.satvec[l.depth]? = some true) ∨
      ∃ l1 l l2, loops = l1 ++ l :: l2 ∧ d = l.depth - b.loop.depth ∧
        (∀ i ∈ l.stmts, ∀ e ∈ p.deps, e.rar = false → e.src = i → e.dest = i → e.satvec[l.depth]? = some false) ∧
        ∀ l' ∈ l2, ∃ i ∈ l'.stmts, ∃ e ∈ p.deps, e.rar = false ∧ e.src = i ∧ e.dest = i ∧ e.satvec[l'.depth]? = some true) := by
  unfold parLoopDepth at h
  obtain ⟨loops, h1, h0⟩ := Option.bind_eq_some_iff.mp h
  refine ⟨loops, h1, ?_⟩
  have hst : ∀ (l : Loop) i x, parallelForStmt p l i = some x →
      (x = true → ∀ e ∈ p.deps, e.rar = false → e.src = i → e.dest = i → e.satvec[l.depth]? = some false) ∧
      (x = false → ∃ e ∈ p.deps, e.rar = false ∧ e.src = i ∧ e.dest = i ∧ e.satvec[l.depth]? = some true) := by
    intro l i x hx
    unfold parallelForStmt at hx
    obtain ⟨bs, g1, g2⟩ := Option.bind_eq_some_iff.mp hx
    cases g2
    constructor
    · intro hall e he h1 h2 h3
      obtain ⟨y, hy, g3⟩ := mapM_some _ _ _ g1 e (List.mem_filter.mpr ⟨he, by simp [h1, h2, h3]⟩)
      have := List.all_eq_true.mp hall y hy
      rw [g3]; simpa using this
    · intro hall
      obtain ⟨y, hy, hy2⟩ := List.all_eq_false.mp hall
      have hy2 : y = true := by simpa using hy2
      subst hy2
      obtain ⟨e, he, g3⟩ := mapM_mem _ _ _ g1 _ hy
      rw [List.mem_filter] at he
      simp only [Bool.and_eq_true, Bool.not_eq_true', beq_iff_eq] at he
      exact ⟨e, he.1, he.2.1.1, he.2.1.2, he.2.2, g3⟩
  clear h1 h
  rename' h0 => h
  induction loops using List.reverseRecOn generalizing d with
  | nil => cases h; left; simp
  | append_singleton loops l ih =>
    rw [List.foldlM_append] at h
    obtain ⟨d1, h1, h⟩ := Option.bind_eq_some_iff.mp h
    rw [List.foldlM_cons] at h
    obtain ⟨d2, h2, h⟩ := Option.bind_eq_some_iff.mp h
    cases h
    obtain ⟨bs, g1, g2⟩ := Option.bind_eq_some_iff.mp h2
    by_cases c : bs.all id = true
    · rw [if_pos c] at g2
      cases g2
      right
      refine ⟨loops, l, [], rfl, rfl, fun i hi e he h1 h2 h3 => ?_, by simp⟩
      obtain ⟨y, hy, g3⟩ := mapM_some _ _ _ g1 i hi
      exact (hst l i y g3).1 (List.all_eq_true.mp c y hy) e he h1 h2 h3
    · rw [if_neg c] at g2
      cases g2
      have hbad : ∃ i ∈ l.stmts, ∃ e ∈ p.deps, e.rar = false ∧ e.src = i ∧ e.dest = i ∧ e.satvec[l.depth]? = some true := by
        obtain ⟨y, hy, hy2⟩ := List.all_eq_false.mp (by simpa using c : bs.all id = false)
        obtain ⟨i, hi, g3⟩ := mapM_mem _ _ _ g1 y hy
        exact ⟨i, hi, (hst l i y g3).2 (by simpa using hy2)⟩
      rcases ih _ h1 with ⟨k1, k2⟩ | ⟨l1, l', l2, k1, k2, k3, k4⟩
      · left
        refine ⟨k1, fun l' hl' => ?_⟩
        rcases List.mem_append.mp hl' with hl' | hl'
        · exact k2 l' hl'
        · rw [List.mem_singleton] at hl'; subst hl'; exact hbad
      · right
        refine ⟨l1, l', l2 ++ [l], by simp [k1], k2, k3, fun x hx => ?_⟩
        rcases List.mem_append.mp hx with hx | hx
        · exact k4 x hx
        · rw [List.mem_singleton] at hx; subst hx; exact hbad

example : parLoopDepth exMatmul ⟨⟨0, [0]⟩, 3⟩ = some 0 ∧ parLoopDepth exSeidel ⟨⟨0, [0]⟩, 2⟩ = some 2 := by decide +kernel

end Pluto
