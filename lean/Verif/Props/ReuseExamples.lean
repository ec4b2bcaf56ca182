import Verif.Props.Reuse

/-! C69: cases that meet the hypotheses, and cases where the full claims fail. -/

namespace Pluto

/-- `n` accesses to different arrays, each with the subscript `i + j`, in the first statement of `exTile`. -/
def sumAccs (n : Nat) : Accs := fun i => if i = 0 then (List.range n).map (fun k => ⟨k, ⟨4, [[1, 1, 0, 0]]⟩⟩) else []

/-- C69 is violated by `get_best_vectorizable_loop`, which is meant to give vectorizable loops a high priority: in the first
nest of `exTile` with five accesses `a_k[i + j]` the inner loop is vectorizable (score 18), but the outer loop, which
carries a dependence, is preferred (score 20). -/
theorem C69_violated_best : ∃ (p : Prog) (A : Accs) (ls : List Loop) (L M : Loop), p.OK ∧ p.Info ∧
    (∀ i, ∀ a ∈ A i, a.mat.WF) ∧ getLoopsUnder p [0] 1 = some ls ∧ (∀ K ∈ ls, K.stmts = [0]) ∧
    M ∈ ls ∧ loopIsVectorizable p A M = some true ∧
    bestVectorizable p A ls = some (some L) ∧ loopIsParallel p L = some false ∧ loopIsVectorizable p A L = some false := by
  refine ⟨exTile, sumAccs 5, [⟨2, [0]⟩, ⟨1, [0]⟩], ⟨1, [0]⟩, ⟨2, [0]⟩, exTile_ok.1, exTile_info, ?_, ?_⟩
  · intro i a ha
    unfold sumAccs at ha
    split_ifs at ha
    · obtain ⟨k, _, rfl⟩ := List.mem_map.mp ha
      intro r hr
      simp at hr
      subst hr
      rfl
    · simp at ha
  · decide +kernel

/-- With three accesses the vectorizable loop is taken: the hypotheses of `C69_prefers_vectorizable_partial` and of
`C69_best`. -/
example : bestVectorizable exTile (sumAccs 3) [⟨2, [0]⟩, ⟨1, [0]⟩] = some (some ⟨2, [0]⟩) ∧
    (accsOf (sumAccs 3) [0]).length < 4 ∧ loopIsVectorizable exTile (sumAccs 3) ⟨2, [0]⟩ = some true ∧
    loopScore exTile (sumAccs 3) ⟨2, [0]⟩ = some 14 ∧ loopScore exTile (sumAccs 3) ⟨1, [0]⟩ = some 12 := by decide +kernel

/-- The same for the function given to the intra-tile optimization. -/
example : bestOf (fun _ => sumAccs 3) exTile [⟨2, [0]⟩, ⟨1, [0]⟩] = some ⟨2, [0]⟩ := by decide +kernel

/-- An access that is invariant at level 1 and moves at level 2; iterations that differ there. -/
example : isInvariant exTile 0 ⟨7, ⟨4, [[1, 1, 0, 0]]⟩⟩ 1 = some true ∧ isInvariant exTile 0 ⟨7, ⟨4, [[1, 1, 0, 0]]⟩⟩ 2 = some false ∧
    hasSpatialReuse exTile 0 ⟨7, ⟨4, [[1, 1, 0, 0]]⟩⟩ 2 = some true ∧
    hasSpatialReuse exTile 0 ⟨7, ⟨4, [[1, 1, 0, 0]]⟩⟩ 1 = some false := by decide +kernel

theorem exTile_phi0 (l : Nat) (i j n : Int) : exTile.phi 0 l [i, j] [n] = if l = 1 then i else if l = 2 then i + j else 0 := by
  rcases l with _ | _ | _ | l <;> simp [Prog.phi, Prog.row, exTile, aff, dot]

example : exTile.Along 0 1 [3, 5] [4, 4] [9] ∧ exTile.Along 0 2 [3, 5] [3, 7] [9] := by
  constructor
  · refine ⟨rfl, rfl, rfl, fun l hl => ?_, ?_⟩
    · rw [exTile_phi0, exTile_phi0, if_neg hl, if_neg hl]; split_ifs <;> rfl
    · rw [exTile_phi0, exTile_phi0]; simp
  · refine ⟨rfl, rfl, rfl, fun l hl => ?_, ?_⟩
    · rw [exTile_phi0, exTile_phi0]; split_ifs <;> first | rfl | omega
    · rw [exTile_phi0, exTile_phi0]; simp

/-- Its divisors are 1, as `C69_spatial_exact_partial` asks. -/
example : newAccessFunc 2 1 [[0, 0, 0, 0], [1, 0, 0, 0], [1, 1, 0, 0]] ⟨4, [[1, 1, 0, 0]]⟩ =
    some (⟨5, [[0, 0, 1, 0, 0]]⟩, [1]) := by decide +kernel

/-- Schedule (i + j, i - j) of one statement. -/
def exReuseWave : Prog where
  nvar := 2
  npar := 0
  stmts := [⟨2, 2, ⟨3, []⟩, [true, true], [[1, 1, 0], [1, -1, 0]], [.loop, .loop]⟩]
  deps := []
  hProps := [.loop, .loop]

/-- C69 is violated by `has_spatial_reuse` when the divisors are not 1: under the schedule (i + j, i - j), the access
`a[3*(i + j)]` moves by three elements for each unit of time of the outer loop, but is not seen as a short stride (the code
looks at the numerator, 6, and forgets the divisor, 2). -/
theorem C69_violated_stride : ∃ (p : Prog) (a : Access), p.OK ∧ a.mat.WF ∧ hasSpatialReuse p 0 a 0 = some false ∧
    (∃ x x' q, p.Along 0 0 x x' q) ∧ ∀ x x' q, p.Along 0 0 x x' q →
      ∃ u u', (a.elem x q).2 = [u] ∧ (a.elem x' q).2 = [u'] ∧ u' - u = 3 * (p.phi 0 0 x' q - p.phi 0 0 x q) := by
  have hphi : ∀ l i j, exReuseWave.phi 0 l [i, j] [] = if l = 0 then i + j else if l = 1 then i - j else 0 := by
    intro l i j
    rcases l with _ | _ | l <;> simp [Prog.phi, Prog.row, exReuseWave, aff, dot]
    omega
  refine ⟨exReuseWave, ⟨0, ⟨3, [[3, 3, 0]]⟩⟩, by decide +kernel, by decide +kernel, by decide +kernel, ⟨[0, 0], [1, 1], [], ?_⟩, ?_⟩
  · refine ⟨rfl, rfl, rfl, fun l hl => ?_, ?_⟩
    · rw [hphi, hphi]; simp [hl]
    · rw [hphi, hphi]; simp
  · intro x x' q h
    obtain ⟨i, j, rfl⟩ := length_two (l := x) h.len
    obtain ⟨i', j', rfl⟩ := length_two (l := x') h.len'
    have hq : q = [] := List.length_eq_zero_iff.mp h.params
    subst hq
    rw [hphi, hphi]
    refine ⟨_, _, rfl, rfl, ?_⟩
    simp [aff, dot]
    ring

/-- Two statements with times i and 2i. -/
def exScaled : Prog where
  nvar := 1
  npar := 0
  stmts := [⟨1, 1, ⟨2, []⟩, [true], [[1, 0]], [.loop]⟩, ⟨1, 1, ⟨2, []⟩, [true], [[2, 0]], [.loop]⟩]
  deps := []
  hProps := [.loop]

/-- C69 is violated by `are_pluto_accesses_same`, which ignores divisors: `a[i]` at time `i` and `a[i]` at time `2i` count as
one access, but at time 2 they touch `a[2]` and `a[1]`. -/
theorem C69_violated_unique : ∃ (p : Prog) (A : Accs), p.OK ∧ (∀ i, ∀ a ∈ A i, a.mat.WF) ∧ numUnique p A [0, 1] = some 1 ∧
    ∃ e e', e ≠ e' ∧ e ∈ p.Touched A [0, 1] 0 (fun _ => 0) 2 1 [] ∧ e' ∈ p.Touched A [0, 1] 0 (fun _ => 0) 2 1 [] := by
  refine ⟨exScaled, fun _ => [⟨0, ⟨2, [[1, 0]]⟩⟩], by decide +kernel, ?_, by decide +kernel, (0, [2]), (0, [1]), by decide, ?_, ?_⟩
  · intro i a ha
    simp only [List.mem_singleton] at ha
    subst ha
    decide
  · refine ⟨0, by simp, ⟨0, ⟨2, [[1, 0]]⟩⟩, by simp, [2], rfl, ?_, by decide +kernel, by decide +kernel, by decide +kernel⟩
    intro l h1 h2
    simp [exScaled] at h1
    omega
  · refine ⟨1, by simp, ⟨0, ⟨2, [[1, 0]]⟩⟩, by simp, [1], rfl, ?_, by decide +kernel, by decide +kernel, by decide +kernel⟩
    intro l h1 h2
    simp [exScaled] at h1
    omega

/-- A loop around two loops. -/
def exTwoInner : Prog where
  nvar := 2
  npar := 0
  stmts := [⟨2, 2, ⟨3, []⟩, [true, true], [[1, 0, 0], [0, 0, 0], [0, 1, 0]], [.loop, .scalar, .loop]⟩,
    ⟨2, 2, ⟨3, []⟩, [true, true], [[1, 0, 0], [0, 0, 1], [0, 1, 0]], [.loop, .scalar, .loop]⟩]
  deps := []
  hProps := [.loop, .scalar, .loop]

/-- Ten accesses `a_k[i][j]` in the first loop, three accesses `b_k[j]` in the second. -/
def twoAccs : Accs := fun i => if i = 0 then (List.range 10).map (fun k => ⟨k, ⟨3, [[1, 0, 0], [0, 1, 0]]⟩⟩)
  else (List.range 3).map (fun k => ⟨10 + k, ⟨3, [[0, 1, 0]]⟩⟩)

/-- C69 is violated by `is_unroll_jam_profitable`: it takes the number of accesses from one inner loop and the number of
invariant accesses from another, so it accepts a loop with factor 4 although the first inner body, jammed four times,
touches 40 elements. -/
theorem C69_violated_registers : ∃ (p : Prog) (A : Accs) (L : Loop) (g : List Nat) (gs : List (List Nat)), p.OK ∧
    getAllLoops p = some [⟨2, [0]⟩, ⟨2, [1]⟩, L] ∧ innermostGroups p L = some gs ∧ g ∈ gs ∧
    unrollJamProfitable p A 4 L = some true ∧
    ∃ es : List (Nat × List Int), es.Nodup ∧ es.length = 40 ∧ ∀ e ∈ es, e ∈ p.Touched A g L.depth (fun _ => 0) 0 4 [] := by
  refine ⟨exTwoInner, twoAccs, ⟨0, [0, 1]⟩, [0], [[0], [1]], by decide +kernel, by decide +kernel, by decide +kernel, by simp,
    by decide +kernel, (List.range 10).flatMap (fun k => [((k : Nat), [(0 : Int), 0]), (k, [1, 0]), (k, [2, 0]), (k, [3, 0])]),
    by decide +kernel, by decide +kernel, ?_⟩
  intro e he
  rw [List.mem_flatMap] at he
  obtain ⟨k, hk, he⟩ := he
  have hphi : ∀ (l : Nat) (w : Int), exTwoInner.phi 0 l [w, 0] [] = if l = 0 then w else 0 := by
    intro l w
    rcases l with _ | _ | _ | l <;> simp [Prog.phi, Prog.row, exTwoInner, aff, dot]
  have key : ∀ w : Int, 0 ≤ w → w < 4 → (k, [w, 0]) ∈ exTwoInner.Touched twoAccs [0] 0 (fun _ => 0) 0 4 [] := by
    intro w h1 h2
    refine ⟨0, by simp, ⟨k, ⟨3, [[1, 0, 0], [0, 1, 0]]⟩⟩, ?_, [w, 0], rfl, ?_, ?_, ?_, ?_⟩
    · unfold twoAccs
      rw [if_pos rfl]
      exact List.mem_map.mpr ⟨k, hk, rfl⟩
    · intro l _ hl
      rw [hphi, if_neg hl]
    · rw [hphi]; simpa using h1
    · rw [hphi]; simpa using h2
    · simp [Access.elem, aff, dot]
  simp only [List.mem_cons, List.not_mem_nil, or_false] at he
  rcases he with rfl | rfl | rfl | rfl <;> exact key _ (by omega) (by omega)

/-- The hypotheses of `C69_profitable_partial` (and of `C69_registers_partial`, `C69_unique`): matrix multiplication
`c[i][j] += a[i][k] * b[k][j]` in the order i, k, j, jammed along k. -/
def exMatmul : Prog where
  nvar := 3
  npar := 0
  stmts := [⟨3, 3, ⟨4, []⟩, [true, true, true], [[1, 0, 0, 0], [0, 0, 1, 0], [0, 1, 0, 0]], [.loop, .loop, .loop]⟩]
  deps := []
  hProps := [.loop, .loop, .loop]

def matmulAccs : Accs := fun _ => [⟨0, ⟨4, [[1, 0, 0, 0], [0, 1, 0, 0]]⟩⟩, ⟨1, ⟨4, [[1, 0, 0, 0], [0, 0, 1, 0]]⟩⟩,
  ⟨2, ⟨4, [[0, 0, 1, 0], [0, 1, 0, 0]]⟩⟩, ⟨0, ⟨4, [[1, 0, 0, 0], [0, 1, 0, 0]]⟩⟩]

example : exMatmul.OK ∧ innermostGroups exMatmul ⟨1, [0]⟩ = some [[0]] ∧ numUnique exMatmul matmulAccs [0] = some 3 ∧
    numUniqueInvariant exMatmul matmulAccs [0] 1 = some 1 ∧ maxInvariant exMatmul matmulAccs ⟨1, [0]⟩ = some 1 ∧
    unrollJamProfitable exMatmul matmulAccs 8 ⟨1, [0]⟩ = some true ∧
    unrollJamProfitable exMatmul matmulAccs 16 ⟨1, [0]⟩ = some false := by decide +kernel

example : ∀ a ∈ matmulAccs 0, (newAccessFunc 3 0 [[1, 0, 0, 0], [0, 0, 1, 0], [0, 1, 0, 0]] a.mat).map (·.2) = some [1, 1] := by
  decide +kernel

end Pluto
