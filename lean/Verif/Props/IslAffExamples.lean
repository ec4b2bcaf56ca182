import Verif.Props.IslAff
import Verif.Props.PetExamples

/-! C74: maps for which the extracted matrix is not the map, and cases that meet the hypotheses of the theorems. -/

namespace Pluto

/-- All values of one variable, without parameters. -/
def anyPoint : BMap := ⟨0, 1, 0, 0, [], []⟩

theorem anyPoint_has (i : Int) : anyPoint.Has [] [i] [] := ⟨rfl, rfl, rfl, [], rfl, by simp [anyPoint], by simp [anyPoint]⟩

/-- `{ [i] -> [2 i + 1, i] }` -/
def affMap : BMap := ⟨1, 2, 0, 0, [[2, -1, 0, 1], [1, 0, -1, 0]], []⟩

/-- isl's answers for it. -/
def affOps : PwOps := ⟨fun _ _ => true, fun _ i => if i = 0 then [⟨[anyPoint], ⟨1, 0, [2, 1], [], []⟩⟩] else [⟨[anyPoint], ⟨1, 0, [1, 0], [], []⟩⟩]⟩

theorem affMap_has (x y q : List Int) : affMap.Has x y q ↔ ∃ i, x = [i] ∧ y = [2 * i + 1, i] ∧ q = [] := by
  constructor
  · rintro ⟨h1, h2, h3, z, h4, h5, -⟩
    obtain ⟨i, rfl⟩ := List.length_eq_one_iff.mp h1
    obtain ⟨a, b, rfl⟩ := List.length_eq_two.mp h2
    obtain rfl := List.length_eq_zero_iff.mp h3
    obtain rfl := List.length_eq_zero_iff.mp h4
    simp [affMap, aff, dot] at h5
    refine ⟨i, rfl, ?_, rfl⟩
    simp only [List.cons.injEq, and_true]
    omega
  · rintro ⟨i, rfl, rfl, rfl⟩
    refine ⟨rfl, rfl, rfl, [], rfl, ?_, by simp [affMap]⟩
    simp [affMap, aff, dot]

theorem affOps_ok : affOps.OKFor affMap := by
  refine ⟨fun i hi => ⟨fun _ x y y' q h h' => ?_, fun _ => rfl⟩, fun i hi _ x y q h => ?_, fun i hi _ pc hpc x y q h _ => ?_, fun i hi pc hpc => ?_⟩
  · obtain ⟨a, rfl, rfl, -⟩ := (affMap_has _ _ _).mp h
    obtain ⟨b, hb, rfl, -⟩ := (affMap_has _ _ _).mp h'
    simp only [List.cons.injEq, and_true] at hb
    rw [hb]
  · obtain ⟨a, rfl, rfl, rfl⟩ := (affMap_has _ _ _).mp h
    have hi : i < 2 := hi
    interval_cases i <;> exact ⟨_, List.mem_singleton.mpr rfl, anyPoint, List.mem_singleton.mpr rfl, anyPoint_has a⟩
  · obtain ⟨a, rfl, rfl, rfl⟩ := (affMap_has _ _ _).mp h
    have hi : i < 2 := hi
    interval_cases i
    · obtain rfl := List.mem_singleton.mp hpc
      exact ⟨2 * a + 1, rfl, by simp [IslAff.value, ldot, divValues]⟩
    · obtain rfl := List.mem_singleton.mp hpc
      exact ⟨a, rfl, by simp [IslAff.value, ldot, divValues]⟩
  · have hi : i < 2 := hi
    interval_cases i <;> (obtain rfl := List.mem_singleton.mp hpc; exact ⟨rfl, rfl, rfl⟩)

/-- C74, a case for `C74_access_partial` and `C74_last_piece_partial`. -/
example : ∃ rows, accRows affOps affMap = some rows ∧ rows = [[2, 1], [1, 0]] ∧
    ∀ x y q, affMap.Has x y q → rows.map (fun r => dot r (x ++ q ++ [1])) = y := by
  obtain ⟨rows, h1, -, -, -, h2⟩ := C74_access_partial affOps affMap affOps_ok (by
    intro i hi
    have hi : i < 2 := hi
    interval_cases i <;> exact ⟨rfl, _, rfl, rfl, rfl, by decide⟩) ⟨[0], [1, 0], [], (affMap_has _ _ _).mpr ⟨0, rfl, by simp, rfl⟩⟩
  refine ⟨rows, h1, ?_, h2⟩
  have : accRows affOps affMap = some [[2, 1], [1, 0]] := by decide +kernel
  exact Option.some.inj (h1.symm.trans this)

/-- C74, a case for `C74_stmt_partial`. -/
example : ∃ accs, stmtAccs affOps [⟨7, [affMap]⟩] = some accs ∧ accs = [(7, [[2, 1], [1, 0]])] := ⟨_, by decide +kernel, rfl⟩

/-- `{ [i] -> [a] : 2 a = i }`: for even `i` the element `i / 2`. -/
def halfMap : BMap := ⟨1, 1, 0, 0, [[1, -2, 0]], []⟩

/-- isl's answers: `i / 2` where `i` is even. -/
def halfOps : PwOps := ⟨fun _ _ => true, fun _ _ => [⟨[⟨0, 1, 1, 0, [[1, -2, 0]], []⟩], ⟨1, 0, [1 / 2, 0], [], []⟩⟩]⟩

theorem halfMap_has (x y q : List Int) : halfMap.Has x y q ↔ ∃ i, x = [2 * i] ∧ y = [i] ∧ q = [] := by
  constructor
  · rintro ⟨h1, h2, h3, z, h4, h5, -⟩
    obtain ⟨i, rfl⟩ := List.length_eq_one_iff.mp h1
    obtain ⟨a, rfl⟩ := List.length_eq_one_iff.mp h2
    obtain rfl := List.length_eq_zero_iff.mp h3
    obtain rfl := List.length_eq_zero_iff.mp h4
    simp [halfMap, aff, dot] at h5
    exact ⟨a, by congr 1; omega, rfl, rfl⟩
  · rintro ⟨i, rfl, rfl, rfl⟩
    refine ⟨rfl, rfl, rfl, [], rfl, ?_, by simp [halfMap]⟩
    simp [halfMap, aff, dot]

theorem halfOps_ok : halfOps.OKFor halfMap := by
  refine ⟨fun i hi => ⟨fun _ x y y' q h h' => ?_, fun _ => rfl⟩, fun i hi _ x y q h => ?_, fun i hi _ pc hpc x y q h _ => ?_, fun i hi pc hpc => ?_⟩
  · obtain ⟨a, rfl, rfl, -⟩ := (halfMap_has _ _ _).mp h
    obtain ⟨b, hb, rfl, -⟩ := (halfMap_has _ _ _).mp h'
    simp only [List.cons.injEq, and_true] at hb
    rw [show a = b by omega]
  · obtain ⟨a, rfl, rfl, rfl⟩ := (halfMap_has _ _ _).mp h
    exact ⟨_, List.mem_singleton.mpr rfl, _, List.mem_singleton.mpr rfl, rfl, rfl, rfl, [a], rfl, by simp [aff, dot], by simp⟩
  · obtain ⟨a, rfl, rfl, rfl⟩ := (halfMap_has _ _ _).mp h
    have hi : i < 1 := hi
    obtain rfl : i = 0 := by omega
    obtain rfl := List.mem_singleton.mp hpc
    exact ⟨a, rfl, by simp [IslAff.value, ldot, divValues]⟩
  · obtain rfl := List.mem_singleton.mp hpc
    exact ⟨rfl, rfl, rfl⟩

/-- C74 fails for rational coefficients: their denominators are dropped. The matrix for an access to element `i / 2`
says element `i`. -/
theorem C74_violated_rational : ∃ (P : PwOps) (b : BMap) (rows : List (List Int)) (x y : List Int), P.OKFor b ∧ P.single b 0 = true ∧
    (∃ pc, P.pieces b 0 = [pc] ∧ pc.aff.divs = []) ∧ accRows P b = some rows ∧ b.Has x y [] ∧ rows.map (fun r => dot r (x ++ [1])) ≠ y :=
  ⟨halfOps, halfMap, [[1, 0]], [4], [2], halfOps_ok, rfl, ⟨_, rfl, rfl⟩, by decide +kernel, (halfMap_has _ _ _).mpr ⟨2, rfl, rfl, rfl⟩, by decide⟩

/-- `{ [i] -> [a] : a = floor(i / 2) }` -/
def floorMap : BMap := ⟨1, 1, 0, 0, [], [[1, -2, 0], [-1, 2, 1]]⟩

/-- isl's answers: the integer division. -/
def floorOps : PwOps := ⟨fun _ _ => true, fun _ _ => [⟨[anyPoint], ⟨1, 0, [0, 0], [⟨[1, 0], 2⟩], [1]⟩⟩]⟩

theorem floorMap_has (x y q : List Int) : floorMap.Has x y q ↔ ∃ i, x = [i] ∧ y = [i / 2] ∧ q = [] := by
  constructor
  · rintro ⟨h1, h2, h3, z, h4, -, h5⟩
    obtain ⟨i, rfl⟩ := List.length_eq_one_iff.mp h1
    obtain ⟨a, rfl⟩ := List.length_eq_one_iff.mp h2
    obtain rfl := List.length_eq_zero_iff.mp h3
    obtain rfl := List.length_eq_zero_iff.mp h4
    simp [floorMap, aff, dot] at h5
    exact ⟨i, rfl, by congr 1; omega, rfl⟩
  · rintro ⟨i, rfl, rfl, rfl⟩
    refine ⟨rfl, rfl, rfl, [], rfl, by simp [floorMap], ?_⟩
    simp [floorMap, aff, dot]
    omega

theorem floorOps_ok : floorOps.OKFor floorMap := by
  refine ⟨fun i hi => ⟨fun _ x y y' q h h' => ?_, fun _ => rfl⟩, fun i hi _ x y q h => ?_, fun i hi _ pc hpc x y q h _ => ?_, fun i hi pc hpc => ?_⟩
  · obtain ⟨a, rfl, rfl, -⟩ := (floorMap_has _ _ _).mp h
    obtain ⟨b, hb, rfl, -⟩ := (floorMap_has _ _ _).mp h'
    simp only [List.cons.injEq, and_true] at hb
    rw [hb]
  · obtain ⟨a, rfl, rfl, rfl⟩ := (floorMap_has _ _ _).mp h
    exact ⟨_, List.mem_singleton.mpr rfl, anyPoint, List.mem_singleton.mpr rfl, anyPoint_has a⟩
  · obtain ⟨a, rfl, rfl, rfl⟩ := (floorMap_has _ _ _).mp h
    have hi : i < 1 := hi
    obtain rfl : i = 0 := by omega
    obtain rfl := List.mem_singleton.mp hpc
    exact ⟨a / 2, rfl, by simp [IslAff.value, ldot, divValues, dot]⟩
  · obtain rfl := List.mem_singleton.mp hpc
    exact ⟨rfl, rfl, rfl⟩

/-- C74 fails for integer divisions: the matrix for an access to element `i / 2` (rounded down) says element 0. -/
theorem C74_violated_floor : ∃ (P : PwOps) (b : BMap) (rows : List (List Int)), P.OKFor b ∧ P.single b 0 = true ∧ (P.pieces b 0).length = 1 ∧
    accRows P b = some rows ∧ (∀ i : Int, b.Has [i] [i / 2] []) ∧ ∀ i : Int, rows.map (fun r => dot r ([i] ++ [1])) = [0] := by
  refine ⟨floorOps, floorMap, [[0, 0]], floorOps_ok, rfl, rfl, by decide +kernel, fun i => (floorMap_has _ _ _).mpr ⟨i, rfl, rfl, rfl⟩, fun i => ?_⟩
  simp [dot]

/-- `{ [i] -> [a] : a >= 0, a >= i, 2 a <= i + 1 }`, that is `a = max(i, 0)` for `-1 ≤ i ≤ 1`. -/
def maxMap : BMap := ⟨1, 1, 0, 0, [], [[0, 1, 0], [-1, 1, 0], [1, -2, 1]]⟩

/-- isl's answers: `i` where `i ≥ 1`, `0` where `i ≤ 0`. -/
def maxOps : PwOps := ⟨fun _ _ => true, fun _ _ => [⟨[⟨0, 1, 0, 0, [], [[1, -1]]⟩], ⟨1, 0, [1, 0], [], []⟩⟩, ⟨[⟨0, 1, 0, 0, [], [[-1, 0]]⟩], ⟨1, 0, [0, 0], [], []⟩⟩]⟩

theorem maxMap_has (x y q : List Int) : maxMap.Has x y q ↔ ∃ i, x = [i] ∧ y = [max i 0] ∧ q = [] ∧ -1 ≤ i ∧ i ≤ 1 := by
  constructor
  · rintro ⟨h1, h2, h3, z, h4, -, h5⟩
    obtain ⟨i, rfl⟩ := List.length_eq_one_iff.mp h1
    obtain ⟨a, rfl⟩ := List.length_eq_one_iff.mp h2
    obtain rfl := List.length_eq_zero_iff.mp h3
    obtain rfl := List.length_eq_zero_iff.mp h4
    simp [maxMap, aff, dot] at h5
    exact ⟨i, rfl, by congr 1; omega, rfl, by omega, by omega⟩
  · rintro ⟨i, rfl, rfl, rfl, h1, h2⟩
    refine ⟨rfl, rfl, rfl, [], rfl, by simp [maxMap], ?_⟩
    simp [maxMap, aff, dot]
    omega

theorem maxOps_ok : maxOps.OKFor maxMap := by
  have hpos : ∀ i : Int, (⟨0, 1, 0, 0, [], [[1, -1]]⟩ : BMap).Has [] [i] [] ↔ 1 ≤ i := fun i => by
    constructor
    · rintro ⟨-, -, -, z, h4, -, h5⟩
      obtain rfl := List.length_eq_zero_iff.mp h4
      simp [aff, dot] at h5
      omega
    · intro h
      refine ⟨rfl, rfl, rfl, [], rfl, by simp, ?_⟩
      simp [aff, dot]
      omega
  have hneg : ∀ i : Int, (⟨0, 1, 0, 0, [], [[-1, 0]]⟩ : BMap).Has [] [i] [] ↔ i ≤ 0 := fun i => by
    constructor
    · rintro ⟨-, -, -, z, h4, -, h5⟩
      obtain rfl := List.length_eq_zero_iff.mp h4
      simpa [aff, dot] using h5
    · intro h
      refine ⟨rfl, rfl, rfl, [], rfl, by simp, ?_⟩
      simpa [aff, dot] using h
  refine ⟨fun i hi => ⟨fun _ x y y' q h h' => ?_, fun _ => rfl⟩, fun i hi _ x y q h => ?_, fun i hi _ pc hpc x y q h hc => ?_, fun i hi pc hpc => ?_⟩
  · obtain ⟨a, rfl, rfl, -⟩ := (maxMap_has _ _ _).mp h
    obtain ⟨b, hb, rfl, -⟩ := (maxMap_has _ _ _).mp h'
    simp only [List.cons.injEq, and_true] at hb
    rw [hb]
  · obtain ⟨a, rfl, rfl, rfl, -⟩ := (maxMap_has _ _ _).mp h
    by_cases ha : 1 ≤ a
    · exact ⟨_, List.mem_cons_self, _, List.mem_singleton.mpr rfl, (hpos a).mpr ha⟩
    · exact ⟨_, List.mem_cons_of_mem _ (List.mem_singleton.mpr rfl), _, List.mem_singleton.mpr rfl, (hneg a).mpr (by omega)⟩
  · obtain ⟨a, rfl, rfl, rfl, -⟩ := (maxMap_has _ _ _).mp h
    have hi : i < 1 := hi
    obtain rfl : i = 0 := by omega
    obtain ⟨s, hs, hc⟩ := hc
    simp only [maxOps, List.mem_cons, List.not_mem_nil, or_false] at hpc
    rcases hpc with rfl | rfl
    · obtain rfl := List.mem_singleton.mp hs
      have ha := (hpos a).mp hc
      exact ⟨a, by simp; omega, by simp [IslAff.value, ldot, divValues]⟩
    · obtain rfl := List.mem_singleton.mp hs
      have ha := (hneg a).mp hc
      exact ⟨0, by simp; omega, by simp [IslAff.value, ldot, divValues]⟩
  · simp only [maxOps, List.mem_cons, List.not_mem_nil, or_false] at hpc
    rcases hpc with rfl | rfl <;> exact ⟨rfl, rfl, rfl⟩

/-- C74 fails for an expression with several pieces: the row of the last piece is used everywhere. The matrix for an
access to element `max(i, 0)` says element 0 also at `i = 1`. -/
theorem C74_violated_pieces : ∃ (P : PwOps) (b : BMap) (rows : List (List Int)), P.OKFor b ∧ P.single b 0 = true ∧
    (∀ pc ∈ P.pieces b 0, pc.aff.Integral) ∧ accRows P b = some rows ∧ mapFunc P b = some rows ∧
    ∃ x y, b.Has x y [] ∧ rows.map (fun r => dot r (x ++ [1])) ≠ y :=
  ⟨maxOps, maxMap, [[0, 0]], maxOps_ok, rfl, by
    intro pc hpc
    simp only [maxOps, List.mem_cons, List.not_mem_nil, or_false] at hpc
    rcases hpc with rfl | rfl <;> exact ⟨rfl, rfl, by decide⟩, by decide +kernel, by decide +kernel, [1], [1], (maxMap_has _ _ _).mpr ⟨1, rfl, rfl, rfl, by omega, by omega⟩, by decide⟩

/-- `{ [i] -> [a] : a = i, 0 <= b <= 1 }`: the element and its right neighbour in the second dimension. -/
def twoMap : BMap := ⟨1, 2, 0, 0, [[1, -1, 0, 0]], [[0, 0, 1, 0], [0, 0, -1, 1]]⟩

/-- isl's answers: only the first dimension is single-valued. -/
def twoOps : PwOps := ⟨fun _ i => i == 0, fun _ i => if i = 0 then [⟨[anyPoint], ⟨1, 0, [1, 0], [], []⟩⟩] else []⟩

theorem twoMap_has (x y q : List Int) : twoMap.Has x y q ↔ ∃ i b, x = [i] ∧ y = [i, b] ∧ q = [] ∧ 0 ≤ b ∧ b ≤ 1 := by
  constructor
  · rintro ⟨h1, h2, h3, z, h4, h5, h6⟩
    obtain ⟨i, rfl⟩ := List.length_eq_one_iff.mp h1
    obtain ⟨a, b, rfl⟩ := List.length_eq_two.mp h2
    obtain rfl := List.length_eq_zero_iff.mp h3
    obtain rfl := List.length_eq_zero_iff.mp h4
    simp [twoMap, aff, dot] at h5 h6
    refine ⟨i, b, rfl, ?_, rfl, by omega, by omega⟩
    simp only [List.cons.injEq, and_true]
    omega
  · rintro ⟨i, b, rfl, rfl, rfl, h1, h2⟩
    refine ⟨rfl, rfl, rfl, [], rfl, by simp [twoMap, aff, dot], ?_⟩
    simp [twoMap, aff, dot]
    omega

theorem twoOps_ok : twoOps.OKFor twoMap := by
  refine ⟨fun i hi => ?_, fun i hi hs x y q h => ?_, fun i hi hs pc hpc x y q h _ => ?_, fun i hi pc hpc => ?_⟩
  · have hi : i < 2 := hi
    interval_cases i
    · refine ⟨fun _ x y y' q h h' => ?_, fun _ => rfl⟩
      obtain ⟨a, b, rfl, rfl, -⟩ := (twoMap_has _ _ _).mp h
      obtain ⟨a', b', ha, rfl, -⟩ := (twoMap_has _ _ _).mp h'
      simp only [List.cons.injEq, and_true] at ha
      rw [ha]; rfl
    · refine ⟨fun h => by simp [twoOps] at h, fun h => ?_⟩
      have := h [0] [0, 0] [0, 1] [] ((twoMap_has _ _ _).mpr ⟨0, 0, rfl, rfl, rfl, by omega, by omega⟩) ((twoMap_has _ _ _).mpr ⟨0, 1, rfl, rfl, rfl, by omega, by omega⟩)
      simp at this
  · obtain rfl : i = 0 := by simpa [twoOps] using hs
    obtain ⟨a, b, rfl, rfl, rfl, -⟩ := (twoMap_has _ _ _).mp h
    exact ⟨_, List.mem_singleton.mpr rfl, anyPoint, List.mem_singleton.mpr rfl, anyPoint_has a⟩
  · obtain rfl : i = 0 := by simpa [twoOps] using hs
    obtain ⟨a, b, rfl, rfl, rfl, -⟩ := (twoMap_has _ _ _).mp h
    obtain rfl := List.mem_singleton.mp hpc
    exact ⟨a, rfl, by simp [IslAff.value, ldot, divValues]⟩
  · have hi : i < 2 := hi
    interval_cases i
    · obtain rfl := List.mem_singleton.mp hpc
      exact ⟨rfl, rfl, rfl⟩
    · simp [twoOps] at hpc

/-- C74 fails for a dimension with several values that is not the first: its zero row is put in front of the others,
so the first row does not give the first subscript, which is known to be `i`. -/
theorem C74_violated_order : ∃ (P : PwOps) (b : BMap) (rows : List (List Int)), P.OKFor b ∧ P.AffineDim b 0 ∧ accRows P b = some rows ∧
    (∀ x y, b.Has x y [] → y[0]? = x[0]?) ∧ ∃ x y, b.Has x y [] ∧ (rows.map (fun r => dot r (x ++ [1])))[0]? ≠ y[0]? := by
  refine ⟨twoOps, twoMap, [[0, 0], [1, 0]], twoOps_ok, ⟨rfl, _, rfl, rfl, rfl, by decide⟩, by decide +kernel, ?_,
    [3], [3, 0], (twoMap_has _ _ _).mpr ⟨3, 0, rfl, rfl, rfl, by omega, by omega⟩, by decide⟩
  intro x y h
  obtain ⟨a, b, rfl, rfl, -⟩ := (twoMap_has _ _ _).mp h
  rfl

/-- An access relation without points. -/
def noMap : BMap := ⟨1, 1, 0, 0, [], [[0, 0, -1]]⟩

/-- C74 fails for an empty access relation: it is single-valued but has no pieces, and the missing row is
dereferenced. -/
theorem C74_violated_empty : ∃ (P : PwOps) (b : BMap), P.OKFor b ∧ accRows P b = none ∧ mapFunc P b = none := by
  have hno : ∀ x y q, ¬ noMap.Has x y q := by
    rintro x y q ⟨h1, h2, h3, z, h4, -, h6⟩
    obtain ⟨i, rfl⟩ := List.length_eq_one_iff.mp h1
    obtain ⟨a, rfl⟩ := List.length_eq_one_iff.mp h2
    obtain rfl := List.length_eq_zero_iff.mp h3
    obtain rfl := List.length_eq_zero_iff.mp h4
    simp [noMap, aff, dot] at h6
  refine ⟨⟨fun _ _ => true, fun _ _ => []⟩, noMap, ⟨fun i _ => ⟨fun _ x y y' q h => absurd h (hno _ _ _), fun _ => rfl⟩,
    fun i _ _ x y q h => absurd h (hno _ _ _), fun i _ _ pc hpc => by simp at hpc, fun i _ pc hpc => by simp at hpc⟩, by decide +kernel, by decide +kernel⟩

/-- isl's answers for the schedule of `for (i = 0; i < N; i++) A[i + 1] = A[i];`. -/
def chainPw : PwOps := ⟨fun _ _ => true, fun _ _ => [⟨[chainStmt.domain], ⟨1, 1, [1, 0, 0], [], []⟩⟩]⟩

theorem chainPw_ok : chainPw.OKFor chainStmt.sched := by
  refine ⟨fun i hi => ⟨fun _ x y y' q h h' => ?_, fun _ => rfl⟩, fun i hi _ x y q h => ?_, fun i hi _ pc hpc x y q h _ => ?_, fun i hi pc hpc => ?_⟩
  · obtain ⟨a, n, -, rfl, rfl, -⟩ := (chain_sched _ _ _).mp h
    obtain ⟨b, n, -, hb, rfl, -⟩ := (chain_sched _ _ _).mp h'
    simp only [List.cons.injEq, and_true] at hb
    rw [hb]
  · obtain ⟨a, n, rfl, rfl, rfl, h1, h2⟩ := (chain_sched _ _ _).mp h
    exact ⟨_, List.mem_singleton.mpr rfl, _, List.mem_singleton.mpr rfl, (chain_dom _ _).mpr ⟨a, n, rfl, rfl, h1, h2⟩⟩
  · obtain ⟨a, n, rfl, rfl, rfl, h1, h2⟩ := (chain_sched _ _ _).mp h
    have hi : i < 1 := hi
    obtain rfl : i = 0 := by omega
    obtain rfl := List.mem_singleton.mp hpc
    exact ⟨a, rfl, by simp [IslAff.value, ldot, divValues]⟩
  · obtain rfl := List.mem_singleton.mp hpc
    exact ⟨rfl, rfl, rfl⟩

/-- C74, a case for `C74_times_partial` and `C74_initial_legal_partial`: the program made from the loop above has a
dependence and is legal. -/
example : ∃ ds, petToProg simpleOps chainOps ⟨true, false, false⟩ true (fun _ => [[1, 0, 0]]) 1 [chainStmt] = some (chainProg, ds) ∧
    chainProg.Legal ∧ chainProg.deps ≠ [] := by
  have h : (petToProg simpleOps chainOps ⟨true, false, false⟩ true (fun _ => [[1, 0, 0]]) 1 [chainStmt]).map (·.1) = some chainProg := by decide +kernel
  obtain ⟨⟨p, ds⟩, h1, h2⟩ := Option.map_eq_some_iff.mp h
  simp only at h2
  subst h2
  have e : computeDeps chainOps ⟨true, false, false⟩ true (petReads [chainStmt]) (petWrites [chainStmt]) (petTimes [chainStmt]) =
      some ⟨[chainNext], [], [], none, some [], some []⟩ := by decide +kernel
  have hl := C74_initial_legal_partial chainPw simpleOps simpleOps_ok chainOps ⟨true, false, false⟩ true (fun _ => [[1, 0, 0]]) 1 [chainStmt]
    (by rw [chain_live]; exact chain_ok)
    (by
      rw [chain_live]
      intro s hs
      obtain rfl := List.mem_singleton.mp hs
      decide +kernel)
    (by
      rw [chain_live]
      intro s hs
      obtain rfl := List.mem_singleton.mp hs
      exact ⟨chainPw_ok, fun i hi => ⟨rfl, _, rfl, rfl, rfl, by decide⟩, [0], [0], [1], (chain_sched _ _ _).mpr ⟨0, 1, rfl, rfl, rfl, by omega, by omega⟩⟩)
    (by rw [chain_live]; decide)
    (by rw [chain_live]; exact chainOps_ok)
    (by
      rw [chain_live]
      intro d hd
      rw [e] at hd
      cases hd
      refine ⟨fun d hd => ?_, fun d hd => by simp at hd, fun d hd => by simp at hd⟩
      obtain rfl := List.mem_singleton.mp hd
      exact ⟨⟨by decide, by decide⟩, rfl, 0, 0, true, false, 0, 0, chainStmt, chainStmt, rfl, rfl, rfl, rfl, rfl, rfl, by decide, by decide, rfl⟩)
    (by
      rw [chain_live]
      intro d hd
      rw [e] at hd
      cases hd
      decide)
    chainProg ds h1
  exact ⟨ds, h1, hl, by decide⟩

end Pluto
