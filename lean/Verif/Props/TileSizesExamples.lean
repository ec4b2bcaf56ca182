import Verif.Props.TileFind
import Verif.Props.TileBands
import Verif.Props.ReuseExamples

/-! Violations and examples for C70. -/

namespace Pluto

/-- The file shown in README.md: a comment, three sizes, a comment, three ratios. -/
def readmeFile : SizeFile := ⟨[none, some 8, some 128, some 8, none, some 16, some 2, some 16], true⟩

/-- C70 is violated for the file that README.md shows: the comment in its first line is never skipped, so that none of its numbers is
read; `read_tile_sizes` reports success and the default sizes are used for both levels. -/
theorem C70_violated_comment : ∃ (p : Prog) (bands : List Band), p.OK ∧ BandsOK p bands ∧ p.hProps.length = 3 ∧ bands = [⟨⟨0, [0]⟩, 3⟩] ∧
    (∀ b ∈ bands, readTileSizes (some readmeFile) (-1) (-1) p b (defaultSizes p) = some (([32, 32, 32], [8, 8, 8]), true)) ∧
    ∀ second, tileScatteringWith (readSelect (some readmeFile) (-1) (-1)) second p bands = tileScatteringWith (readSelect none (-1) (-1)) second p bands := by
  refine ⟨exMatmul, [⟨⟨0, [0]⟩, 3⟩], by decide +kernel, by constructor <;> decide +kernel, rfl, rfl, by decide +kernel, ?_⟩
  intro second
  cases second <;> decide +kernel

/-- The same for every file that begins with text and every band: nothing is read, and success is reported. -/
theorem C70_violated_text (f : SizeFile) (rest : List (Option Int)) (hf : f.toks = none :: rest) (isLoop : Nat → Option Bool) :
    ∀ (n i : Nat) (sizes : List Int), i + n ≤ sizes.length → (∀ k, isLoop k = some true) →
      readSizes f.blankEnd isLoop n i ⟨f.toks, false⟩ sizes = some (i + n, ⟨f.toks, false⟩, sizes) := by
  intro n
  induction n with
  | zero => intro i sizes _ _; rfl
  | succ n ih =>
    intro i sizes h hl
    have hset : sizes.set i (sizes.getD i 0) = sizes := by
      have hi : i < sizes.length := by omega
      rw [List.getD_eq_getElem _ _ hi]
      exact List.set_getElem_self hi
    have hs : scanInt f.blankEnd ⟨f.toks, false⟩ = (none, ⟨f.toks, false⟩) := by rw [hf]; rfl
    have e := ih (i + 1) sizes (by omega) hl
    rw [show i + (n + 1) = i + 1 + n by omega, ← e]
    simp only [readSizes, hl, hs, Option.bind_eq_bind, Option.bind_some, Option.getD_none, putAt_some _ (show i < sizes.length by omega), hset]
    rfl

/-- C70 is violated for files with too few numbers, for which the default sizes are meant to be used: with one number for two loops
the first size is overwritten all the same. If the file ends with a newline there is not even a warning: the return value is 1. -/
theorem C70_violated_short : ∃ (p : Prog) (b : Band), p.OK ∧ BandsOK p [b] ∧ b.width = 2 ∧
    readTileSizes (some ⟨[some 7], false⟩) (-1) (-1) p b (defaultSizes p) = some (([7, 32, 32], [8, 8, 8]), false) ∧
    readTileSizes (some ⟨[some 7], true⟩) (-1) (-1) p b (defaultSizes p) = some (([7, 32, 32], [8, 8, 8]), true) :=
  ⟨exTile, ⟨⟨1, [0]⟩, 2⟩, exTile_ok.1, by constructor <;> decide +kernel, rfl, by decide +kernel, by decide +kernel⟩

/-- C70 is violated for files with too few ratios: with one ratio for two levels and a newline at the end, this ratio is used. Without
the newline both ratios are 8. -/
theorem C70_violated_ratios : ∃ (p : Prog) (b : Band), p.OK ∧ BandsOK p [b] ∧ b.width = 2 ∧
    readTileSizes (some ⟨[some 7, some 9, some 4], true⟩) (-1) (-1) p b (defaultSizes p) = some (([7, 9, 32], [4, 8, 8]), true) ∧
    readTileSizes (some ⟨[some 7, some 9, some 4], false⟩) (-1) (-1) p b (defaultSizes p) = some (([7, 9, 32], [8, 8, 8]), true) :=
  ⟨exTile, ⟨⟨1, [0]⟩, 2⟩, exTile_ok.1, by constructor <;> decide +kernel, rfl, by decide +kernel, by decide +kernel⟩

/-- C70 is violated by `--ft` and `--lt`, which are meant to force the levels to be tiled: with both 1 only one size is read, but both
levels of the bands are tiled (two new iterators), the second with the default size. With `--ft=0 --lt=2` a level that does not
exist is looked up, for a band that begins at level 1. -/
theorem C70_violated_force : ∃ (p : Prog) (bands : List Band) (p' : Prog), p.OK ∧ tileBands p = some bands ∧
    tileScatteringWith (readSelect (some ⟨[some 7, some 9], true⟩) 1 1) false p bands = some p' ∧
    tileScatteringDims p bands (fun _ m => if m = 0 then 7 else 32) = some p' ∧
    p.stmts.map (·.dim) = [2, 2] ∧ p'.stmts.map (·.dim) = [4, 4] ∧
    tileScatteringWith (readSelect (some ⟨[some 7, some 9, some 5], true⟩) 0 2) false p bands = none := by
  obtain ⟨p', h1, h2⟩ : ∃ p', tileScatteringDims exTile exBands (fun _ m => if m = 0 then 7 else 32) = some p' ∧ p'.stmts.map (·.dim) = [4, 4] := by
    have : (tileScatteringDims exTile exBands (fun _ m => if m = 0 then 7 else 32)).map (fun p => p.stmts.map (·.dim)) = some [4, 4] := by
      decide +kernel
    exact Option.map_eq_some_iff.mp this
  refine ⟨exTile, exBands, p', exTile_ok.1, by decide +kernel, ?_, h1, by decide +kernel, h2, by decide +kernel⟩
  rw [← h1]
  decide +kernel

/-- A size below 1 in the file is an assertion failure. -/
example : tileScatteringWith (readSelect (some ⟨[some 0, some 9], true⟩) (-1) (-1)) false exTile exBands = none := by decide +kernel

theorem loopsBelow_le (p : Prog) (b : Band) (m : Nat) : p.loopsBelow b m ≤ m := by
  unfold Prog.loopsBelow
  exact List.countP_le_length.trans_eq List.length_range

/-- The hypotheses of `C70_any_file`, `C70_first_level_partial`, `C70_second_level_partial` and `C70_tile_partial` are met by the tiling example
(for those of C50 see there) and a file with four numbers; what is read for the first band. -/
example : exTile.OK ∧ BandsOK exTile exBands ∧ SizeFile.Holds ⟨[some 7, some 9, some 2, some 3], true⟩ [7, 9, 2, 3] ∧
    SizeFile.Positive ⟨[some 7, some 9, some 2, some 3], true⟩ ∧ SizeFile.Positive readmeFile ∧
    (∀ b ∈ exBands, exTile.loopsBelow b b.width + b.width ≤ [(7 : Int), 9, 2, 3].length) ∧
    readTileSizes (some ⟨[some 7, some 9, some 2, some 3], true⟩) (-1) (-1) exTile ⟨⟨1, [0]⟩, 2⟩ (defaultSizes exTile) =
      some (([7, 9, 32], [2, 3, 8]), true) := by
  refine ⟨exTile_ok.1, exTile_ok.2, rfl, ?_, ?_, ?_, by decide +kernel⟩
  · exact SizeFile.Holds.positive (ns := [7, 9, 2, 3]) rfl (by decide)
  · intro v hv
    simp only [readmeFile, List.mem_cons, Option.some.injEq, List.not_mem_nil, or_false, reduceCtorEq, false_or] at hv
    omega
  · intro b hb
    have h2 : b.width = 2 := by
      revert b
      decide
    have := loopsBelow_le exTile b b.width
    simp only [List.length_cons, List.length_nil]
    omega

/-- Those of `C70_ratios_partial`: two numbers, for a band with two loops. -/
example : [(7 : Int), 9].length + (if (⟨[some 7, some 9], true⟩ : SizeFile).blankEnd then 1 else 0) < 2 + 2 ∧
    readTileSizes (some ⟨[some 7, some 9], true⟩) (-1) (-1) exTile ⟨⟨1, [0]⟩, 2⟩ (defaultSizes exTile) = some (([7, 9, 32], [8, 8, 8]), true) ∧
    ∀ m < 2, exTile.LoopLevel ⟨⟨1, [0]⟩, 2⟩ m := by
  refine ⟨by decide, by decide +kernel, fun m hm => ⟨0, by simp, ?_⟩⟩
  have e : ∃ v, scalarAt exTile (1 + m) 0 = some v ∧ v = false := by
    interval_cases m <;> exact ⟨false, by decide +kernel, rfl⟩
  obtain ⟨v, h1, h2⟩ := e
  intro hs
  rw [(scalarAt_iff h1).mpr hs] at h2
  cases h2

/-- Two loops, both of which carry a dependence of the statement on itself. -/
def exSeidel : Prog where
  nvar := 2
  npar := 0
  stmts := [⟨2, 2, ⟨3, []⟩, [true, true], [[1, 0, 0], [0, 1, 0]], [.loop, .loop]⟩]
  deps := [
    ⟨0, 0, false, ⟨5, [⟨true, [-1, 0, 1, 0, -1]⟩, ⟨true, [0, -1, 0, 1, 0]⟩]⟩, ⟨5, []⟩, true, 0, [true, false], [.plus, .zero]⟩,
    ⟨0, 0, false, ⟨5, [⟨true, [-1, 0, 1, 0, 0]⟩, ⟨true, [0, -1, 0, 1, -1]⟩]⟩, ⟨5, []⟩, true, 1, [false, true], [.zero, .plus]⟩]
  hProps := [.loop, .loop]

/-- It meets the conditions of `C70_violated_find`. -/
example : exSeidel.OK ∧ outermostBands exSeidel = some [⟨⟨0, [0]⟩, 2⟩] ∧ parLoopDepth exSeidel ⟨⟨0, [0]⟩, 2⟩ = some 2 := by decide +kernel

/-- Exact arithmetic where it fits. -/
def exArith : SizeArith where
  times a b := if a * b < 2 ^ 32 then some (BitVec.ofNat 32 (a * b)) else none
  ratio a b s := if a * s.toNat / b < 2 ^ 32 then some (BitVec.ofNat 32 (a * s.toNat / b)) else none

/-- The hypotheses of `C70_find_partial`: matrix multiplication, root 12 of the tile volume, unroll factor 8. -/
example : outermostBands exMatmul = some [⟨⟨0, [0]⟩, 3⟩] ∧
    findSizes exArith (fun _ _ => some 12) (fun _ => matmulAccs) true false 8 exMatmul ⟨⟨0, [0]⟩, 3⟩ = some [32, 24, 512] := by decide +kernel

/-- `C70_violated_least` on reuse 2 and 1: the dimension with reuse 2 is taken. -/
example : minReuseDim [2, 1] 2 2 = (0, 2) := by decide

end Pluto
