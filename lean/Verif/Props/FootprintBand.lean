import Verif.Props.Footprint

/-! C85: the root found for a band. -/

namespace Pluto

/-- C85 (missing: what `C85_fits_partial` leaves out). The root found for a band is that for the loops from the first level
of the band inwards and the different accesses of its statements: with it the elements touched by a tile fit into the
cache of the given size, and with the next larger value they do not. -/
theorem C85_band_partial (c : FootCfg) (A : Accs) (cache : Nat) (p : Prog) (b : Band) (r : Nat) (base : Nat → Int)
    (h : reuseRoot c A cache p b = some r) (loops : List Loop) (hl : getLoopsUnder p b.loop.stmts b.loop.depth = some loops)
    (accs : List Access) (ha : uniqueAccesses p A b.loop.stmts = some accs)
    (hd : ∀ poly, volumePoly c (loops.map (·.depth)) (accs.map (·.mat)) cache = some poly → 2 ≤ poly.length ∧ poly.length ≤ 3)
    (hm : ∀ a ∈ accs, ∃ l t, SimpleSubscripts (loops.map (·.depth)) a.mat (l :: t) ∧ StartsProduct c l ∧ ∀ l ∈ loops.map (·.depth), l < a.mat.ncols)
    (hn : (loops.map (·.depth)).Nodup) (hr : ∀ l ∈ loops, l.depth - c.depth < c.reuse.length) (hp : ∀ l ∈ loops, 0 < tileLen c r l.depth) :
    (accs.map (fun a => (tileElems (loops.map (·.depth)) (tileLen c r) base a.mat.rows).ncard)).sum ≤ cache ∧
    cache < (accs.map (fun a => (tileElems (loops.map (·.depth)) (tileLen c (r + 1)) base a.mat.rows).ncard)).sum := by
  unfold reuseRoot at h
  simp only [hl, ha, Option.bind_eq_bind, Option.bind_some] at h
  obtain ⟨poly, hv, hs⟩ := Option.bind_eq_some_iff.mp h
  have := C85_fits_partial c (loops.map (·.depth)) (accs.map (·.mat)) cache poly r base hv hs (hd poly hv).1 (hd poly hv).2
    (by
      intro m hm'
      obtain ⟨a, ha', rfl⟩ := List.mem_map.mp hm'
      exact hm a ha') hn
    (by
      intro l hl'
      obtain ⟨a, ha', rfl⟩ := List.mem_map.mp hl'
      exact hr a ha')
    (by
      intro l hl'
      obtain ⟨a, ha', rfl⟩ := List.mem_map.mp hl'
      exact hp a ha')
  rw [List.map_map, List.map_map] at this
  exact this

/-- Three loops, the band being the inner two. -/
def exFootBand : Prog where
  nvar := 3
  npar := 0
  stmts := [⟨3, 3, ⟨4, []⟩, [true, true, true], [[1, 0, 0, 0], [0, 1, 0, 0], [0, 0, 1, 0]], [.loop, .loop, .loop]⟩]
  deps := []
  hProps := [.loop, .loop, .loop]

/-- C85, a case for `C85_band_partial`: `A[j][k]` with `k` the vector dimension and reuse 2 along `j`. -/
example : reuseRoot ⟨[2, 1], 1, 3, false, 1⟩ (fun _ => [⟨0, ⟨4, [[0, 1, 0, 0], [0, 0, 1, 0]]⟩⟩]) 65536 exFootBand ⟨⟨1, [0]⟩, 2⟩ = some 64 ∧
    getLoopsUnder exFootBand [0] 1 = some [⟨2, [0]⟩, ⟨1, [0]⟩] ∧
    uniqueAccesses exFootBand (fun _ => [⟨0, ⟨4, [[0, 1, 0, 0], [0, 0, 1, 0]]⟩⟩]) [0] = some [⟨0, ⟨4, [[0, 1, 0, 0], [0, 0, 1, 0]]⟩⟩] ∧
    volumePoly ⟨[2, 1], 1, 3, false, 1⟩ [2, 1] [⟨4, [[0, 1, 0, 0], [0, 0, 1, 0]]⟩] 65536 = some [-65536, 1024] ∧
    SimpleSubscripts [2, 1] ⟨4, [[0, 1, 0, 0], [0, 0, 1, 0]]⟩ [1, 2] ∧ StartsProduct ⟨[2, 1], 1, 3, false, 1⟩ 1 ∧
    (∀ l ∈ [2, 1], 0 < tileLen ⟨[2, 1], 1, 3, false, 1⟩ 64 l) := by
  refine ⟨by decide +kernel, by decide +kernel, by decide +kernel, by decide +kernel, ⟨?_, by decide, by decide⟩, by decide, by decide⟩
  exact .cons (by decide) (.cons (by decide) .nil)

end Pluto
