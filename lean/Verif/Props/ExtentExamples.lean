import Verif.Props.ExtentBox

/-! C78: where the printed extents are wrong, and cases in which the hypotheses of the theorems hold. -/

namespace Pluto

/-- `N - 3 <= x <= 2*N`. -/
def exSkewed : Cst := ⟨3, [⟨false, [1, -1, 3]⟩, ⟨false, [-1, 2, 0]⟩]⟩

/-- C78 is violated: the extent of `x` in `N - 3 <= x <= 2*N` is printed as `+2*N - +1*N-3 + 1`, which is `N - 2` (8 for `N = 10`); there are `N + 4`
values (14 for `N = 10`). -/
theorem C78_violated_difference (proj : Cst → Nat → Nat → Cst) : exSkewed.WF ∧
    ∃ e, getParametricExtent proj exSkewed 0 1 = some e ∧ (∀ n, e.value [n] = n - 2) ∧
      BlockPoints exSkewed 1 [10] [] ((List.range' 7 14).map (fun v : Nat => [(v : Int)])) ∧ e.value [10] < 14 := by
  refine ⟨by decide, .diff (.one (.lin [.par 2 0])) (.one (.lin [.par 1 0, .num (-3)])), ?_, ?_, ?_, by decide⟩
  · rfl
  · intro n
    simp [CExtent.value, CBound.value, CBound.first, CBound.others, CExpr.value, CExpr.first, CExpr.others, termsValue, CTerm.value]
    ring
  · refine ⟨by decide, fun t ht => ?_⟩
    obtain ⟨v, hv, rfl⟩ := List.mem_map.mp ht
    refine ⟨rfl, [], rfl, ?_⟩
    simp only [List.mem_range'_1] at hv
    simp [exSkewed, Cst.Sat, Row.Sat, aff, dot]
    omega

/-- C78 is violated: for the equality `-x + N = 0` an assertion fails. -/
theorem C78_violated_equality (proj : Cst → Nat → Nat → Cst) :
    (⟨3, [⟨true, [-1, 1, 0]⟩]⟩ : Cst).WF ∧ (∀ n : Int, (⟨3, [⟨true, [-1, 1, 0]⟩]⟩ : Cst).Sat [n, n]) ∧
    getLbUbExpr proj ⟨3, [⟨true, [-1, 1, 0]⟩]⟩ 0 1 = none := by
  refine ⟨by decide, ?_, rfl⟩
  intro n
  simp [Cst.Sat, Row.Sat, aff, dot]

/-- `0 <= x <= N - 1` or `10 <= x <= N - 1`. -/
def exTwoParts : List Cst := [⟨3, [⟨false, [1, 0, 0]⟩, ⟨false, [-1, 1, -1]⟩]⟩, ⟨3, [⟨false, [1, 0, -10]⟩, ⟨false, [-1, 1, -1]⟩]⟩]

/-- C78 is violated for unions: a part that is empty for some parameters counts as a negative number of points. For `N = 3` the box of
`exTwoParts` has the size -4 although there are three points. -/
theorem C78_violated_union : ∃ box, getBoundingBox fmProj exTwoParts 0 1 1 = some box ∧ boxValue [3] box = -4 ∧
    ([[0], [1], [2]] : List (List Int)).Nodup ∧ ∀ t ∈ ([[0], [1], [2]] : List (List Int)), ∃ c ∈ exTwoParts, BlockPoints c 1 [3] [] [t] := by
  have h : getBoundingBox fmProj exTwoParts 0 1 1 = some [[.diff (.one (.lin [.par 1 0, .num (-1)])) (.one (.lin [.num 0]))],
    [.diff (.one (.lin [.par 1 0, .num (-1)])) (.one (.lin [.num 10]))]] := by decide +kernel
  refine ⟨_, h, by decide, by decide, fun t ht => ⟨_, List.mem_cons_self, by simp, fun t' ht' => ?_⟩⟩
  rw [List.mem_singleton.mp ht']
  simp only [List.mem_cons, List.not_mem_nil, or_false] at ht
  rcases ht with rfl | rfl | rfl <;> exact ⟨rfl, [], rfl, by simp [Cst.Sat, Row.Sat, aff, dot]⟩

/-- `0 <= i <= N - 1`, `i <= j <= i + 7`, `2*j <= M`. -/
def exTrap : Cst :=
  ⟨5, [⟨false, [1, 0, 0, 0, 0]⟩, ⟨false, [-1, 0, 1, 0, -1]⟩, ⟨false, [-1, 1, 0, 0, 0]⟩, ⟨false, [1, -1, 0, 0, 7]⟩, ⟨false, [0, -2, 0, 1, 0]⟩]⟩

/-- The printed upper bound of `j` in `exTrap`: `min(floord(+1*M, 2), +1*N+6)`. -/
def exUb : CBound := .fn false (.floorDiv [.par 1 1] 2) (.one (.lin [.par 1 0, .num 6]))

/-- Hypotheses of `C78_bounds`, `C78_extent_value_partial` and `C78_extent_partial` met: `j` in `exTrap` for `N = 10`, `M = 9`, `i = 2`. -/
example : ProjOracle fmProj ∧ exTrap.WF ∧ getLbUbExpr fmProj exTrap 1 2 = some (.one (.lin [.num 0]), exUb) ∧
    (CBound.one (.lin [.num 0])).Single ∧ exUb.value [10, 9] = 4 ∧ exUb.value [3, 40] = 9 ∧
    (getParametricExtent fmProj exTrap 1 2).map (CExtent.value [10, 9]) = some 5 ∧
    BlockPoints exTrap 1 [10, 9] [2] (([2, 3, 4] : List Int).map ([·])) := by
  refine ⟨fmProj_ok, by decide, by decide +kernel, by simp [CBound.Single], by decide, by decide, by decide +kernel, by decide, fun t ht => ?_⟩
  simp only [List.map_cons, List.map_nil, List.mem_cons, List.not_mem_nil, or_false] at ht
  rcases ht with rfl | rfl | rfl <;> exact ⟨rfl, [], rfl, by simp [exTrap, Cst.Sat, Row.Sat, aff, dot]⟩

/-- Hypotheses of `C78_bounds_exact` met: `0 <= x`, `3*x <= N`, and the condition `N >= 5` on the parameter. -/
example : (⟨3, [⟨false, [1, 0, 0]⟩, ⟨false, [-3, 1, 0]⟩, ⟨false, [0, 1, -5]⟩]⟩ : Cst).WF ∧
    getLbUbExpr fmProj ⟨3, [⟨false, [1, 0, 0]⟩, ⟨false, [-3, 1, 0]⟩, ⟨false, [0, 1, -5]⟩]⟩ 0 1 =
      some (.one (.lin [.num 0]), .one (.floorDiv [.par 1 0] 3)) ∧
    ∀ r ∈ [(⟨false, [1, 0, 0]⟩ : Row), ⟨false, [-3, 1, 0]⟩, ⟨false, [0, 1, -5]⟩], coef r.val 0 = 0 → r.Sat ((0 : Int) :: [7]) := by
  refine ⟨by decide, by decide +kernel, ?_⟩
  simp [coef, Row.Sat, aff, dot]

/-- Hypotheses of `C78_extent_const_partial` and `C78_box_partial` met: the box of `exTrap` is
`(min(floord(+1*M, 2), +1*N-1) - 0 + 1) * 8`, that is 40 for `N = 10`, `M = 9`; points are (0, 0), (0, 4), (2, 3). -/
example : (∀ k < 2, PlainDim fmProj exTrap (0 + k) 2) ∧ getExtentConst fmProj exTrap 1 2 = some (.num 8) ∧
    ∃ box, getBoundingBox fmProj [exTrap] 0 2 2 = some box ∧ (∀ es ∈ box, ∀ e ∈ es, 0 ≤ e.value [10, 9]) ∧ boxValue [10, 9] box = 40 ∧
      ∀ t ∈ ([[0, 0], [0, 4], [2, 3]] : List (List Int)), ∃ c ∈ [exTrap], BlockPoints c 2 [10, 9] [] [t] := by
  have h : getBoundingBox fmProj [exTrap] 0 2 2 =
      some [[.diff (.fn false (.floorDiv [.par 1 1] 2) (.one (.lin [.par 1 0, .num (-1)]))) (.one (.lin [.num 0])), .num 8]] := by decide +kernel
  refine ⟨?_, by decide +kernel, _, h, by decide, by decide, fun t ht => ⟨_, List.mem_cons_self, by simp, fun t' ht' => ?_⟩⟩
  · intro k hk
    have hs : ∀ k < 2, (getLbUbExpr fmProj exTrap (0 + k) 2).map Prod.fst = some (.one (.lin [.num 0])) := by decide +kernel
    refine ⟨⟨1, by decide, ?_⟩, fun lb ub he => ?_⟩
    · revert k
      decide +kernel
    · have := hs k hk
      rw [he] at this
      obtain rfl : lb = _ := Option.some.inj this
      simp [CBound.Single]
  · rw [List.mem_singleton.mp ht']
    simp only [List.mem_cons, List.not_mem_nil, or_false] at ht
    rcases ht with rfl | rfl | rfl <;> exact ⟨rfl, [], rfl, by simp [exTrap, Cst.Sat, Row.Sat, aff, dot]⟩

end Pluto
