import Verif.Props.StencilDef
import Verif.Props.Diamond

/-! C77: the two-dimensional loop nests with given dependence distances. -/

namespace Pluto

/-- `S(t + a, i + b)` depends on `S(t, i)`. -/
def distDep (a b : Int) : Dep :=
  ⟨0, 0, false, ⟨5, [⟨true, [-1, 0, 1, 0, -a]⟩, ⟨true, [0, -1, 0, 1, -b]⟩]⟩,
    ⟨5, [⟨true, [-1, 0, 1, 0, -a]⟩, ⟨true, [0, -1, 0, 1, -b]⟩]⟩, false, -1, [], []⟩

/-- A statement in two loops with the given dependence distances. -/
def exNest (l : List (Int × Int)) : Prog :=
  ⟨2, 0, [⟨2, 2, ⟨3, []⟩, [true, true], [[1, 0, 0], [0, 1, 0]], [.loop, .loop]⟩], l.map (fun x => distDep x.1 x.2), [.loop, .loop]⟩

theorem exNest_orig (l : List (Int × Int)) : (exNest l).OrigOK := by
  intro st hst
  rw [List.mem_singleton.mp hst]
  exact ⟨rfl, rfl⟩

theorem exNest_dep (l : List (Int × Int)) : ∀ d ∈ (exNest l).deps, DepOK (exNest l) d := by
  intro d hd
  obtain ⟨x, -, rfl⟩ := List.mem_map.mp hd
  refine ⟨by simp [distDep, exNest], by simp [distDep, exNest], ?_, ?_, ?_, ?_⟩ <;> simp [distDep, Cst.WF, exNest]

theorem distDep_int {a b : Int} {s t q : List Int} : DepInst (distDep a b).dpoly 2 2 0 s t q ↔
    ∃ s0 s1, s = [s0, s1] ∧ t = [s0 + a, s1 + b] ∧ q = [] := by
  constructor
  · rintro ⟨h1, h2, h3, h4⟩
    match s, t, q, h1, h2, h3 with
    | [s0, s1], [t0, t1], [], _, _, _ =>
      simp [distDep, Cst.Sat, Row.Sat, aff, dot] at h4
      refine ⟨s0, s1, rfl, ?_, rfl⟩
      simp only [List.cons.injEq, and_true]
      omega
  · rintro ⟨s0, s1, rfl, rfl, rfl⟩
    refine ⟨rfl, rfl, rfl, ?_⟩
    simp [distDep, Cst.Sat, Row.Sat, aff, dot]

theorem distDep_rat {a b : Int} {s t q : List ℚ} : DepInst (distDep a b).bpoly 2 2 0 s t q ↔
    ∃ s0 s1, s = [s0, s1] ∧ t = [s0 + a, s1 + b] ∧ q = [] := by
  constructor
  · rintro ⟨h1, h2, h3, h4⟩
    match s, t, q, h1, h2, h3 with
    | [s0, s1], [t0, t1], [], _, _, _ =>
      simp [distDep, Cst.Sat, Row.Sat, aff, dot] at h4
      refine ⟨s0, s1, rfl, ?_, rfl⟩
      simp only [List.cons.injEq, and_true]
      constructor <;> linarith [h4.1, h4.2]
  · rintro ⟨s0, s1, rfl, rfl, rfl⟩
    refine ⟨rfl, rfl, rfl, ?_⟩
    simp [distDep, Cst.Sat, Row.Sat, aff, dot]

/-- Any exact solver finds the face `t = const` if all distances are one in `t`. -/
theorem exNest_face (L : Libs) (hL : LexminOracle L.solve) (l : List (Int × Int)) (b : Int) (hb : (1, b) ∈ l)
    (hsat : (addCst (feautrierConstraints diaOpts.rar (exNest l) [0]) (coeffBoundConstraints diaOpts (exNest l))).Sat [(0 : Int), 1, 0, 0]) :
    concStartFaces diaOpts L (exNest l) [0] = some (some [[1, 0, 0]]) := by
  have hd := exNest_dep l
  have hw := (feautrier_wid diaOpts.rar (exNest l) [0] (fun d hdm => ⟨(hd d hdm).src, (hd d hdm).dest⟩)).add (coeffBound_wid diaOpts (exNest l))
  obtain ⟨r, h1, h2, h3⟩ := C28_lexmin diaOpts.dfp L.solve hL (exNest l) (exNest_orig l) _
    (hw.wf (by unfold cstWidth; omega)) (fun hn => coeffBound_ne diaOpts (exNest l) (List.append_eq_nil_iff.mp hn).2) hw.1
  have hc : Candidate (exNest l) (addCst (feautrierConstraints diaOpts.rar (exNest l) [0]) (coeffBoundConstraints diaOpts (exNest l))) [0, 1, 0, 0] := by
    refine ⟨rfl, ?_, by unfold NonNeg; decide, hsat⟩
    intro i st hst k hk ho
    match i with
    | 0 =>
      rw [← Option.some.inj hst] at ho
      match k, hk with
      | 0, _ => simp at ho
      | 1, _ => simp at ho
    | i + 1 => simp [exNest] at hst
  cases r with
  | none => exact absurd ⟨_, hc⟩ (h3 rfl)
  | some sol =>
    obtain ⟨⟨c1, c2, c3, c4⟩, hmin⟩ := h2 sol rfl
    have hmin := hmin _ hc
    have hf : (feautrierConstraints diaOpts.rar (exNest l) [0]).Sat sol := fun r hr => c4 r (List.mem_append_left _ hr)
    have hst := C09_feautrier_strict diaOpts.rar (exNest l) [0] sol hd c1 c2 hf (distDep 1 b) (List.mem_map.mpr ⟨_, hb, rfl⟩) rfl
      (by simp [distDep]) (by simp [distDep]) [0, 0] [1, b] [] (distDep_int.mpr ⟨0, 0, rfl, by simp, rfl⟩)
    have : ∃ w x y c, sol = [w, x, y, c] := by
      match sol, c1 with
      | [w, x, y, c], _ => exact ⟨w, x, y, c, rfl⟩
    obtain ⟨w, x, y, c, rfl⟩ := this
    have n1 := c3 w (by simp)
    have n2 := c3 x (by simp)
    have n3 := c3 y (by simp)
    have n4 := c3 c (by simp)
    simp [searchOrder, exNest, loopCoeffs, diaOpts, LexLe, List.range_succ] at hmin
    simp [hypValue, distDep, exNest, ldot] at hst
    have hw0 : w = 0 := by omega
    have hy0 : y = 0 := by omega
    subst hw0 hy0
    have hx : x = 1 := by simp at hst; omega
    have hc0 : c = 0 := by omega
    subst hx hc0
    unfold concStartFaces
    rw [h1]
    rfl

theorem one_face {a i : Nat} {f : List Int} (ha : [0][a]? = some i) (hf : [[(1 : Int), 0, 0]][a]? = some f) : a = 0 ∧ i = 0 ∧ f = [1, 0, 0] := by
  cases a with
  | zero => exact ⟨rfl, (Option.some.inj ha).symm, (Option.some.inj hf).symm⟩
  | succ a => simp at ha

/-- The planes of the nests: multiples of `i`. -/
theorem exNest_plane (l : List (Int × Int)) (w : Int) (h : Nat → List Int) :
    ShortPlane (exNest l) [0] [[1, 0, 0]] w h ↔ ∃ k c, h 0 = [0, k, c] ∧ 1 ≤ k ∧ 0 ≤ c ∧ ∀ x ∈ l, k * x.2 ≤ w ∧ -w ≤ k * x.2 := by
  constructor
  · rintro ⟨h1, h2, h3, h4, h5⟩
    have hl : (h 0).length = 3 := h1 0 (by simp [exNest])
    have hn := h2 0 (by simp [exNest])
    have h0 := h3 0 0 [1, 0, 0] rfl rfl 0 (by simp [exNest]) (by simp)
    obtain ⟨j, j1, j2, j3⟩ := h4 0 0 [1, 0, 0] rfl rfl
    have he : ∃ a k c, h 0 = [a, k, c] := by
      revert hl
      match h 0 with
      | [a, k, c] => exact fun _ => ⟨a, k, c, rfl⟩
      | [] => simp
      | [_] => simp
      | [_, _] => simp
      | _ :: _ :: _ :: _ :: _ => simp
    obtain ⟨a, k, c, e⟩ := he
    rw [e] at h0 hn j3
    have ha : a = 0 := by simpa using h0
    subst ha
    have hk : k ≠ 0 := by
      match j, j1 with
      | 0, _ => simp at j2
      | 1, _ => simpa using j3
    have hk0 := hn k (by simp)
    refine ⟨k, c, e, by omega, hn c (by simp), fun x hx => ?_⟩
    have := h5 (distDep x.1 x.2) (List.mem_map.mpr ⟨x, hx, rfl⟩) ⟨rfl, by simp [distDep], by simp [distDep]⟩ [0, 0] [0 + (x.1 : ℚ), 0 + (x.2 : ℚ)] []
      (distDep_rat.mpr ⟨0, 0, rfl, rfl, rfl⟩)
    simp only [distDep, e] at this
    simp [aff, dot] at this
    exact_mod_cast this
  · rintro ⟨k, c, e, k1, c0, hx⟩
    refine ⟨fun i hi => ?_, fun i hi v hv => ?_, fun a i f ha hf k' hk' hfk => ?_, fun a i f ha hf => ?_, fun d hdm hi s t q hinst => ?_⟩
    · have : i = 0 := by simpa [exNest] using hi
      subst this
      rw [e]
      rfl
    · have : i = 0 := by simpa [exNest] using hi
      subst this
      rw [e] at hv
      simp only [List.mem_cons, List.not_mem_nil, or_false] at hv
      omega
    · obtain ⟨rfl, rfl, rfl⟩ := one_face ha hf
      rw [e]
      match k', hk' with
      | 0, _ => rfl
      | 1, _ => simp at hfk
    · obtain ⟨rfl, rfl, rfl⟩ := one_face ha hf
      refine ⟨1, by simp [exNest], rfl, ?_⟩
      rw [e]
      show k ≠ 0
      omega
    · obtain ⟨x, hxl, rfl⟩ := List.mem_map.mp hdm
      obtain ⟨s0, s1, rfl, rfl, rfl⟩ := distDep_rat.mp hinst
      have := hx x hxl
      simp only [distDep, e]
      simp [aff, dot]
      have h1 : (k : ℚ) * x.2 ≤ w := by exact_mod_cast this.1
      have h2 : -(w : ℚ) ≤ (k : ℚ) * x.2 := by exact_mod_cast this.2
      constructor <;> linarith [mul_add (k : ℚ) s1 x.2]

/-- The answer for a nest with the face `t = const`. -/
theorem exNest_stencil (L : Libs) (hL : LexminOracle L.solve) (solve : Cst → Option (List Int)) (hsol : SignedLexmin solve)
    (l : List (Int × Int)) (hf : concStartFaces diaOpts L (exNest l) [0] = some (some [[1, 0, 0]])) (b : Bool)
    (hb : b = true ↔ (∃ w k, 0 ≤ w ∧ w ≤ 10 ∧ 1 ≤ k ∧ ∀ x ∈ l, k * x.2 ≤ w ∧ -w ≤ k * x.2) ∧ ¬ ∃ k, 1 ≤ k ∧ ∀ x ∈ l, k * x.2 = 0) :
    isSccStencil diaOpts L solve (exNest l) [0] = some b := by
  obtain ⟨b', h⟩ := (C77_defined diaOpts L hL solve (exNest l) (exNest_orig l) (exNest_dep l) rfl [0] (by simp) (by simp) (by simp [exNest])).1
  have key := C77_stencil diaOpts L solve hsol (exNest l) (exNest_dep l) rfl [0] (by simp [exNest]) (by
    intro d hd _
    obtain ⟨x, -, rfl⟩ := List.mem_map.mp hd
    exact ⟨[0, 0], _, [], distDep_rat.mpr ⟨0, 0, rfl, rfl, rfl⟩⟩) [[1, 0, 0]] hf b' h
  have e1 : (∃ w h, 0 ≤ w ∧ w ≤ 10 ∧ ShortPlane (exNest l) [0] [[1, 0, 0]] w h) ↔
      ∃ w k, 0 ≤ w ∧ w ≤ 10 ∧ 1 ≤ k ∧ ∀ x ∈ l, k * x.2 ≤ w ∧ -w ≤ k * x.2 := by
    constructor
    · rintro ⟨w, h, h0, h1, hp⟩
      obtain ⟨k, c, -, k1, -, k2⟩ := (exNest_plane l w h).mp hp
      exact ⟨w, k, h0, h1, k1, k2⟩
    · rintro ⟨w, k, h0, h1, k1, k2⟩
      exact ⟨w, fun _ => [0, k, 0], h0, h1, (exNest_plane l w _).mpr ⟨k, 0, rfl, k1, le_refl 0, k2⟩⟩
  have e2 : (∃ h, ShortPlane (exNest l) [0] [[1, 0, 0]] 0 h) ↔ ∃ k, 1 ≤ k ∧ ∀ x ∈ l, k * x.2 = 0 := by
    constructor
    · rintro ⟨h, hp⟩
      obtain ⟨k, c, -, k1, -, k2⟩ := (exNest_plane l 0 h).mp hp
      exact ⟨k, k1, fun x hx => by have := k2 x hx; omega⟩
    · rintro ⟨k, k1, k2⟩
      exact ⟨fun _ => [0, k, 0], (exNest_plane l 0 _).mpr ⟨k, 0, rfl, k1, le_refl 0, fun x hx => by have := k2 x hx; omega⟩⟩
  rw [e1, e2] at key
  rw [h, Option.some.injEq, Bool.eq_iff_iff, key, hb]

/-- C77: the hypotheses hold and all answers occur. A nest with distances (1,1) and (1,-1) is a stencil, one with the distance (1,0) is not as its inner loop is
parallel, one with distances (1,11) and (1,-11) is not as they are too long. -/
example : (∃ solve : Cst → Option (List Int), LexminOracle solve) ∧ (∃ solve : Cst → Option (List Int), SignedLexmin solve) ∧
    ∀ (L : Libs) (_ : LexminOracle L.solve) (solve : Cst → Option (List Int)) (_ : SignedLexmin solve),
      isSccStencil diaOpts L solve (exNest [(1, 1), (1, -1)]) [0] = some true ∧
      isSccStencil diaOpts L solve (exNest [(1, 0)]) [0] = some false ∧
      isSccStencil diaOpts L solve (exNest [(1, 11), (1, -11)]) [0] = some false := by
  refine ⟨exists_lexminOracle, exists_signedLexmin, fun L hL solve hs => ⟨?_, ?_, ?_⟩⟩
  · refine exNest_stencil L hL solve hs _ (exNest_face L hL _ 1 (by simp) (by decide +kernel)) true ?_
    simp only [true_iff]
    refine ⟨⟨1, 1, by simp⟩, ?_⟩
    rintro ⟨k, k1, k2⟩
    have := k2 (1, 1) (by simp)
    simp at this
    omega
  · refine exNest_stencil L hL solve hs _ (exNest_face L hL _ 0 (by simp) (by decide +kernel)) false ?_
    simp only [Bool.false_eq_true, false_iff]
    rintro ⟨-, h⟩
    exact h ⟨1, by simp⟩
  · refine exNest_stencil L hL solve hs _ (exNest_face L hL _ 11 (by simp) (by decide +kernel)) false ?_
    simp only [Bool.false_eq_true, false_iff]
    rintro ⟨⟨w, k, h0, h1, k1, k2⟩, -⟩
    have := (k2 (1, 11) (by simp)).1
    simp at this
    omega

/-- C77 is violated: the description asks for short dependences on either side of the face. A nest with the single distance (1,1)
is taken for a stencil although along every such plane all dependences go the same way (for any exact solvers). -/
theorem C77_violated_sides (L : Libs) (hL : LexminOracle L.solve) (solve : Cst → Option (List Int)) (hsol : SignedLexmin solve) :
    isSccStencil diaOpts L solve (exNest [(1, 1)]) [0] = some true ∧
    ∀ w h, ShortPlane (exNest [(1, 1)]) [0] [[1, 0, 0]] w h → ∀ d ∈ (exNest [(1, 1)]).deps, ∀ s t q : List Int,
      DepInst d.dpoly 2 2 0 s t q → 0 < aff (h d.dest) t - aff (h d.src) s := by
  constructor
  · refine exNest_stencil L hL solve hsol _ (exNest_face L hL _ 1 (by simp) (by decide +kernel)) true ?_
    simp only [true_iff]
    refine ⟨⟨1, 1, by simp⟩, ?_⟩
    rintro ⟨k, k1, k2⟩
    have := k2 (1, 1) (by simp)
    simp at this
    omega
  · intro w h hp d hd s t q hinst
    obtain ⟨k, c, e, k1, -, -⟩ := (exNest_plane _ w h).mp hp
    rw [List.mem_singleton.mp hd] at hinst ⊢
    obtain ⟨s0, s1, rfl, rfl, rfl⟩ := distDep_int.mp hinst
    simp only [distDep, e]
    simp [aff, dot]
    linarith [mul_add k s1 1]

/-- C77_violated_nodepbound: the face is found, so that the test crashes for the nest with distances (1,1) and (1,-1). -/
example (L : Libs) (hL : LexminOracle L.solve) (solve : Cst → Option (List Int)) :
    isSccStencil { diaOpts with nodepbound := true } L solve (exNest [(1, 1), (1, -1)]) [0] = none :=
  C77_violated_nodepbound _ L solve _ rfl [0] [[1, 0, 0]]
    (exNest_face L hL [(1, 1), (1, -1)] 1 (by simp) (by decide +kernel))

end Pluto
