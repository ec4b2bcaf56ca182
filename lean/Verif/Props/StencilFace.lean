import Verif.Props.StencilExamples

/-! C77: a face with concurrent start that is not found. -/

namespace Pluto

/-- `S(i + a, j + b, k + c)` depends on `S(i, j, k)`. -/
def distDep3 (a b c : Int) : Dep :=
  ⟨0, 0, false, ⟨7, [⟨true, [-1, 0, 0, 1, 0, 0, -a]⟩, ⟨true, [0, -1, 0, 0, 1, 0, -b]⟩, ⟨true, [0, 0, -1, 0, 0, 1, -c]⟩]⟩,
    ⟨7, [⟨true, [-1, 0, 0, 1, 0, 0, -a]⟩, ⟨true, [0, -1, 0, 0, 1, 0, -b]⟩, ⟨true, [0, 0, -1, 0, 0, 1, -c]⟩]⟩, false, -1, [], []⟩

/-- `A[i][j][k] = A[i-1][j][k-1] + A[i][j-1][k-1]`: three loops, distances (1,0,1) and (0,1,1). -/
def exNest3 : Prog :=
  ⟨3, 0, [⟨3, 3, ⟨4, []⟩, [true, true, true], [[1, 0, 0, 0], [0, 1, 0, 0], [0, 0, 1, 0]], [.loop, .loop, .loop]⟩],
    [distDep3 1 0 1, distDep3 0 1 1], [.loop, .loop, .loop]⟩

theorem exNest3_orig : exNest3.OrigOK := by
  intro st hst
  rw [List.mem_singleton.mp hst]
  exact ⟨rfl, rfl⟩

theorem exNest3_dep : ∀ d ∈ exNest3.deps, DepOK exNest3 d := by
  intro d hd
  simp only [exNest3, List.mem_cons, List.not_mem_nil, or_false] at hd
  rcases hd with rfl | rfl <;>
    refine ⟨by simp [distDep3, exNest3], by simp [distDep3, exNest3], ?_, ?_, ?_, ?_⟩ <;> simp [distDep3, Cst.WF, exNest3]

theorem distDep3_int {a b c : Int} {s t q : List Int} : DepInst (distDep3 a b c).dpoly 3 3 0 s t q ↔
    ∃ x y z, s = [x, y, z] ∧ t = [x + a, y + b, z + c] ∧ q = [] := by
  constructor
  · rintro ⟨h1, h2, h3, h4⟩
    match s, t, q, h1, h2, h3 with
    | [s0, s1, s2], [t0, t1, t2], [], _, _, _ =>
      simp [distDep3, Cst.Sat, Row.Sat, aff, dot] at h4
      refine ⟨s0, s1, s2, rfl, ?_, rfl⟩
      simp only [List.cons.injEq, and_true]
      omega
  · rintro ⟨x, y, z, rfl, rfl, rfl⟩
    refine ⟨rfl, rfl, rfl, ?_⟩
    simp [distDep3, Cst.Sat, Row.Sat, aff, dot]

/-- C77 is violated: the schedule `k` is a face with concurrent start of `exNest3`, but only the lexicographically smallest schedule
`i + j` is looked at, so no face is found and the answer is that the component is no stencil. (Likewise for diamond tiling.) -/
theorem C77_violated_face (L : Libs) (hL : LexminOracle L.solve) (solve : Cst → Option (List Int)) :
    StartFaces exNest3 [0] [[0, 0, 1, 0]] ∧ concStartFaces diaOpts L exNest3 [0] = some none ∧
      isSccStencil diaOpts L solve exNest3 [0] = some false := by
  have hface : concStartFaces diaOpts L exNest3 [0] = some none := by
    have hd := exNest3_dep
    have hw := (feautrier_wid diaOpts.rar exNest3 [0] (fun d hdm => ⟨(hd d hdm).src, (hd d hdm).dest⟩)).add (coeffBound_wid diaOpts exNest3)
    obtain ⟨r, h1, h2, h3⟩ := C28_lexmin diaOpts.dfp L.solve hL exNest3 exNest3_orig _
      (hw.wf (by unfold cstWidth; omega)) (fun hn => coeffBound_ne diaOpts exNest3 (List.append_eq_nil_iff.mp hn).2) hw.1
    have hc : Candidate exNest3 (addCst (feautrierConstraints diaOpts.rar exNest3 [0]) (coeffBoundConstraints diaOpts exNest3)) [0, 1, 1, 0, 0] := by
      refine ⟨rfl, ?_, by unfold NonNeg; decide, by decide +kernel⟩
      intro i st hst k hk ho
      match i with
      | 0 =>
        rw [← Option.some.inj hst] at ho
        match k, hk with
        | 0, _ => simp at ho
        | 1, _ => simp at ho
        | 2, _ => simp at ho
      | i + 1 => simp [exNest3] at hst
    cases r with
    | none => exact absurd ⟨_, hc⟩ (h3 rfl)
    | some sol =>
      obtain ⟨⟨c1, c2, c3, c4⟩, hmin⟩ := h2 sol rfl
      have hmin := hmin _ hc
      have hf : (feautrierConstraints diaOpts.rar exNest3 [0]).Sat sol := fun r hr => c4 r (List.mem_append_left _ hr)
      have hs1 := C09_feautrier_strict diaOpts.rar exNest3 [0] sol hd c1 c2 hf (distDep3 1 0 1) (by simp [exNest3]) rfl
        (by simp [distDep3]) (by simp [distDep3]) [0, 0, 0] [1, 0, 1] [] (distDep3_int.mpr ⟨0, 0, 0, rfl, by simp, rfl⟩)
      have hs2 := C09_feautrier_strict diaOpts.rar exNest3 [0] sol hd c1 c2 hf (distDep3 0 1 1) (by simp [exNest3]) rfl
        (by simp [distDep3]) (by simp [distDep3]) [0, 0, 0] [0, 1, 1] [] (distDep3_int.mpr ⟨0, 0, 0, rfl, by simp, rfl⟩)
      have : ∃ w x y z c, sol = [w, x, y, z, c] := by
        match sol, c1 with
        | [w, x, y, z, c], _ => exact ⟨w, x, y, z, c, rfl⟩
      obtain ⟨w, x, y, z, c, rfl⟩ := this
      have n1 := c3 w (by simp)
      have n2 := c3 x (by simp)
      have n3 := c3 y (by simp)
      have n4 := c3 z (by simp)
      have n5 := c3 c (by simp)
      simp [searchOrder, exNest3, loopCoeffs, diaOpts, LexLe, List.range_succ] at hmin
      simp [hypValue, distDep3, exNest3, ldot] at hs1 hs2
      have hw0 : w = 0 := by omega
      have hz0 : z = 0 := by omega
      subst hw0 hz0
      simp at hs1 hs2
      have hy : y = 1 := by omega
      have hx : x = 1 := by omega
      have hc0 : c = 0 := by omega
      subst hx hy hc0
      unfold concStartFaces
      rw [h1]
      rfl
  refine ⟨⟨rfl, ?_, ?_⟩, hface, C77_no_face _ L solve _ _ hface⟩
  · intro f hf
    rw [List.mem_singleton.mp hf]
    refine ⟨rfl, 2, by simp [exNest3], by simp, ?_⟩
    intro k hk hne
    match k, hk with
    | 0, _ => rfl
    | 1, _ => rfl
    | 2, _ => exact absurd rfl hne
  · intro d hdm hi a b f g ha hf hb hg s t q hinst
    have e1 : a = 0 := by cases a with
      | zero => rfl
      | succ a => simp at ha
    have e2 : b = 0 := by cases b with
      | zero => rfl
      | succ b => simp at hb
    subst e1 e2
    have e3 : f = [0, 0, 1, 0] := (Option.some.inj hf).symm
    have e4 : g = [0, 0, 1, 0] := (Option.some.inj hg).symm
    subst e3 e4
    simp only [exNest3, List.mem_cons, List.not_mem_nil, or_false] at hdm
    rcases hdm with rfl | rfl <;>
    · obtain ⟨x, y, z, rfl, rfl, rfl⟩ := distDep3_int.mp hinst
      simp [aff, dot]

end Pluto
