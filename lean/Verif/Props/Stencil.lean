import Verif.Lemmas.StencilSys
import Verif.Lemmas.DiamondCone
import Verif.Props.Search
import Verif.Props.CoeffBounds
import Verif.Props.Auto

/-! C77: which strongly connected components typed fusion takes for stencils. -/

namespace Pluto

theorem countP_one : ∀ l : List Int, l.countP (fun a => decide (a ≠ 0)) = 1 →
    ∃ k < l.length, l.getD k 0 ≠ 0 ∧ ∀ k' < l.length, k' ≠ k → l.getD k' 0 = 0
  | [], h => by simp at h
  | a :: l, h => by
    by_cases ha : a = 0
    · subst ha
      obtain ⟨k, h1, h2, h3⟩ := countP_one l (by simpa using h)
      refine ⟨k + 1, by simpa using h1, by simpa using h2, fun k' hk' hne => ?_⟩
      cases k' with
      | zero => simp
      | succ k' => simpa using h3 k' (by simpa using hk') (by omega)
    · have h0 : l.countP (fun a => decide (a ≠ 0)) = 0 := by
        rw [List.countP_cons_of_pos (by simpa using ha)] at h
        omega
      refine ⟨0, by simp, by simpa using ha, fun k' hk' hne => ?_⟩
      cases k' with
      | zero => omega
      | succ k' =>
        have hk : k' < l.length := by simpa using hk'
        have := List.countP_eq_zero.mp h0 l[k'] (List.getElem_mem hk)
        have e : l[k'] = 0 := by simpa using this
        show l[k']?.getD 0 = 0
        rw [List.getElem?_eq_getElem hk, e]
        rfl

/-- C77: a face reported for a component is one: the schedule along it runs dependent instances strictly later, and it is parallel to one
loop of each statement. -/
theorem C77_faces (o : SearchOpts) (L : Libs) (hL : FeasibleOracle L.solve) (p : Prog) (ho : p.OrigOK) (hd : ∀ d ∈ p.deps, DepOK p d)
    (S : List Nat) (hinc : S.Pairwise (· < ·)) (hin : ∀ i ∈ S, i < p.stmts.length) (faces : List (List Int))
    (h : concStartFaces o L p S = some (some faces)) : StartFaces p S faces := by
  unfold concStartFaces at h
  simp only [Option.bind_eq_bind, Option.bind_eq_some_iff] at h
  obtain ⟨r, h1, h⟩ := h
  cases r with
  | none => simp at h
  | some sol =>
    simp only at h
    split_ifs at h with hone
    · simp only [Option.pure_def, Option.some.injEq] at h
      have hw := (feautrier_wid o.rar p S (fun d hdm => ⟨(hd d hdm).src, (hd d hdm).dest⟩)).add (coeffBound_wid o p)
      obtain ⟨f1, f2, f3⟩ := progLexmin_feasible o.dfp L.solve hL p ho _ (hw.wf (by unfold cstWidth; omega))
        (fun hn => coeffBound_ne o p (List.append_eq_nil_iff.mp hn).2) sol h1
      rw [filter_range_inc _ _ hinc hin] at h hone
      subst h
      have hlen : ∀ i ∈ S, (hyperplaneRow p.nvar p.npar sol i).length = p.nvar + p.npar + 1 := by
        intro i hi
        exact (C39_row_value p sol f1 i (hin i hi) (List.replicate p.nvar 0) (List.replicate p.npar 0) (by simp) (by simp)).1
      refine ⟨by simp, ?_, ?_⟩
      · intro f hf
        obtain ⟨i, hi, rfl⟩ := List.mem_map.mp hf
        refine ⟨hlen i hi, ?_⟩
        have := List.all_eq_true.mp hone _ (List.mem_map_of_mem hi)
        obtain ⟨k, k1, k2, k3⟩ := countP_one _ (of_decide_eq_true this)
        have hl : ((hyperplaneRow p.nvar p.npar sol i).take p.nvar).length = p.nvar := by
          rw [List.length_take, hlen i hi]; omega
        rw [hl] at k1 k3
        have e : ∀ j < p.nvar, ((hyperplaneRow p.nvar p.npar sol i).take p.nvar).getD j 0 =
            (hyperplaneRow p.nvar p.npar sol i).getD j 0 := by
          intro j hj
          simp only [List.getD_eq_getElem?_getD, List.getElem?_take, hj, if_true]
        refine ⟨k, k1, by rwa [← e k k1], fun k' hk' hne => ?_⟩
        rw [← e k' hk']
        exact k3 k' hk' hne
      · intro d hdm hi a b f g ha hf hb hg s t q hinst
        rw [List.getElem?_map, ha, Option.map_some, Option.some.injEq] at hf
        rw [List.getElem?_map, hb, Option.map_some, Option.some.injEq] at hg
        subst hf hg
        have hf : (feautrierConstraints o.rar p S).Sat sol := fun r hr => f3 r (List.mem_append_left _ hr)
        have := C09_feautrier_strict o.rar p S sol hd f1 f2 hf d hdm hi.1 hi.2.1 hi.2.2 s t q hinst
        rw [(C39_row_value p sol f1 d.src (hd d hdm).src s q hinst.hs hinst.hp).2,
          (C39_row_value p sol f1 d.dest (hd d hdm).dest t q hinst.ht hinst.hp).2]
        omega
    · simp at h

/-- C77: the answer once a face is found. A component is a stencil exactly if it has a plane outside the face with dependence
distances of at most 10 in either direction, but none with distances zero. -/
theorem C77_stencil (o : SearchOpts) (L : Libs) (solve : Cst → Option (List Int)) (hsol : SignedLexmin solve) (p : Prog)
    (hd : ∀ d ∈ p.deps, DepOK p d) (hb : o.nodepbound = false) (S : List Nat) (hin : ∀ i ∈ S, i < p.stmts.length)
    (hne : ∀ d ∈ p.deps, d.Inside S → ∃ s t q : List ℚ, DepInst d.bpoly p.nvar p.nvar p.npar s t q) (faces : List (List Int))
    (hf : concStartFaces o L p S = some (some faces)) (b : Bool) (h : isSccStencil o L solve p S = some b) :
    b = true ↔ (∃ w h, 0 ≤ w ∧ w ≤ 10 ∧ ShortPlane p S faces w h) ∧ ¬ ∃ h, ShortPlane p S faces 0 h := by
  unfold isSccStencil at h
  rw [hf] at h
  simp only [Option.bind_eq_bind, Option.bind_some, Option.bind_eq_some_iff, hb] at h
  obtain ⟨c, hc, h⟩ := h
  have hwf := stencilSystem_wf hin hd hc
  obtain ⟨hcols, -, -⟩ := stencilSystem_rows hc
  -- a plane gives a point, so that the solver answers
  have hsome : (∃ w h, 0 ≤ w ∧ w ≤ 10 ∧ ShortPlane p S faces w h) → ∃ x, solve c = some x := by
    rintro ⟨w, hp, h0, h10, hsp⟩
    have hs := stencil_complete hin hd hne hc hsp h0 h10
    have hl := planeSol_len (w := w) hsp.len
    obtain ⟨-, -, -, -, hnn⟩ := stencil_sound hin hd hc hl hs
    obtain ⟨x, x1, x2, x3, x4⟩ := exists_lexLeast (cstWidth p.nvar p.npar p.stmts.length - 1) (fun y => c.Sat y)
      ⟨planeSol p w hp, by omega, hnn, hs⟩
    have hx : x.length + 1 = c.ncols := by rw [hcols, x1]; unfold cstWidth; omega
    refine ⟨x, (hsol c hwf x).mpr ⟨⟨hx, x3⟩, fun y hy hys => ?_⟩⟩
    have hy' : y.length + 1 = cstWidth p.nvar p.npar p.stmts.length := by rw [hy, hcols]
    exact x4 y (by omega) (stencil_sound hin hd hc hy' hys).2.2.2.2 hys
  cases hx : solve c with
  | none =>
    rw [hx] at h
    simp only [Option.pure_def, Option.some.injEq] at h
    subst h
    refine ⟨fun h => by simp at h, fun ⟨h, _⟩ => ?_⟩
    obtain ⟨x, h⟩ := hsome h
    rw [hx] at h
    simp at h
  | some x =>
    rw [hx] at h
    simp only [Option.pure_def, Option.some.injEq] at h
    subst h
    obtain ⟨⟨x1, x2⟩, x3⟩ := (hsol c hwf x).mp hx
    rw [hcols] at x1
    obtain ⟨s1, s2, s3, s4, s5⟩ := stencil_sound hin hd hc x1 x2
    rw [decide_eq_true_iff]
    refine ⟨fun hw => ⟨⟨_, _, s2, s3, s1⟩, ?_⟩, fun ⟨_, hz⟩ hw => ?_⟩
    · rintro ⟨hp, hsp⟩
      have hs := stencil_complete hin hd hne hc hsp (le_refl 0) (by norm_num)
      have hle := x3 _ (by rw [hcols]; exact planeSol_len hsp.len) hs
      rw [← List.take_append_drop (p.npar + 1) x, ← List.take_append_drop (p.npar + 1) (planeSol p 0 hp), s4,
        planeSol_take] at hle
      have := lexLe_bound _ _ _ _ _ hle
      omega
    · rw [hw] at s1
      exact hz ⟨_, s1⟩

/-- C77: without a face the component is no stencil. -/
theorem C77_no_face (o : SearchOpts) (L : Libs) (solve : Cst → Option (List Int)) (p : Prog) (S : List Nat)
    (hf : concStartFaces o L p S = some none) : isSccStencil o L solve p S = some false := by
  unfold isSccStencil
  rw [hf]
  rfl

theorem lexLe_antisymm : ∀ x y : List Int, x.length = y.length → LexLe x y → LexLe y x → x = y
  | [], [], _, _, _ => rfl
  | [], _ :: _, h, _, _ => by simp at h
  | _ :: _, [], h, _, _ => by simp at h
  | a :: x, b :: y, h, h1, h2 => by
    simp only [LexLe] at h1 h2
    rcases h1 with h1 | ⟨e, h1⟩ <;> rcases h2 with h2 | ⟨e', h2⟩
    · omega
    · omega
    · omega
    · rw [e, lexLe_antisymm x y (by simpa using h) h1 h2]

/-- An exact solver without sign restriction exists. -/
theorem exists_signedLexmin : ∃ solve : Cst → Option (List Int), SignedLexmin solve := by
  classical
  refine ⟨fun c => if h : ∃ x : List Int, (x.length + 1 = c.ncols ∧ c.Sat x) ∧ ∀ y : List Int, y.length + 1 = c.ncols → c.Sat y → LexLe x y
    then some h.choose else none, fun c _ x => ?_⟩
  by_cases h : ∃ x : List Int, (x.length + 1 = c.ncols ∧ c.Sat x) ∧ ∀ y : List Int, y.length + 1 = c.ncols → c.Sat y → LexLe x y
  · simp only [h, dif_pos, Option.some.injEq]
    obtain ⟨h1, h2⟩ := h.choose_spec
    constructor
    · rintro rfl
      exact ⟨h1, h2⟩
    · rintro ⟨x1, x2⟩
      exact lexLe_antisymm _ _ (by have := h1.1; have := x1.1; omega) (h2 x x1.1 x1.2) (x2 _ h1.1 h1.2)
  · simp only [h, dif_neg, not_false_eq_true, reduceCtorEq, false_iff]
    exact fun hx => h ⟨x, hx⟩

end Pluto
