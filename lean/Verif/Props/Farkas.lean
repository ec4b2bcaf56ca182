import Verif.Lemmas.FarkasModel
import Mathlib.Algebra.Order.Ring.Rat

/-!
C06: `farkas_lemma_affine`. `phi` has one row per column of `dom`; row `i` is an affine function of
the unknown coefficients `c` and gives the coefficient of the `i`-th variable (last row: the
constant) of the affine form over the points of `dom`.
-/

namespace Pluto

/-- Specification: value at the point `x` of the affine form whose coefficients are the affine
functions `phi` of the unknowns `c`. -/
def formValue {R : Type*} [CommRing R] (phi : List (List Int)) (c x : List R) : R :=
  ldot (phi.map (fun f => aff f c)) (x ++ [1])

variable {K : Type*} [Field K] [LinearOrder K] [IsStrictOrderedRing K]

theorem farkas_sat_iff (dom : Cst) (phi : List (List Int)) (c : List K) (p : Nat)
    (hphi : ∀ f ∈ phi, f.length = p) (hc : c.length + 1 = p) :
    (farkasLemmaAffine dom p phi).Sat c ↔
      ∃ lam : List K, lam.length = (idomOf dom).rows.length ∧
        (∀ i (hi : i < phi.length), aff phi[i] c =
          ldot lam ((idomOf dom).rows.map (fun r => ((coef r.val i : Int) : K)))) ∧
        ∀ l ∈ lam, 0 ≤ l := by
  unfold farkasLemmaAffine
  have hw := farkasSystem_wf dom p phi (by omega) hphi
  have hn : (farkasSystem dom p phi).ncols - p = (idomOf dom).rows.length := by
    rw [farkasSystem_eq]; simp
  simp only [hn]
  rw [elimMultipliers_sat _ _ c hw (by rw [farkasSystem_eq]; simp; omega)]
  constructor
  · rintro ⟨lam, hl, hs⟩
    exact ⟨lam, hl, (farkasSystem_sat dom p phi c lam hphi hc hl).mp hs⟩
  · rintro ⟨lam, hl, hs⟩
    exact ⟨lam, hl, (farkasSystem_sat dom p phi c lam hphi hc hl).mpr hs⟩

theorem idomOf_sat (dom : Cst) (h : dom.WF) (x : List K) (hx : x.length + 1 = dom.ncols) :
    (∀ r ∈ (idomOf dom).rows, 0 ≤ aff r.val x) ↔ dom.Sat x := by
  rw [← toPureIneq_sat dom h x]
  have hpure := toPureIneq_pure dom
  constructor
  · intro hs r hr
    have := hs r (by unfold idomOf addCst; exact List.mem_append_left _ hr)
    simpa [Row.Sat, hpure r hr] using this
  · intro hs r hr
    unfold idomOf addCst at hr
    rcases List.mem_append.mp hr with hr | hr
    · simpa [Row.Sat, hpure r hr] using hs r hr
    · simp only [List.mem_singleton] at hr; subst hr
      simp only [aff]
      rw [dot_unit, if_pos (by omega)]
      have e : dom.ncols - 1 = x.length := by omega
      rw [e]; simp [List.getD_eq_getElem?_getD]

theorem ldot_congr_of_getD (a b : List K) (h : a.length = b.length)
    (hg : ∀ i, i < a.length → a.getD i 0 = b.getD i 0) : a = b := by
  apply List.ext_getElem h
  intro i h1 h2
  have := hg i h1
  simpa [List.getD_eq_getElem?_getD, h1, h2] using this

/-- C06, soundness: a coefficient vector satisfying the returned constraints makes the form
non-negative at every point of the domain (for every domain, also an empty one). -/
theorem C06_farkas_sound (dom : Cst) (phi : List (List Int)) (c : List K) (p : Nat)
    (h : dom.WF) (hrows : phi.length = dom.ncols) (hphi : ∀ f ∈ phi, f.length = p)
    (hc : c.length + 1 = p) (hs : (farkasLemmaAffine dom p phi).Sat c)
    (x : List K) (hx : x.length + 1 = dom.ncols) (hd : dom.Sat x) : 0 ≤ formValue phi c x := by
  obtain ⟨lam, hl, he, hnn⟩ := (farkas_sat_iff dom phi c p hphi hc).mp hs
  have hw := idomOf_wf dom h
  have hnc : (idomOf dom).ncols = dom.ncols := rfl
  let F : List (List K) := (idomOf dom).rows.map (fun r => r.val.map Int.cast)
  have hF : ∀ f ∈ F, f.length = dom.ncols := by
    intro f hf
    obtain ⟨r, hr, rfl⟩ := List.mem_map.mp hf
    simp [hw.2 r hr, hnc]
  have heq : phi.map (fun f => aff f c) = wsum dom.ncols lam F := by
    apply ldot_congr_of_getD
    · simp [wsum_length _ _ _ hF, hrows]
    · intro i hi
      simp only [List.length_map] at hi
      rw [wsum_getD _ _ _ hF i (by omega)]
      have := he i hi
      simp only [List.getD_eq_getElem?_getD, List.getElem?_map, hi, getElem?_pos, Option.map_some,
        Option.getD_some]
      rw [this]
      congr 1
      simp only [F, List.map_map]
      apply List.map_congr_left
      intro r _
      simp only [Function.comp, coef, List.getD_eq_getElem?_getD, List.getElem?_map]
      cases r.val[i]? <;> simp
  unfold formValue
  rw [heq, wsum_ldot _ _ _ hF]
  apply ldot_nonneg _ _ hnn
  intro l hlm
  obtain ⟨f, hf, rfl⟩ := List.mem_map.mp hlm
  obtain ⟨r, hr, rfl⟩ := List.mem_map.mp hf
  have := (idomOf_sat dom h x hx).mpr hd r hr
  unfold aff at this
  rw [dot_eq_ldot] at this
  exact this

/-- C06, completeness: on a non-empty domain, every coefficient vector whose form is non-negative on
the domain satisfies the returned constraints. -/
theorem C06_farkas_complete (dom : Cst) (phi : List (List Int)) (c : List K) (p : Nat)
    (h : dom.WF) (hrows : phi.length = dom.ncols) (hphi : ∀ f ∈ phi, f.length = p)
    (hc : c.length + 1 = p)
    (hne : ∃ x : List K, x.length + 1 = dom.ncols ∧ dom.Sat x)
    (hpos : ∀ x : List K, x.length + 1 = dom.ncols → dom.Sat x → 0 ≤ formValue phi c x) :
    (farkasLemmaAffine dom p phi).Sat c := by
  rw [farkas_sat_iff dom phi c p hphi hc]
  have hw := toPureIneq_wf dom h
  have hpure := toPureIneq_pure dom
  obtain ⟨n, hn⟩ : ∃ n, dom.ncols = n + 1 := ⟨dom.ncols - 1, by have := h.1; omega⟩
  let F : List (List K) := (toPureIneq dom).rows.map (fun r => r.val.map Int.cast)
  have hF : ∀ f ∈ F, f.length = n + 1 := by
    intro f hf
    obtain ⟨r, hr, rfl⟩ := List.mem_map.mp hf
    simp only [List.length_map, hw.2 r hr]; exact hn
  have hsat : ∀ x : List K, (∀ f ∈ F, 0 ≤ ldot f (x ++ [1])) ↔ dom.Sat x := by
    intro x
    rw [← toPureIneq_sat dom h x]
    simp only [F, List.mem_map, forall_exists_index, and_imp, forall_apply_eq_imp_iff₂]
    unfold Cst.Sat
    refine forall₂_congr fun r hr => ?_
    simp only [Row.Sat, hpure r hr, Bool.false_eq_true, if_false, aff, dot_eq_ldot]
  obtain ⟨lam, l0, h1, h2, h3, h4⟩ := farkas_affine n F (phi.map (fun f => aff f c)) hF
    (by simp [hrows, hn])
    (by obtain ⟨x, hx, hs⟩ := hne
        exact ⟨x, by omega, (hsat x).mpr hs⟩)
    (by intro x hx hs
        exact hpos x (by omega) ((hsat x).mp hs))
  refine ⟨lam ++ [l0], ?_, ?_, ?_⟩
  · simp [h1, F, idomOf, addCst]
  · intro i hi
    have e := h4 ((List.replicate (n + 1) 0).set i 1) (by simp)
    rw [ldot_comm, ldot_unit, if_pos (by omega)] at e
    have e1 : (phi.map (fun f => aff f c)).getD i 0 = aff phi[i] c := by
      simp [List.getD_eq_getElem?_getD, hi]
    rw [e1] at e
    rw [e]
    have e2 : ∀ r : Row, ldot (r.val.map Int.cast) ((List.replicate (n + 1) (0 : K)).set i 1) =
        ((coef r.val i : Int) : K) := by
      intro r
      rw [ldot_comm, ldot_unit, if_pos (by omega)]
      simp only [coef, List.getD_eq_getElem?_getD, List.getElem?_map]
      cases r.val[i]? <;> simp
    unfold idomOf addCst
    rw [List.map_append, ldot_append _ _ _ _ (by simp [h1, F])]
    congr 1
    · congr 1
      simp only [F, List.map_map]
      apply List.map_congr_left
      intro r _
      exact e2 r
    · simp only [List.map_cons, List.map_nil, ldot_cons, ldot_nil_left, add_zero]
      congr 1
      simp only [coef, hn, Nat.add_sub_cancel, List.getD_eq_getElem?_getD, List.getElem?_set]
      by_cases hin : i = n
      · subst hin; simp
      · have h1 : ¬ n = i := fun h => hin h.symm
        simp [hin, h1, List.getElem?_replicate]
        split <;> simp
  · intro l hl
    rcases List.mem_append.mp hl with hl | hl
    · exact h2 l hl
    · simp at hl; subst hl; exact h3

/-- C06, both directions for a non-empty domain. -/
theorem C06_farkas_exact (dom : Cst) (phi : List (List Int)) (c : List K) (p : Nat)
    (h : dom.WF) (hrows : phi.length = dom.ncols) (hphi : ∀ f ∈ phi, f.length = p)
    (hc : c.length + 1 = p) (hne : ∃ x : List K, x.length + 1 = dom.ncols ∧ dom.Sat x) :
    (farkasLemmaAffine dom p phi).Sat c ↔
      ∀ x : List K, x.length + 1 = dom.ncols → dom.Sat x → 0 ≤ formValue phi c x :=
  ⟨fun hs x hx hd => C06_farkas_sound dom phi c p h hrows hphi hc hs x hx hd,
    C06_farkas_complete dom phi c p h hrows hphi hc hne⟩

/-- C06. The result has the columns of the template (the final assertion of the C function holds)
and is well formed. -/
theorem C06_farkas_shape (dom : Cst) (phi : List (List Int)) (p : Nat) (hp : 1 ≤ p)
    (hphi : ∀ f ∈ phi, f.length = p) :
    (farkasLemmaAffine dom p phi).WF ∧ (farkasLemmaAffine dom p phi).ncols = p := by
  unfold farkasLemmaAffine
  have hw := farkasSystem_wf dom p phi hp hphi
  apply elimMultipliers_shape _ _ p hp hw
  rw [farkasSystem_eq]; simp

theorem formValue_castInt (phi : List (List Int)) (c x : List Int) :
    formValue phi (c.map (Int.cast : Int → Rat)) (x.map Int.cast) = ((formValue phi c x : Int) : Rat) := by
  unfold formValue
  have e : ∀ f : List Int, aff f (c.map (Int.cast : Int → Rat)) = ((aff f c : Int) : Rat) :=
    fun f => aff_castInt f c
  simp only [e]
  have e2 : x.map (Int.cast : Int → Rat) ++ [1] = (x ++ [1]).map Int.cast := by simp
  rw [e2]
  generalize x ++ [1] = y
  induction phi generalizing y with
  | nil => simp
  | cons f fs ih => cases y with
    | nil => simp
    | cons z zs => simp [ih zs]

theorem Cst.sat_castInt (c : Cst) (x : List Int) :
    c.Sat (x.map (Int.cast : Int → Rat)) ↔ c.Sat x := by
  unfold Cst.Sat Row.Sat
  refine forall₂_congr fun r _ => ?_
  rw [aff_castInt]
  split
  · exact Int.cast_eq_zero
  · exact Int.cast_nonneg_iff

/-- C06 for integer coefficients and integer points, the case the scheduler uses. -/
theorem C06_farkas_sound_int (dom : Cst) (phi : List (List Int)) (c : List Int) (p : Nat)
    (h : dom.WF) (hrows : phi.length = dom.ncols) (hphi : ∀ f ∈ phi, f.length = p)
    (hc : c.length + 1 = p) (hs : (farkasLemmaAffine dom p phi).Sat c)
    (x : List Int) (hx : x.length + 1 = dom.ncols) (hd : dom.Sat x) : 0 ≤ formValue phi c x := by
  have := C06_farkas_sound (K := Rat) dom phi (c.map Int.cast) p h hrows hphi (by simpa using hc)
    ((Cst.sat_castInt _ c).mpr hs) (x.map Int.cast) (by simpa using hx) ((Cst.sat_castInt _ x).mpr hd)
  rw [formValue_castInt] at this
  exact_mod_cast this

/-- `0 <= i <= N`, `N >= 1`; form `c1*i + c2*N + c3`: the hypotheses are met and the result is not
trivial: it contains `c1 + c2 >= 0`-type constraints. -/
example : (farkasLemmaAffine ⟨3, [⟨false, [1, 0, 0]⟩, ⟨false, [-1, 1, 0]⟩, ⟨false, [0, 1, -1]⟩]⟩ 4
      [[1, 0, 0, 0], [0, 1, 0, 0], [0, 0, 1, 0]]) =
    ⟨4, [⟨false, [0, 1, 0, 0]⟩, ⟨false, [0, 1, 1, 0]⟩, ⟨false, [1, 1, 0, 0]⟩, ⟨false, [1, 1, 1, 0]⟩]⟩ := by
  decide +kernel

example : ∃ x : List Rat, x.length + 1 = 3 ∧
    (⟨3, [⟨false, [1, 0, 0]⟩, ⟨false, [-1, 1, 0]⟩, ⟨false, [0, 1, -1]⟩]⟩ : Cst).Sat x :=
  ⟨[0, 1], rfl, by simp [Cst.Sat, Row.Sat, aff]⟩

end Pluto
