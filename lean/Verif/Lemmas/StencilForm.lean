import Verif.Model.Stencil
import Verif.Props.Legality
import Verif.Lemmas.CoeffBounds

/-! The lower bounds on dependence distances of the stencil test. -/

namespace Pluto

section ring
variable {R : Type*} [CommRing R]

theorem phiLowerInter_value (nvar npar : Nat) (u a b s t p : List R) (hu : u.length = npar + 1)
    (ha : a.length = nvar + 1) (hb : b.length = nvar + 1) (hs : s.length = nvar)
    (ht : t.length = nvar) (hp : p.length = npar) :
    formValue (phiLowerInter nvar npar) (u ++ a ++ b) (s ++ t ++ p) =
      ldot u (p ++ [1]) + (ldot b (t ++ [1]) - ldot a (s ++ [1])) := by
  have hl : (u ++ a ++ b).length = npar + 1 + 2 * (nvar + 1) := by simp [hu, ha, hb]; ring
  have hua : (u ++ a).length = npar + 1 + (nvar + 1) := by simp [hu, ha]
  have e1 : (List.range nvar).map (fun r => aff ((zrow (npar + 1 + 2 * (nvar + 1) + 1)).set (npar + 1 + r) (-1))
      (u ++ a ++ b)) = (a.take nvar).map (fun v => -v) := by
    rw [← map_range_getD_off u a (npar + 1) nvar hu.symm (by omega), List.map_map]
    apply List.map_congr_left
    intro r hr
    rw [List.mem_range] at hr
    rw [aff_set_zrow _ _ _ _ (by omega) (by omega), getD_append_left' _ b _ (by omega)]; simp
  have e2 : (List.range nvar).map (fun r => aff ((zrow (npar + 1 + 2 * (nvar + 1) + 1)).set
      (npar + 1 + (nvar + 1) + r) 1) (u ++ a ++ b)) = b.take nvar := by
    rw [← map_range_getD_off (u ++ a) b (npar + 1 + (nvar + 1)) nvar hua.symm (by omega)]
    apply List.map_congr_left
    intro r hr
    rw [List.mem_range] at hr
    rw [aff_set_zrow _ _ _ _ (by omega) (by omega)]; simp
  have e3 : (List.range npar).map (fun r => aff ((zrow (npar + 1 + 2 * (nvar + 1) + 1)).set r 1)
      (u ++ a ++ b)) = u.take npar := by
    rw [← map_range_getD u npar (by omega)]
    apply List.map_congr_left
    intro r hr
    rw [List.mem_range] at hr
    rw [aff_set_zrow _ _ _ _ (by omega) (by omega), getD_append_left' _ b _ (by omega),
      getD_append_left' _ a _ (by omega)]; simp
  have e4 : aff ((((zrow (npar + 1 + 2 * (nvar + 1) + 1)).set (npar + 1 + nvar) (-1)).set
      (npar + 1 + (nvar + 1) + nvar) 1).set npar 1) (u ++ a ++ b) =
      b.getD nvar 0 - a.getD nvar 0 + u.getD npar 0 := by
    unfold aff
    rw [dot_set_eq _ _ _ _ (by simp [zrow]; omega), dot_set_eq _ _ _ _ (by simp [zrow]; omega),
      dot_set_zrow _ _ _ _ (by omega), coef_set _ _ _ _ (by simp [zrow]; omega),
      coef_set _ _ _ _ (by simp [zrow]; omega), coef_set _ _ _ _ (by simp [zrow]; omega), coef_zrow, coef_zrow]
    rw [if_neg (by omega), if_neg (by omega), if_neg (by omega)]
    rw [getD_append_left' _ [(1 : R)] (npar + 1 + nvar) (by omega),
      getD_append_left' _ [(1 : R)] (npar + 1 + (nvar + 1) + nvar) (by omega),
      getD_append_left' _ [(1 : R)] npar (by omega),
      getD_append_left' _ b npar (by omega), getD_append_left' _ a npar (by omega),
      getD_append_left' _ b (npar + 1 + nvar) (by omega), getD_append_right' u a (npar + 1 + nvar) (by omega),
      getD_append_right' _ b (npar + 1 + (nvar + 1) + nvar) (by omega)]
    have i1 : npar + 1 + nvar - u.length = nvar := by omega
    have i2 : npar + 1 + (nvar + 1) + nvar - (u ++ a).length = nvar := by omega
    rw [i1, i2]; simp; ring
  unfold formValue phiLowerInter
  simp only [List.map_append, List.map_map, Function.comp_def, List.map_cons, List.map_nil]
  rw [e1, e2, e3, e4, ldot_split4 _ _ _ _ _ _ _ (by simp [ha, hs]) (by simp [hb, ht]) (by simp [hp, hu]),
    ldot_map_neg, ldot_take_snoc b t nvar hb ht, ldot_take_snoc a s nvar ha hs,
    ldot_take_snoc u p npar hu hp]
  ring

theorem phiLowerIntra_value (nvar npar : Nat) (u a s t p : List R) (hu : u.length = npar + 1)
    (ha : a.length = nvar + 1) (hs : s.length = nvar)
    (ht : t.length = nvar) (hp : p.length = npar) :
    formValue (phiLowerIntra nvar npar) (u ++ a) (s ++ t ++ p) =
      ldot u (p ++ [1]) + (ldot a (t ++ [1]) - ldot a (s ++ [1])) := by
  have hua : (u ++ a).length = npar + 1 + (nvar + 1) := by simp [hu, ha]
  have e1 : (List.range nvar).map (fun r => aff ((zrow (npar + 1 + (nvar + 1) + 1)).set (npar + 1 + r) 1)
      (u ++ a)) = a.take nvar := by
    rw [← map_range_getD_off u a (npar + 1) nvar hu.symm (by omega)]
    apply List.map_congr_left
    intro r hr
    rw [List.mem_range] at hr
    rw [aff_set_zrow _ _ _ _ (by omega) (by omega)]; simp
  have e2 : (List.range nvar).map (fun r => aff ((zrow (npar + 1 + (nvar + 1) + 1)).set
      (npar + 1 + r) (-1)) (u ++ a)) = (a.take nvar).map (fun v => -v) := by
    rw [← map_range_getD_off u a (npar + 1) nvar hu.symm (by omega), List.map_map]
    apply List.map_congr_left
    intro r hr
    rw [List.mem_range] at hr
    rw [aff_set_zrow _ _ _ _ (by omega) (by omega)]; simp
  have e3 : (List.range npar).map (fun r => aff ((zrow (npar + 1 + (nvar + 1) + 1)).set r 1)
      (u ++ a)) = u.take npar := by
    rw [← map_range_getD u npar (by omega)]
    apply List.map_congr_left
    intro r hr
    rw [List.mem_range] at hr
    rw [aff_set_zrow _ _ _ _ (by omega) (by omega), getD_append_left' _ a _ (by omega)]; simp
  have e4 : aff ((zrow (npar + 1 + (nvar + 1) + 1)).set npar 1) (u ++ a) = u.getD npar 0 := by
    rw [aff_set_zrow _ _ _ _ (by omega) (by omega), getD_append_left' _ a _ (by omega)]; simp
  unfold formValue phiLowerIntra
  simp only [List.map_append, List.map_map, Function.comp_def, List.map_cons, List.map_nil]
  rw [e1, e2, e3, e4, ldot_split4 _ _ _ _ _ _ _ (by simp [ha, hs]) (by simp [ha, ht]) (by simp [hp, hu]),
    ldot_map_neg, ldot_take_snoc a t nvar ha ht, ldot_take_snoc a s nvar ha hs,
    ldot_take_snoc u p npar hu hp]
  ring

end ring

/-- Template of the lower bound. -/
def phiLower (p : Prog) (d : Dep) : List (List Int) :=
  if d.src = d.dest then phiLowerIntra p.nvar p.npar else phiLowerInter p.nvar p.npar

theorem phiLower_shape (p : Prog) (d : Dep) : (phiLower p d).length = 2 * p.nvar + p.npar + 1 ∧
    ∀ f ∈ phiLower p d, f.length = (if d.src = d.dest then p.npar + 1 + (p.nvar + 1) + 1
      else p.npar + 1 + 2 * (p.nvar + 1) + 1) := by
  unfold phiLower
  split
  · refine ⟨by simp [phiLowerIntra]; omega, ?_⟩
    intro f hf
    simp only [phiLowerIntra, List.mem_append, List.mem_map, List.mem_singleton] at hf
    rcases hf with ((⟨r, -, rfl⟩ | ⟨r, -, rfl⟩) | ⟨r, -, rfl⟩) | rfl <;> simp [zrow]
  · refine ⟨by simp [phiLowerInter]; omega, ?_⟩
    intro f hf
    simp only [phiLowerInter, List.mem_append, List.mem_map, List.mem_singleton] at hf
    rcases hf with ((⟨r, -, rfl⟩ | ⟨r, -, rfl⟩) | ⟨r, -, rfl⟩) | rfl <;> simp [zrow]

/-- Local Farkas system of the lower bound. -/
def lowerLocal (p : Prog) (d : Dep) : Cst :=
  farkasLemmaAffine d.bpoly (if d.src = d.dest then p.npar + 1 + (p.nvar + 1) + 1
      else p.npar + 1 + 2 * (p.nvar + 1) + 1) (phiLower p d)

theorem lowerLocal_shape (p : Prog) (d : Dep) : (lowerLocal p d).WF ∧
    (lowerLocal p d).ncols = if d.src = d.dest then p.npar + 1 + (p.nvar + 1) + 1
      else p.npar + 1 + 2 * (p.nvar + 1) + 1 :=
  C06_farkas_shape d.bpoly _ _ (by split <;> omega) (phiLower_shape p d).2

theorem lowerRows_eq (p : Prog) (d : Dep) : lowerRows p d =
    mapRows (scatterRow p.nvar p.npar p.stmts.length d.src d.dest (p.npar + 1)) (lowerLocal p d).rows := by
  unfold lowerRows lowerLocal phiLower
  split <;> rfl

theorem boundRows_eq (p : Prog) (d : Dep) : boundRows p d =
    mapRows (scatterRow p.nvar p.npar p.stmts.length d.src d.dest (p.npar + 1)) (boundLocal p d).rows := rfl

theorem lower_form {R : Type*} [CommRing R] [LinearOrder R] [IsStrictOrderedRing R] (p : Prog) (d : Dep) (sol s t q : List R)
    (h1 : d.src < p.stmts.length) (h2 : d.dest < p.stmts.length)
    (hs : sol.length + 1 = cstWidth p.nvar p.npar p.stmts.length)
    (ls : s.length = p.nvar) (lt : t.length = p.nvar) (lq : q.length = p.npar) :
    formValue (phiLower p d) (localSol p.nvar p.npar d.src d.dest (p.npar + 1) sol) (s ++ t ++ q) =
      boundValue p.npar sol q +
        (hypValue p.nvar p.npar sol d.dest t - hypValue p.nvar p.npar sol d.src s) := by
  have l1 := solSlice_length p.nvar p.npar p.stmts.length sol d.src h1 hs
  have l2 := solSlice_length p.nvar p.npar p.stmts.length sol d.dest h2 hs
  have l0 : (sol.take (p.npar + 1)).length = p.npar + 1 := by
    have := stmtOffset_bound p.nvar p.npar p.stmts.length d.src h1
    unfold stmtOffset at this
    simp; omega
  rw [hypValue_eq, hypValue_eq, boundValue]
  unfold phiLower
  by_cases e : d.src = d.dest
  · have : localSol p.nvar p.npar d.src d.dest (p.npar + 1) sol =
        sol.take (p.npar + 1) ++ solSlice p.nvar p.npar sol d.src := by
      simp [localSol, e]
    rw [if_pos e, this, phiLowerIntra_value _ _ _ _ _ _ _ l0 l1 ls lt lq, e]
  · have : localSol p.nvar p.npar d.src d.dest (p.npar + 1) sol =
        sol.take (p.npar + 1) ++ solSlice p.nvar p.npar sol d.src ++ solSlice p.nvar p.npar sol d.dest := by
      simp [localSol, e]
    rw [if_neg e, this, phiLowerInter_value _ _ _ _ _ _ _ _ l0 l1 l2 ls lt lq]

/-- Both bounds of one dependence, over the rationals. -/
theorem distRows_sound {p : Prog} {d : Dep} (hd : DepOK p d) {sol : List ℚ} (hw : sol.length + 1 = cstWidth p.nvar p.npar p.stmts.length)
    (h1 : ∀ r ∈ boundRows p d, r.Sat sol) (h2 : ∀ r ∈ lowerRows p d, r.Sat sol) (s t q : List ℚ)
    (hi : DepInst d.bpoly p.nvar p.nvar p.npar s t q) :
    hypValue p.nvar p.npar sol d.dest t - hypValue p.nvar p.npar sol d.src s ≤ boundValue p.npar sol q ∧
    -boundValue p.npar sol q ≤ hypValue p.nvar p.npar sol d.dest t - hypValue p.nvar p.npar sol d.src s := by
  rw [boundRows_eq, mapRows_scatter_sat p d.src d.dest (p.npar + 1) _ _ sol hd.src hd.dest hw (le_refl _) (boundLocal_shape p d).1 rfl
    (boundLocal_shape p d).2, boundLocal_eq] at h1
  rw [lowerRows_eq, mapRows_scatter_sat p d.src d.dest (p.npar + 1) _ _ sol hd.src hd.dest hw (le_refl _) (lowerLocal_shape p d).1 rfl
    (lowerLocal_shape p d).2] at h2
  unfold lowerLocal at h2
  have hb := phiBound_shape p d
  have hl := phiLower_shape p d
  have ll := localSol_len0 p d sol hd.src hd.dest hw (p.npar + 1) (le_refl _)
  have lx : (s ++ t ++ q).length + 1 = d.bpoly.ncols := by simp [hi.hs, hi.ht, hi.hp, hd.bcols]; omega
  have k1 := C06_farkas_sound d.bpoly (phiBound p d) _ _ hd.bwf (by rw [hb.1, hd.bcols]) hb.2 ll h1 (s ++ t ++ q) lx hi.sat
  have k2 := C06_farkas_sound d.bpoly (phiLower p d) _ _ hd.bwf (by rw [hl.1, hd.bcols]) hl.2 ll h2 (s ++ t ++ q) lx hi.sat
  unfold phiBound at k1
  rw [bound_form p d sol s t q hd.src hd.dest hw hi.hs hi.ht hi.hp] at k1
  rw [lower_form p d sol s t q hd.src hd.dest hw hi.hs hi.ht hi.hp] at k2
  constructor <;> linarith

theorem distRows_complete {p : Prog} {d : Dep} (hd : DepOK p d) {sol : List ℚ} (hw : sol.length + 1 = cstWidth p.nvar p.npar p.stmts.length)
    (hne : ∃ s t q : List ℚ, DepInst d.bpoly p.nvar p.nvar p.npar s t q)
    (h : ∀ s t q : List ℚ, DepInst d.bpoly p.nvar p.nvar p.npar s t q →
      hypValue p.nvar p.npar sol d.dest t - hypValue p.nvar p.npar sol d.src s ≤ boundValue p.npar sol q ∧
      -boundValue p.npar sol q ≤ hypValue p.nvar p.npar sol d.dest t - hypValue p.nvar p.npar sol d.src s) :
    (∀ r ∈ boundRows p d, r.Sat sol) ∧ ∀ r ∈ lowerRows p d, r.Sat sol := by
  have hne' : ∃ x : List ℚ, x.length + 1 = d.bpoly.ncols ∧ d.bpoly.Sat x := by
    obtain ⟨s, t, q, hi⟩ := hne
    exact ⟨_, by simp [hi.hs, hi.ht, hi.hp, hd.bcols]; omega, hi.sat⟩
  have hb := phiBound_shape p d
  have hl := phiLower_shape p d
  have ll := localSol_len0 p d sol hd.src hd.dest hw (p.npar + 1) (le_refl _)
  rw [boundRows_eq, mapRows_scatter_sat p d.src d.dest (p.npar + 1) _ _ sol hd.src hd.dest hw (le_refl _) (boundLocal_shape p d).1 rfl
    (boundLocal_shape p d).2, boundLocal_eq,
    lowerRows_eq, mapRows_scatter_sat p d.src d.dest (p.npar + 1) _ _ sol hd.src hd.dest hw (le_refl _) (lowerLocal_shape p d).1 rfl
    (lowerLocal_shape p d).2]
  unfold lowerLocal
  constructor
  · refine C06_farkas_complete d.bpoly (phiBound p d) _ _ hd.bwf (by rw [hb.1, hd.bcols]) hb.2 ll hne' fun x hx hs => ?_
    obtain ⟨s, t, q, h1, h2, h3, rfl⟩ := exists_split3 x p.nvar p.npar (by rw [hd.bcols] at hx; omega)
    unfold phiBound
    rw [bound_form p d sol s t q hd.src hd.dest hw h1 h2 h3]
    linarith [(h s t q ⟨h1, h2, h3, hs⟩).1]
  · refine C06_farkas_complete d.bpoly (phiLower p d) _ _ hd.bwf (by rw [hl.1, hd.bcols]) hl.2 ll hne' fun x hx hs => ?_
    obtain ⟨s, t, q, h1, h2, h3, rfl⟩ := exists_split3 x p.nvar p.npar (by rw [hd.bcols] at hx; omega)
    rw [lower_form p d sol s t q hd.src hd.dest hw h1 h2 h3]
    linarith [(h s t q ⟨h1, h2, h3, hs⟩).2]

end Pluto
