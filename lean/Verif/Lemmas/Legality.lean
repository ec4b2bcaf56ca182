import Verif.Lemmas.Framework
import Verif.Spec.Prog
import Verif.Lemmas.Simplify

/-! Meaning of the systems built in lib/framework.cpp. -/

namespace Pluto

section generic
variable {R : Type*} [CommRing R] [LinearOrder R] [IsStrictOrderedRing R]

theorem PadZero.at {p : Prog} {sol : List R} (hz : PadZero p sol) (i : Nat) (hi : i < p.stmts.length) :
    ∀ k < p.nvar, (origOf p i).getD k true = false → sol.getD (stmtOffset p.nvar p.npar i + k) 0 = 0 := by
  intro k hk ho
  apply hz i p.stmts[i] (by simp [hi]) k hk
  simpa [origOf, hi] using ho

/-- The padding columns of one statement are zero. -/
def PadZeroAt (p : Prog) (sol : List R) (i : Nat) : Prop :=
  ∀ k < p.nvar, (origOf p i).getD k true = false → sol.getD (stmtOffset p.nvar p.npar i + k) 0 = 0

theorem mapRows_zeroPad_sat' (p : Prog) (src dest : Nat) (rows : List Row) (sol : List R)
    (h1 : src < p.stmts.length) (h2 : dest < p.stmts.length)
    (hs : sol.length + 1 = cstWidth p.nvar p.npar p.stmts.length) (hz1 : PadZeroAt p sol src)
    (hz2 : PadZeroAt p sol dest)
    (hl : ∀ r ∈ rows, r.val.length = cstWidth p.nvar p.npar p.stmts.length) :
    (∀ r ∈ mapRows (zeroPad p.nvar p.npar src dest (origOf p src) (origOf p dest)) rows, r.Sat sol) ↔
      ∀ r ∈ rows, r.Sat sol := by
  unfold mapRows
  simp only [List.forall_mem_map]
  refine forall₂_congr fun r hr => ?_
  have := (zeroPad_aff p.nvar p.npar p.stmts.length src dest (origOf p src) (origOf p dest) r.val sol
    h1 h2 hs (hl r hr) hz1 hz2).1
  unfold Row.Sat
  rw [this]

theorem mapRows_zeroPad_sat (p : Prog) (src dest : Nat) (rows : List Row) (sol : List R)
    (h1 : src < p.stmts.length) (h2 : dest < p.stmts.length)
    (hs : sol.length + 1 = cstWidth p.nvar p.npar p.stmts.length) (hz : PadZero p sol)
    (hl : ∀ r ∈ rows, r.val.length = cstWidth p.nvar p.npar p.stmts.length) :
    (∀ r ∈ mapRows (zeroPad p.nvar p.npar src dest (origOf p src) (origOf p dest)) rows, r.Sat sol) ↔
      ∀ r ∈ rows, r.Sat sol :=
  mapRows_zeroPad_sat' p src dest rows sol h1 h2 hs (hz.at src h1) (hz.at dest h2) hl

theorem mapRows_scatter_sat (p : Prog) (src dest lead w : Nat) (c : Cst) (sol : List R)
    (h1 : src < p.stmts.length) (h2 : dest < p.stmts.length)
    (hs : sol.length + 1 = cstWidth p.nvar p.npar p.stmts.length) (hl : lead ≤ p.npar + 1)
    (hc : c.WF) (hw : c.ncols = w)
    (hn : w = if src = dest then lead + (p.nvar + 1) + 1 else lead + 2 * (p.nvar + 1) + 1) :
    (∀ r ∈ mapRows (scatterRow p.nvar p.npar p.stmts.length src dest lead) c.rows, r.Sat sol) ↔
      c.Sat (localSol p.nvar p.npar src dest lead sol) := by
  unfold mapRows Cst.Sat
  simp only [List.forall_mem_map]
  refine forall₂_congr fun r hr => ?_
  unfold Row.Sat
  rw [scatterRow_aff p.nvar p.npar p.stmts.length src dest lead r.val sol h1 h2 hs hl
    (by rw [hc.2 r hr, hw, hn])]

theorem mapRows_scatter_len (p : Prog) (src dest lead : Nat) (rows : List Row)
    (h1 : src < p.stmts.length) (h2 : dest < p.stmts.length) (hl : lead ≤ p.npar + 1) :
    ∀ r ∈ mapRows (scatterRow p.nvar p.npar p.stmts.length src dest lead) rows,
      r.val.length = cstWidth p.nvar p.npar p.stmts.length := by
  unfold mapRows
  simp only [List.forall_mem_map]
  intro r _
  exact scatterRow_length _ _ _ _ _ _ _ h1 h2 hl

/-- Local Farkas system of the validity form. -/
def validLocal (p : Prog) (d : Dep) (k : Int) : Cst :=
  if d.src = d.dest then
      farkasLemmaAffine d.dpoly (p.nvar + 1 + 1) (phiValidIntra p.nvar p.npar k)
    else farkasLemmaAffine d.dpoly (2 * (p.nvar + 1) + 1) (phiValidInter p.nvar p.npar k)

/-- Local Farkas system of the bounding form. -/
def boundLocal (p : Prog) (d : Dep) : Cst :=
  if d.src = d.dest then
      farkasLemmaAffine d.bpoly (p.npar + 1 + (p.nvar + 1) + 1) (phiBoundIntra p.nvar p.npar)
    else farkasLemmaAffine d.bpoly (p.npar + 1 + 2 * (p.nvar + 1) + 1) (phiBoundInter p.nvar p.npar)

theorem validLocal_shape (p : Prog) (d : Dep) (k : Int) : (validLocal p d k).WF ∧
    (validLocal p d k).ncols =
      if d.src = d.dest then 0 + (p.nvar + 1) + 1 else 0 + 2 * (p.nvar + 1) + 1 := by
  have hsh := phi_shapes p.nvar p.npar k
  unfold validLocal
  split
  · have := C06_farkas_shape d.dpoly _ (p.nvar + 1 + 1) (by omega) hsh.2.1.2
    exact ⟨this.1, by rw [this.2]; omega⟩
  · have := C06_farkas_shape d.dpoly _ (2 * (p.nvar + 1) + 1) (by omega) hsh.1.2
    exact ⟨this.1, by rw [this.2]; omega⟩

theorem boundLocal_shape (p : Prog) (d : Dep) : (boundLocal p d).WF ∧
    (boundLocal p d).ncols = if d.src = d.dest then p.npar + 1 + (p.nvar + 1) + 1
      else p.npar + 1 + 2 * (p.nvar + 1) + 1 := by
  have hsh := phi_shapes p.nvar p.npar 0
  unfold boundLocal
  split
  · exact C06_farkas_shape d.bpoly _ (p.npar + 1 + (p.nvar + 1) + 1) (by omega) hsh.2.2.2.2
  · exact C06_farkas_shape d.bpoly _ (p.npar + 1 + 2 * (p.nvar + 1) + 1) (by omega) hsh.2.2.1.2

/-- The system of one dependence is the conjunction of its two Farkas systems at the local
coefficients. -/
theorem depCst_sat_iff' (nodepbound : Bool) (p : Prog) (d : Dep) (sol : List R)
    (h1 : d.src < p.stmts.length) (h2 : d.dest < p.stmts.length)
    (hs : sol.length + 1 = cstWidth p.nvar p.npar p.stmts.length) (hz1 : PadZeroAt p sol d.src)
    (hz2 : PadZeroAt p sol d.dest) :
    (depCst nodepbound p d).Sat sol ↔
      (d.rar = false → (validLocal p d 0).Sat (localSol p.nvar p.npar d.src d.dest 0 sol)) ∧
      (nodepbound = false →
        (boundLocal p d).Sat (localSol p.nvar p.npar d.src d.dest (p.npar + 1) sol)) := by
  have hv := mapRows_scatter_sat p d.src d.dest 0 _ (validLocal p d 0) sol h1 h2 hs (by omega)
    (validLocal_shape p d 0).1 rfl (validLocal_shape p d 0).2
  have hb := mapRows_scatter_sat p d.src d.dest (p.npar + 1) _ (boundLocal p d) sol h1 h2 hs (le_refl _)
    (boundLocal_shape p d).1 rfl (boundLocal_shape p d).2
  have lv := mapRows_scatter_len p d.src d.dest 0 (validLocal p d 0).rows h1 h2 (by omega)
  have lb := mapRows_scatter_len p d.src d.dest (p.npar + 1) (boundLocal p d).rows h1 h2 (le_refl _)
  have ev : validRows p d = mapRows (scatterRow p.nvar p.npar p.stmts.length d.src d.dest 0)
      (validLocal p d 0).rows := rfl
  have eb : boundRows p d = mapRows (scatterRow p.nvar p.npar p.stmts.length d.src d.dest (p.npar + 1))
      (boundLocal p d).rows := rfl
  unfold depCst
  rw [Cst.Sat, mapRows_zeroPad_sat' p d.src d.dest _ sol h1 h2 hs hz1 hz2]
  · rw [List.forall_mem_append, ← hv, ← hb, ev, eb]
    cases d.rar <;> cases nodepbound <;> simp
  · rw [List.forall_mem_append, ev, eb]
    constructor
    · cases d.rar <;> simp; simpa using lv
    · cases nodepbound <;> simp; simpa using lb

theorem depCst_sat_iff (nodepbound : Bool) (p : Prog) (d : Dep) (sol : List R)
    (h1 : d.src < p.stmts.length) (h2 : d.dest < p.stmts.length)
    (hs : sol.length + 1 = cstWidth p.nvar p.npar p.stmts.length) (hz : PadZero p sol) :
    (depCst nodepbound p d).Sat sol ↔
      (d.rar = false → (validLocal p d 0).Sat (localSol p.nvar p.npar d.src d.dest 0 sol)) ∧
      (nodepbound = false →
        (boundLocal p d).Sat (localSol p.nvar p.npar d.src d.dest (p.npar + 1) sol)) :=
  depCst_sat_iff' nodepbound p d sol h1 h2 hs (hz.at _ h1) (hz.at _ h2)

theorem localSol_zero_inter (nvar npar src dest : Nat) (sol : List R) (h : src ≠ dest) :
    localSol nvar npar src dest 0 sol = solSlice nvar npar sol src ++ solSlice nvar npar sol dest := by
  simp [localSol, h]

theorem hypValue_eq (nvar npar : Nat) (sol : List R) (i : Nat) (x : List R) :
    hypValue nvar npar sol i x = ldot (solSlice nvar npar sol i) (x ++ [1]) := rfl

/-- The form behind the validity system is `phi(t) - phi(s) + k`. -/
theorem valid_form (p : Prog) (d : Dep) (k : Int) (sol s t q : List R)
    (h1 : d.src < p.stmts.length) (h2 : d.dest < p.stmts.length)
    (hs : sol.length + 1 = cstWidth p.nvar p.npar p.stmts.length)
    (ls : s.length = p.nvar) (lt : t.length = p.nvar) (lq : q.length = p.npar) :
    formValue (if d.src = d.dest then phiValidIntra p.nvar p.npar k else phiValidInter p.nvar p.npar k)
        (localSol p.nvar p.npar d.src d.dest 0 sol) (s ++ t ++ q) =
      hypValue p.nvar p.npar sol d.dest t - hypValue p.nvar p.npar sol d.src s + k := by
  have l1 := solSlice_length p.nvar p.npar p.stmts.length sol d.src h1 hs
  have l2 := solSlice_length p.nvar p.npar p.stmts.length sol d.dest h2 hs
  rw [hypValue_eq, hypValue_eq]
  by_cases e : d.src = d.dest
  · have : localSol p.nvar p.npar d.src d.dest 0 sol = solSlice p.nvar p.npar sol d.src := by
      simp [localSol, e]
    rw [if_pos e, this, phiValidIntra_value _ _ _ _ _ _ _ l1 ls lt lq, e]
  · rw [if_neg e, localSol_zero_inter _ _ _ _ _ e, phiValidInter_value _ _ _ _ _ _ _ _ l1 l2 ls lt lq]

/-- The form behind the bounding system is `u.p + w - (phi(t) - phi(s))`. -/
theorem bound_form (p : Prog) (d : Dep) (sol s t q : List R)
    (h1 : d.src < p.stmts.length) (h2 : d.dest < p.stmts.length)
    (hs : sol.length + 1 = cstWidth p.nvar p.npar p.stmts.length)
    (ls : s.length = p.nvar) (lt : t.length = p.nvar) (lq : q.length = p.npar) :
    formValue (if d.src = d.dest then phiBoundIntra p.nvar p.npar else phiBoundInter p.nvar p.npar)
        (localSol p.nvar p.npar d.src d.dest (p.npar + 1) sol) (s ++ t ++ q) =
      boundValue p.npar sol q -
        (hypValue p.nvar p.npar sol d.dest t - hypValue p.nvar p.npar sol d.src s) := by
  have l1 := solSlice_length p.nvar p.npar p.stmts.length sol d.src h1 hs
  have l2 := solSlice_length p.nvar p.npar p.stmts.length sol d.dest h2 hs
  have l0 : (sol.take (p.npar + 1)).length = p.npar + 1 := by
    have := stmtOffset_bound p.nvar p.npar p.stmts.length d.src h1
    unfold stmtOffset at this
    simp; omega
  rw [hypValue_eq, hypValue_eq, boundValue]
  by_cases e : d.src = d.dest
  · have : localSol p.nvar p.npar d.src d.dest (p.npar + 1) sol =
        sol.take (p.npar + 1) ++ solSlice p.nvar p.npar sol d.src := by
      simp [localSol, e]
    rw [if_pos e, this, phiBoundIntra_value _ _ _ _ _ _ _ l0 l1 ls lt lq, e]
  · have : localSol p.nvar p.npar d.src d.dest (p.npar + 1) sol =
        sol.take (p.npar + 1) ++ solSlice p.nvar p.npar sol d.src ++ solSlice p.nvar p.npar sol d.dest := by
      simp [localSol, e]
    rw [if_neg e, this, phiBoundInter_value _ _ _ _ _ _ _ _ l0 l1 l2 ls lt lq]

/-- Feautrier system of one dependence. -/
theorem feautrierDep_sat_iff (p : Prog) (d : Dep) (sol : List R)
    (h1 : d.src < p.stmts.length) (h2 : d.dest < p.stmts.length)
    (hs : sol.length + 1 = cstWidth p.nvar p.npar p.stmts.length) (hz : PadZero p sol) :
    (feautrierDep p d).Sat sol ↔
      (d.rar = false → (validLocal p d (-1)).Sat (localSol p.nvar p.npar d.src d.dest 0 sol)) := by
  have hv := mapRows_scatter_sat p d.src d.dest 0 _ (validLocal p d (-1)) sol h1 h2 hs (by omega)
    (validLocal_shape p d (-1)).1 rfl (validLocal_shape p d (-1)).2
  have lv := mapRows_scatter_len p d.src d.dest 0 (validLocal p d (-1)).rows h1 h2 (by omega)
  have e : feautrierDep p d = ⟨cstWidth p.nvar p.npar p.stmts.length,
      mapRows (zeroPad p.nvar p.npar d.src d.dest (origOf p d.src) (origOf p d.dest))
       (if d.rar then []
        else mapRows (scatterRow p.nvar p.npar p.stmts.length d.src d.dest 0)
          (validLocal p d (-1)).rows)⟩ := rfl
  rw [e, Cst.Sat, mapRows_zeroPad_sat p d.src d.dest _ sol h1 h2 hs hz]
  · rw [← hv]
    cases d.rar <;> simp
  · cases d.rar <;> simp
    simpa using lv

/-- Widths of the systems of a dependence. -/
theorem depCst_wf (nodepbound : Bool) (p : Prog) (d : Dep) (h1 : d.src < p.stmts.length)
    (h2 : d.dest < p.stmts.length) :
    (depCst nodepbound p d).WF ∧ (depCst nodepbound p d).ncols = cstWidth p.nvar p.npar p.stmts.length := by
  have lv := mapRows_scatter_len p d.src d.dest 0 (validLocal p d 0).rows h1 h2 (by omega)
  have lb := mapRows_scatter_len p d.src d.dest (p.npar + 1) (boundLocal p d).rows h1 h2 (le_refl _)
  have zl : ∀ row : List Int, (zeroPad p.nvar p.npar d.src d.dest (origOf p d.src) (origOf p d.dest) row).length
      = row.length := by
    intro row
    unfold zeroPad
    generalize List.range p.nvar = ks
    induction ks generalizing row with
    | nil => rfl
    | cons k ks ih =>
      rw [List.foldl_cons, ih]
      dsimp only
      split <;> split <;> simp
  refine ⟨⟨by unfold depCst cstWidth; simp, ?_⟩, rfl⟩
  intro r hr
  unfold depCst at hr ⊢
  simp only [mapRows, List.mem_map] at hr
  obtain ⟨r', hr', rfl⟩ := hr
  simp only [zl]
  rcases List.mem_append.mp hr' with h | h
  · cases hh : d.rar
    · rw [hh] at h; exact lv r' h
    · rw [hh] at h; simp at h
  · cases nodepbound
    · exact lb r' h
    · simp at h

theorem permStep_sat (rarOpt nodepbound : Bool) (p : Prog) (st : Cst × Nat) (d : Dep) (sol : List R)
    (hw : st.1.WF) (hn : st.1.ncols = cstWidth p.nvar p.npar p.stmts.length)
    (h1 : d.src < p.stmts.length) (h2 : d.dest < p.stmts.length) :
    ((permStep rarOpt nodepbound p st d).1.WF ∧
      (permStep rarOpt nodepbound p st d).1.ncols = cstWidth p.nvar p.npar p.stmts.length) ∧
    ((permStep rarOpt nodepbound p st d).1.Sat sol ↔ st.1.Sat sol ∧
      ((d.rar = true → rarOpt = true) → d.satisfied = false → (depCst nodepbound p d).Sat sol)) := by
  have hd := depCst_wf nodepbound p d h1 h2
  have hg : (addCst st.1 (depCst nodepbound p d)).WF := by
    refine ⟨hw.1, ?_⟩
    intro r hr
    rcases List.mem_append.mp hr with h | h
    · exact hw.2 r h
    · rw [hd.1.2 r h, hd.2]; exact hn.symm
  have hgs : (addCst st.1 (depCst nodepbound p d)).Sat sol ↔
      st.1.Sat sol ∧ (depCst nodepbound p d).Sat sol := by
    simp only [addCst, Cst.Sat, List.forall_mem_append]
  unfold permStep
  by_cases hr : rarOpt = false ∧ d.rar = true
  · rw [if_pos hr]
    refine ⟨⟨hw, hn⟩, ?_⟩
    simp [hr.1, hr.2]
  · rw [if_neg hr]
    have hr' : d.rar = true → rarOpt = true := by
      intro h; by_contra hc; exact hr ⟨by simpa using hc, h⟩
    cases hsat : d.satisfied
    · simp only [Bool.false_eq_true, if_false]
      split
      · refine ⟨⟨simplify_wf _ hg, (simplify_ncols _).trans hn⟩, ?_⟩
        rw [simplify_sat, hgs]
        exact ⟨fun h => ⟨h.1, fun _ _ => h.2⟩, fun h => ⟨h.1, h.2 hr' trivial⟩⟩
      · refine ⟨⟨hg, hn⟩, ?_⟩
        rw [hgs]
        exact ⟨fun h => ⟨h.1, fun _ _ => h.2⟩, fun h => ⟨h.1, h.2 hr' trivial⟩⟩
    · simp [hw, hn]

end generic

end Pluto

namespace Pluto
variable {R : Type*} [CommRing R] [LinearOrder R] [IsStrictOrderedRing R]

theorem permFold_sat (rarOpt nodepbound : Bool) (p : Prog) (ds : List Dep) (st : Cst × Nat) (sol : List R)
    (hw : st.1.WF) (hn : st.1.ncols = cstWidth p.nvar p.npar p.stmts.length)
    (hd : ∀ d ∈ ds, d.src < p.stmts.length ∧ d.dest < p.stmts.length) :
    (ds.foldl (permStep rarOpt nodepbound p) st).1.Sat sol ↔ st.1.Sat sol ∧
      ∀ d ∈ ds, (d.rar = true → rarOpt = true) → d.satisfied = false →
        (depCst nodepbound p d).Sat sol := by
  induction ds generalizing st with
  | nil => simp
  | cons d ds ih =>
    have h := permStep_sat rarOpt nodepbound p st d sol hw hn (hd d (by simp)).1 (hd d (by simp)).2
    rw [List.foldl_cons, ih _ h.1.1 h.1.2 (fun d' hd' => hd d' (by simp [hd'])), h.2,
      List.forall_mem_cons, and_assoc]

theorem permutability_sat (rarOpt nodepbound : Bool) (p : Prog) (sol : List R)
    (hd : ∀ d ∈ p.deps, d.src < p.stmts.length ∧ d.dest < p.stmts.length) :
    (permutabilityConstraints rarOpt nodepbound p).Sat sol ↔
      ∀ d ∈ p.deps, (d.rar = true → rarOpt = true) → d.satisfied = false →
        (depCst nodepbound p d).Sat sol := by
  unfold permutabilityConstraints
  rw [simplify_sat, permFold_sat]
  · simp [Cst.Sat]
  · exact ⟨by simp [cstWidth], by simp⟩
  · rfl
  · exact hd

theorem feautrierFold_sat (rarOpt : Bool) (p : Prog) (stmts : List Nat) (ds : List Dep) (g : Cst)
    (sol : List R) :
    (ds.foldl (fun g d =>
      if rarOpt = false ∧ d.rar = true then g
      else if d.src ∈ stmts ∧ d.dest ∈ stmts then addCst g (feautrierDep p d) else g) g).Sat sol ↔
      g.Sat sol ∧ ∀ d ∈ ds, (d.rar = true → rarOpt = true) → d.src ∈ stmts → d.dest ∈ stmts →
        (feautrierDep p d).Sat sol := by
  induction ds generalizing g with
  | nil => simp
  | cons d ds ih =>
    rw [List.foldl_cons, ih, List.forall_mem_cons, ← and_assoc]
    refine and_congr_left fun _ => ?_
    by_cases hr : rarOpt = false ∧ d.rar = true
    · rw [if_pos hr]; simp [hr.1, hr.2]
    · rw [if_neg hr]
      have hr' : d.rar = true → rarOpt = true := by
        intro h; by_contra hc; exact hr ⟨by simpa using hc, h⟩
      by_cases hm : d.src ∈ stmts ∧ d.dest ∈ stmts
      · rw [if_pos hm]
        simp only [addCst, Cst.Sat, List.forall_mem_append]
        exact and_congr_right fun _ => ⟨fun h _ _ _ => h, fun h => h hr' hm.1 hm.2⟩
      · rw [if_neg hm]
        exact ⟨fun h => ⟨h, fun _ h1 h2 => absurd ⟨h1, h2⟩ hm⟩, fun h => h.1⟩

theorem feautrier_sat (rarOpt : Bool) (p : Prog) (stmts : List Nat) (sol : List R) :
    (feautrierConstraints rarOpt p stmts).Sat sol ↔
      ∀ d ∈ p.deps, (d.rar = true → rarOpt = true) → d.src ∈ stmts → d.dest ∈ stmts →
        (feautrierDep p d).Sat sol := by
  unfold feautrierConstraints
  rw [simplify_sat, feautrierFold_sat]
  simp [Cst.Sat]

theorem exists_split3 (x : List R) (n m : Nat) (h : x.length = 2 * n + m) :
    ∃ s t q : List R, s.length = n ∧ t.length = n ∧ q.length = m ∧ x = s ++ t ++ q := by
  refine ⟨x.take n, (x.drop n).take n, (x.drop n).drop n, ?_, ?_, ?_, ?_⟩
  · simp; omega
  · simp; omega
  · simp; omega
  · simp only [List.append_assoc, List.take_append_drop]

/-- The local coefficient vector has the width of the template. -/
theorem localSol_len0 (p : Prog) (d : Dep) (sol : List R) (h1 : d.src < p.stmts.length)
    (h2 : d.dest < p.stmts.length) (hs : sol.length + 1 = cstWidth p.nvar p.npar p.stmts.length)
    (lead : Nat) (hl : lead ≤ p.npar + 1) :
    (localSol p.nvar p.npar d.src d.dest lead sol).length + 1 =
      (if d.src = d.dest then lead + (p.nvar + 1) + 1 else lead + 2 * (p.nvar + 1) + 1) :=
  localSol_length p.nvar p.npar p.stmts.length d.src d.dest lead sol h1 h2 hs hl

/-- Template of the validity form of a dependence. -/
def phiValid (p : Prog) (d : Dep) (k : Int) : List (List Int) :=
  if d.src = d.dest then phiValidIntra p.nvar p.npar k else phiValidInter p.nvar p.npar k

/-- Template of the bounding form of a dependence. -/
def phiBound (p : Prog) (d : Dep) : List (List Int) :=
  if d.src = d.dest then phiBoundIntra p.nvar p.npar else phiBoundInter p.nvar p.npar

theorem validLocal_eq (p : Prog) (d : Dep) (k : Int) : validLocal p d k =
    farkasLemmaAffine d.dpoly (if d.src = d.dest then 0 + (p.nvar + 1) + 1 else 0 + 2 * (p.nvar + 1) + 1)
      (phiValid p d k) := by
  unfold validLocal phiValid
  split <;> simp

theorem boundLocal_eq (p : Prog) (d : Dep) : boundLocal p d =
    farkasLemmaAffine d.bpoly (if d.src = d.dest then p.npar + 1 + (p.nvar + 1) + 1
      else p.npar + 1 + 2 * (p.nvar + 1) + 1) (phiBound p d) := by
  unfold boundLocal phiBound
  split <;> rfl

theorem phiValid_shape (p : Prog) (d : Dep) (k : Int) : (phiValid p d k).length = 2 * p.nvar + p.npar + 1 ∧
    ∀ f ∈ phiValid p d k, f.length =
      (if d.src = d.dest then 0 + (p.nvar + 1) + 1 else 0 + 2 * (p.nvar + 1) + 1) := by
  have hsh := phi_shapes p.nvar p.npar k
  unfold phiValid
  split
  · exact ⟨hsh.2.1.1, fun f hf => by rw [hsh.2.1.2 f hf]; omega⟩
  · exact ⟨hsh.1.1, fun f hf => by rw [hsh.1.2 f hf]; omega⟩

theorem phiBound_shape (p : Prog) (d : Dep) : (phiBound p d).length = 2 * p.nvar + p.npar + 1 ∧
    ∀ f ∈ phiBound p d, f.length = (if d.src = d.dest then p.npar + 1 + (p.nvar + 1) + 1
      else p.npar + 1 + 2 * (p.nvar + 1) + 1) := by
  have hsh := phi_shapes p.nvar p.npar 0
  unfold phiBound
  split
  · exact ⟨hsh.2.2.2.1, hsh.2.2.2.2⟩
  · exact ⟨hsh.2.2.1.1, hsh.2.2.1.2⟩

theorem solLen_width {p : Prog} {sol : List R} (h : SolLen p sol) :
    sol.length + 1 = cstWidth p.nvar p.npar p.stmts.length := by
  unfold SolLen at h; unfold cstWidth; omega

end Pluto
