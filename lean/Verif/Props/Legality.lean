import Verif.Lemmas.Legality

/-!
C07, C08, C09, C39: the constraints of lib/framework.cpp mean what they are used for.

`hypValue`, `boundValue`, `DepInst`, `PadZero`, `SolLen`, `DepOK` are in Verif/Spec.
-/

namespace Pluto

section int

/-- C07 (one dependence). An integer coefficient vector in the permutability system of a non-input
dependence gives hyperplanes with `phi(t) - phi(s) >= 0` on every dependent pair of instances. -/
theorem C07_dep_legal (nodepbound : Bool) (p : Prog) (d : Dep) (sol : List Int) (hd : DepOK p d)
    (hrar : d.rar = false) (hl : SolLen p sol) (hz : PadZero p sol)
    (hsat : (depCst nodepbound p d).Sat sol) (s t q : List Int)
    (hi : DepInst d.dpoly p.nvar p.nvar p.npar s t q) :
    0 ≤ hypValue p.nvar p.npar sol d.dest t - hypValue p.nvar p.npar sol d.src s := by
  have hw := solLen_width hl
  have h := ((depCst_sat_iff nodepbound p d sol hd.src hd.dest hw hz).mp hsat).1 hrar
  rw [validLocal_eq] at h
  have hsh := phiValid_shape p d 0
  have := C06_farkas_sound_int d.dpoly (phiValid p d 0) _ _ hd.dwf (by rw [hsh.1, hd.dcols]) hsh.2
    (localSol_len0 p d sol hd.src hd.dest hw 0 (by omega)) h (s ++ t ++ q)
    (by simp [hi.hs, hi.ht, hi.hp, hd.dcols]; omega) hi.sat
  have e := valid_form p d 0 sol s t q hd.src hd.dest hw hi.hs hi.ht hi.hp
  unfold phiValid at this
  rw [e] at this
  simpa using this

/-- C08 (one dependence). The bound `u.p + w` of the coefficient vector dominates
`phi(t) - phi(s)` on every pair of the bounding polyhedron, input dependences included. -/
theorem C08_dep_bounded (p : Prog) (d : Dep) (sol : List Int) (hd : DepOK p d)
    (hl : SolLen p sol) (hz : PadZero p sol)
    (hsat : (depCst false p d).Sat sol) (s t q : List Int)
    (hi : DepInst d.bpoly p.nvar p.nvar p.npar s t q) :
    hypValue p.nvar p.npar sol d.dest t - hypValue p.nvar p.npar sol d.src s ≤
      boundValue p.npar sol q := by
  have hw := solLen_width hl
  have h := ((depCst_sat_iff false p d sol hd.src hd.dest hw hz).mp hsat).2 rfl
  rw [boundLocal_eq] at h
  have hsh := phiBound_shape p d
  have := C06_farkas_sound_int d.bpoly (phiBound p d) _ _ hd.bwf (by rw [hsh.1, hd.bcols]) hsh.2
    (localSol_len0 p d sol hd.src hd.dest hw (p.npar + 1) (le_refl _)) h (s ++ t ++ q)
    (by simp [hi.hs, hi.ht, hi.hp, hd.bcols]; omega) hi.sat
  have e := bound_form p d sol s t q hd.src hd.dest hw hi.hs hi.ht hi.hp
  unfold phiBound at this
  rw [e] at this
  omega

/-- C09 (one dependence). The one-dimensional schedule system forces `phi(t) - phi(s) >= 1`. -/
theorem C09_dep_strict (p : Prog) (d : Dep) (sol : List Int) (hd : DepOK p d)
    (hrar : d.rar = false) (hl : SolLen p sol) (hz : PadZero p sol)
    (hsat : (feautrierDep p d).Sat sol) (s t q : List Int)
    (hi : DepInst d.dpoly p.nvar p.nvar p.npar s t q) :
    1 ≤ hypValue p.nvar p.npar sol d.dest t - hypValue p.nvar p.npar sol d.src s := by
  have hw := solLen_width hl
  have h := (feautrierDep_sat_iff p d sol hd.src hd.dest hw hz).mp hsat hrar
  rw [validLocal_eq] at h
  have hsh := phiValid_shape p d (-1)
  have := C06_farkas_sound_int d.dpoly (phiValid p d (-1)) _ _ hd.dwf (by rw [hsh.1, hd.dcols]) hsh.2
    (localSol_len0 p d sol hd.src hd.dest hw 0 (by omega)) h (s ++ t ++ q)
    (by simp [hi.hs, hi.ht, hi.hp, hd.dcols]; omega) hi.sat
  have e := valid_form p d (-1) sol s t q hd.src hd.dest hw hi.hs hi.ht hi.hp
  unfold phiValid at this
  rw [e] at this
  push_cast at this
  omega

/-- C07. A solution of the system the scheduler solves is legal for every dependence that is not
yet satisfied (and that is not an input dependence). -/
theorem C07_permutability_legal (rarOpt nodepbound : Bool) (p : Prog) (sol : List Int)
    (hp : ∀ d ∈ p.deps, DepOK p d) (hl : SolLen p sol) (hz : PadZero p sol)
    (hsat : (permutabilityConstraints rarOpt nodepbound p).Sat sol)
    (d : Dep) (hd : d ∈ p.deps) (hrar : d.rar = false) (hun : d.satisfied = false)
    (s t q : List Int) (hi : DepInst d.dpoly p.nvar p.nvar p.npar s t q) :
    0 ≤ hypValue p.nvar p.npar sol d.dest t - hypValue p.nvar p.npar sol d.src s := by
  rw [permutability_sat _ _ _ _ (fun d hd => ⟨(hp d hd).src, (hp d hd).dest⟩)] at hsat
  exact C07_dep_legal nodepbound p d sol (hp d hd) hrar hl hz
    (hsat d hd (by simp [hrar]) hun) s t q hi

/-- C08. The same for the bounding function of the whole program. -/
theorem C08_permutability_bounded (rarOpt : Bool) (p : Prog) (sol : List Int)
    (hp : ∀ d ∈ p.deps, DepOK p d) (hl : SolLen p sol) (hz : PadZero p sol)
    (hsat : (permutabilityConstraints rarOpt false p).Sat sol)
    (d : Dep) (hd : d ∈ p.deps) (hrar : d.rar = true → rarOpt = true) (hun : d.satisfied = false)
    (s t q : List Int) (hi : DepInst d.bpoly p.nvar p.nvar p.npar s t q) :
    hypValue p.nvar p.npar sol d.dest t - hypValue p.nvar p.npar sol d.src s ≤
      boundValue p.npar sol q := by
  rw [permutability_sat _ _ _ _ (fun d hd => ⟨(hp d hd).src, (hp d hd).dest⟩)] at hsat
  exact C08_dep_bounded p d sol (hp d hd) hl hz (hsat d hd hrar hun) s t q hi

/-- C09. The system built for a set of statements makes every non-input dependence inside the set
strictly satisfied. -/
theorem C09_feautrier_strict (rarOpt : Bool) (p : Prog) (stmts : List Nat) (sol : List Int)
    (hp : ∀ d ∈ p.deps, DepOK p d) (hl : SolLen p sol) (hz : PadZero p sol)
    (hsat : (feautrierConstraints rarOpt p stmts).Sat sol)
    (d : Dep) (hd : d ∈ p.deps) (hrar : d.rar = false) (hs : d.src ∈ stmts) (ht : d.dest ∈ stmts)
    (s t q : List Int) (hi : DepInst d.dpoly p.nvar p.nvar p.npar s t q) :
    1 ≤ hypValue p.nvar p.npar sol d.dest t - hypValue p.nvar p.npar sol d.src s := by
  rw [feautrier_sat] at hsat
  exact C09_dep_strict p d sol (hp d hd) hrar hl hz (hsat d hd (by simp [hrar]) hs ht) s t q hi

/-- C39. The row added to the transformation of statement `j`, evaluated at an instance, is the
value of the hyperplane that the constraints talk about; it has the width of a transformation row. -/
theorem C39_row_value (p : Prog) (sol : List Int) (hl : SolLen p sol) (j : Nat)
    (hj : j < p.stmts.length) (x q : List Int) (hx : x.length = p.nvar) (hq : q.length = p.npar) :
    (hyperplaneRow p.nvar p.npar sol j).length = p.nvar + p.npar + 1 ∧
    aff (hyperplaneRow p.nvar p.npar sol j) (x ++ q) = hypValue p.nvar p.npar sol j x := by
  have hw := solLen_width hl
  have hlen := solSlice_length p.nvar p.npar p.stmts.length sol j hj hw
  have hb := stmtOffset_bound p.nvar p.npar p.stmts.length j hj
  have e1 : (sol.drop (stmtOffset p.nvar p.npar j)).take p.nvar =
      (solSlice p.nvar p.npar sol j).take p.nvar := by
    unfold solSlice; rw [List.take_take]; congr 1; omega
  have e2 : coef sol (stmtOffset p.nvar p.npar j + p.nvar) =
      (solSlice p.nvar p.npar sol j).getD p.nvar 0 := by
    unfold solSlice coef
    simp [List.getD_eq_getElem?_getD, List.getElem?_take, List.getElem?_drop]
  constructor
  · simp [hyperplaneRow, zrow]; omega
  · unfold hyperplaneRow aff
    rw [List.append_assoc, List.append_assoc,
      dot_append _ _ _ _ (by simp; omega), dot_append _ _ _ _ (by simp [zrow, hq]), dot_zrow, hypValue_eq,
      ldot_take_snoc _ _ p.nvar hlen hx, e1, e2, dot_int]
    simp

/-- C39. Columns of padding dimensions and of parameters are zero. -/
theorem C39_row_zero (p : Prog) (sol : List Int) (hl : SolLen p sol) (hz : PadZero p sol) (j : Nat)
    (st : Stmt) (hst : p.stmts[j]? = some st) (k : Nat) :
    (k < p.nvar → st.isOrig.getD k true = false → coef (hyperplaneRow p.nvar p.npar sol j) k = 0) ∧
    (p.nvar ≤ k → k < p.nvar + p.npar → coef (hyperplaneRow p.nvar p.npar sol j) k = 0) := by
  have hj : j < p.stmts.length := (List.getElem?_eq_some_iff.mp hst).1
  have hw := solLen_width hl
  have hb := stmtOffset_bound p.nvar p.npar p.stmts.length j hj
  have hlen : ((sol.drop (stmtOffset p.nvar p.npar j)).take p.nvar).length = p.nvar := by simp; omega
  constructor
  · intro hk ho
    have := hz j st hst k hk ho
    unfold coef hyperplaneRow
    rw [List.append_assoc, getD_append_left' _ _ _ (by omega)]
    rw [List.getD_eq_getElem?_getD, List.getElem?_take_of_lt hk, List.getElem?_drop,
      ← List.getD_eq_getElem?_getD]
    exact this
  · intro h1 h2
    unfold coef hyperplaneRow
    rw [List.append_assoc, getD_append_right' _ _ _ (by omega), hlen,
      getD_append_left' _ _ _ (by simp [zrow]; omega)]
    exact coef_zrow _ _

/-- C39 with C07. The rows the scheduler adds to the schedule never order a dependence backwards. -/
theorem C39_added_rows_legal (rarOpt nodepbound : Bool) (p : Prog) (sol : List Int)
    (hp : ∀ d ∈ p.deps, DepOK p d) (hl : SolLen p sol) (hz : PadZero p sol)
    (hsat : (permutabilityConstraints rarOpt nodepbound p).Sat sol)
    (d : Dep) (hd : d ∈ p.deps) (hrar : d.rar = false) (hun : d.satisfied = false)
    (s t q : List Int) (hi : DepInst d.dpoly p.nvar p.nvar p.npar s t q) :
    aff (hyperplaneRow p.nvar p.npar sol d.src) (s ++ q) ≤
      aff (hyperplaneRow p.nvar p.npar sol d.dest) (t ++ q) := by
  rw [(C39_row_value p sol hl d.src (hp d hd).src s q hi.hs hi.hp).2,
    (C39_row_value p sol hl d.dest (hp d hd).dest t q hi.ht hi.hp).2]
  have := C07_permutability_legal rarOpt nodepbound p sol hp hl hz hsat d hd hrar hun s t q hi
  omega

end int

section field
variable {K : Type*} [Field K] [LinearOrder K] [IsStrictOrderedRing K]

/-- C07, C08 (exactness). On dependences whose polyhedra have a rational point the system contains
exactly the legal and bounded coefficient vectors: no legal hyperplane is lost. -/
theorem C07_dep_exact (nodepbound : Bool) (p : Prog) (d : Dep) (sol : List K) (hd : DepOK p d)
    (hl : SolLen p sol) (hz : PadZero p sol)
    (hne : ∃ s t q : List K, DepInst d.dpoly p.nvar p.nvar p.npar s t q)
    (hneb : ∃ s t q : List K, DepInst d.bpoly p.nvar p.nvar p.npar s t q) :
    (depCst nodepbound p d).Sat sol ↔
      (d.rar = false → ∀ s t q : List K, DepInst d.dpoly p.nvar p.nvar p.npar s t q →
        0 ≤ hypValue p.nvar p.npar sol d.dest t - hypValue p.nvar p.npar sol d.src s) ∧
      (nodepbound = false → ∀ s t q : List K, DepInst d.bpoly p.nvar p.nvar p.npar s t q →
        hypValue p.nvar p.npar sol d.dest t - hypValue p.nvar p.npar sol d.src s ≤
          boundValue p.npar sol q) := by
  have hw := solLen_width hl
  rw [depCst_sat_iff nodepbound p d sol hd.src hd.dest hw hz, validLocal_eq, boundLocal_eq]
  have hshv := phiValid_shape p d 0
  have hshb := phiBound_shape p d
  have hne' : ∃ x : List K, x.length + 1 = d.dpoly.ncols ∧ d.dpoly.Sat x := by
    obtain ⟨s, t, q, hi⟩ := hne
    exact ⟨_, by simp [hi.hs, hi.ht, hi.hp, hd.dcols]; omega, hi.sat⟩
  have hneb' : ∃ x : List K, x.length + 1 = d.bpoly.ncols ∧ d.bpoly.Sat x := by
    obtain ⟨s, t, q, hi⟩ := hneb
    exact ⟨_, by simp [hi.hs, hi.ht, hi.hp, hd.bcols]; omega, hi.sat⟩
  rw [C06_farkas_exact d.dpoly (phiValid p d 0) _ _ hd.dwf (by rw [hshv.1, hd.dcols]) hshv.2
      (localSol_len0 p d sol hd.src hd.dest hw 0 (by omega)) hne',
    C06_farkas_exact d.bpoly (phiBound p d) _ _ hd.bwf (by rw [hshb.1, hd.bcols]) hshb.2
      (localSol_len0 p d sol hd.src hd.dest hw (p.npar + 1) (le_refl _)) hneb']
  refine and_congr (imp_congr_right fun _ => ?_) (imp_congr_right fun _ => ?_)
  · constructor
    · intro h s t q hi
      have := h (s ++ t ++ q) (by simp [hi.hs, hi.ht, hi.hp, hd.dcols]; omega) hi.sat
      unfold phiValid at this
      rw [valid_form p d 0 sol s t q hd.src hd.dest hw hi.hs hi.ht hi.hp] at this
      simpa using this
    · intro h x hx hs
      obtain ⟨s, t, q, h1, h2, h3, rfl⟩ := exists_split3 x p.nvar p.npar (by rw [hd.dcols] at hx; omega)
      unfold phiValid
      rw [valid_form p d 0 sol s t q hd.src hd.dest hw h1 h2 h3]
      simpa using h s t q ⟨h1, h2, h3, hs⟩
  · constructor
    · intro h s t q hi
      have := h (s ++ t ++ q) (by simp [hi.hs, hi.ht, hi.hp, hd.bcols]; omega) hi.sat
      unfold phiBound at this
      rw [bound_form p d sol s t q hd.src hd.dest hw hi.hs hi.ht hi.hp] at this
      linarith
    · intro h x hx hs
      obtain ⟨s, t, q, h1, h2, h3, rfl⟩ := exists_split3 x p.nvar p.npar (by rw [hd.bcols] at hx; omega)
      unfold phiBound
      rw [bound_form p d sol s t q hd.src hd.dest hw h1 h2 h3]
      have := h s t q ⟨h1, h2, h3, hs⟩
      linarith

/-- C09 (exactness). The system of a non-input dependence contains exactly the vectors that put
at least 1 between dependent instances. -/
theorem C09_dep_exact (p : Prog) (d : Dep) (sol : List K) (hd : DepOK p d) (hrar : d.rar = false)
    (hl : SolLen p sol) (hz : PadZero p sol)
    (hne : ∃ s t q : List K, DepInst d.dpoly p.nvar p.nvar p.npar s t q) :
    (feautrierDep p d).Sat sol ↔
      ∀ s t q : List K, DepInst d.dpoly p.nvar p.nvar p.npar s t q →
        1 ≤ hypValue p.nvar p.npar sol d.dest t - hypValue p.nvar p.npar sol d.src s := by
  have hw := solLen_width hl
  rw [feautrierDep_sat_iff p d sol hd.src hd.dest hw hz, validLocal_eq]
  have hshv := phiValid_shape p d (-1)
  have hne' : ∃ x : List K, x.length + 1 = d.dpoly.ncols ∧ d.dpoly.Sat x := by
    obtain ⟨s, t, q, hi⟩ := hne
    exact ⟨_, by simp [hi.hs, hi.ht, hi.hp, hd.dcols]; omega, hi.sat⟩
  rw [C06_farkas_exact d.dpoly (phiValid p d (-1)) _ _ hd.dwf (by rw [hshv.1, hd.dcols]) hshv.2
      (localSol_len0 p d sol hd.src hd.dest hw 0 (by omega)) hne']
  constructor
  · intro h s t q hi
    have := h hrar (s ++ t ++ q) (by simp [hi.hs, hi.ht, hi.hp, hd.dcols]; omega) hi.sat
    unfold phiValid at this
    rw [valid_form p d (-1) sol s t q hd.src hd.dest hw hi.hs hi.ht hi.hp] at this
    push_cast at this
    linarith
  · intro h _ x hx hs
    obtain ⟨s, t, q, h1, h2, h3, rfl⟩ := exists_split3 x p.nvar p.npar (by rw [hd.dcols] at hx; omega)
    unfold phiValid
    rw [valid_form p d (-1) sol s t q hd.src hd.dest hw h1 h2 h3]
    have := h s t q ⟨h1, h2, h3, hs⟩
    push_cast
    linarith

end field

/-! ### A concrete program

`for (i = 0; i < N; i++) { S0: a[i] = ..; S1: b[i] = a[i-1] + b[i-1]; }`: an inter-statement
dependence S0 -> S1 and a self dependence on S1, both of distance 1. -/

/-- `t = s + 1`, `0 <= s`, `t <= N - 1` over (s, t, N, 1). -/
def exPoly : Cst :=
  ⟨4, [⟨true, [-1, 1, 0, -1]⟩, ⟨false, [1, 0, 0, 0]⟩, ⟨false, [0, -1, 1, -1]⟩]⟩

def exDom : Cst := ⟨3, [⟨false, [1, 0, 0]⟩, ⟨false, [-1, 1, -1]⟩]⟩

def exStmt : Stmt := ⟨1, 1, exDom, [true], [], []⟩

def exDep (src dest : Nat) : Dep := ⟨src, dest, false, exPoly, exPoly, false, -1, [], []⟩

def exProg : Prog := ⟨1, 1, [exStmt, exStmt], [exDep 0 1, exDep 1 1], []⟩

/-- `u = 0, w = 1`, both statements scheduled at `i`. -/
def exSol : List Int := [0, 1, 1, 0, 1, 0]

/-- The hypotheses of the theorems above hold for the example, so `phi(t) - phi(s)` really is
constrained (it equals 1). -/
example : (∀ d ∈ exProg.deps, DepOK exProg d) ∧ SolLen exProg exSol ∧
    (permutabilityConstraints false false exProg).Sat exSol ∧
    (feautrierConstraints false exProg [0, 1]).Sat exSol ∧
    PadZero exProg exSol ∧ DepInst (R := Int) exPoly 1 1 1 [2] [3] [5] ∧
    hypValue 1 1 exSol 1 [3] - hypValue 1 1 exSol 0 [2] = 1 := by
  refine ⟨?_, by unfold SolLen; decide, by unfold Cst.Sat Row.Sat; decide +kernel,
    by unfold Cst.Sat Row.Sat; decide +kernel, ?_,
    ⟨rfl, rfl, rfl, by unfold Cst.Sat Row.Sat; decide +kernel⟩, by decide⟩
  swap
  · intro i st hst k hk ho
    have hk0 : k = 0 := by simpa [exProg] using hk
    have : st = exStmt := by
      have := List.mem_of_getElem? hst
      simpa [exProg] using this
    subst this; subst hk0
    simp [exStmt] at ho
  intro d hd
  simp only [exProg, List.mem_cons, List.not_mem_nil, or_false] at hd
  have hwf : exPoly.WF := ⟨by decide, by decide⟩
  rcases hd with rfl | rfl <;> exact ⟨by decide, by decide, hwf, rfl, hwf, rfl⟩

/-- A reversed loop is not a solution. -/
example : ¬ (permutabilityConstraints false false exProg).Sat ([0, 1, -1, 0, -1, 0] : List Int) := by
  unfold Cst.Sat Row.Sat; decide +kernel

end Pluto
