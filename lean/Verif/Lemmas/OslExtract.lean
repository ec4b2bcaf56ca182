import Verif.Lemmas.OslFlow
import Verif.Spec.Auto

/-! The program made from a scop. -/

namespace Pluto

/-- What becomes of a statement. -/
structure StmtMade (npar rows : Nat) (s : OslStmt) (st : Stmt) : Prop where
  dim : st.dim = s.niter
  orig : st.dimOrig = st.dim ∧ st.isOrig = List.replicate st.dim true
  wf : st.domain.WF
  cols : st.domain.ncols = st.dim + npar + 1
  dom : ∀ x q : List Int, x.length = st.dim → q.length = npar → (st.domain.Sat (x ++ q) ↔ ∃ d ∈ s.domain, d.Has x [] q)
  trans : ∀ x q : List Int, x.length = st.dim → q.length = npar → ∃ t, s.scat.Has t x q ∧ st.trans.map (fun r => aff r (x ++ q)) = t ++ List.replicate (rows - t.length) 0

theorem oslStmt_ok {npar rows : Nat} {s : OslStmt} (h : s.OK npar) : ∃ st, oslStmt npar rows s = some st ∧ StmtMade npar rows s st := by
  obtain ⟨d, h1, h2, h3, h4, h5, h6⟩ := h.domain
  obtain ⟨h7, h8, f, h9⟩ := h.scat
  have hn : s.niter = d.nout := by simp [OslStmt.niter, h1]
  unfold oslStmt oslToCst
  rw [h1, h9.trans h7.noLocal]
  simp only [List.head?_cons, Option.bind_eq_bind, Option.bind_some, h3, h2.noLocal, h4, Nat.add_zero, ne_eq, not_true_eq_false, if_false]
  refine ⟨_, rfl, hn.symm, ⟨rfl, rfl⟩, ⟨?_, ?_⟩, ?_, ?_, ?_⟩
  · simp
  · intro r hr
    obtain ⟨w, hw, rfl⟩ := List.mem_map.mp hr
    have := h2.rows w hw
    simp only [List.length_drop]; omega
  · rfl
  · intro x q hx hq
    simp only [h1, List.mem_singleton, exists_eq_left]
    unfold Cst.Sat OslRel.Has
    simp only [List.mem_map, forall_exists_index, and_imp, forall_apply_eq_imp_iff₂, Row.Sat, hx, hq, h3, h4, h2.noLocal, List.length_nil, true_and, List.append_nil]
    constructor
    · intro hr
      refine ⟨[], rfl, fun w hw => ?_⟩
      have := hr w hw
      simpa using this
    · rintro ⟨z, hz, hr⟩ w hw
      obtain rfl := List.length_eq_zero_iff.mp hz
      have := hr w hw
      simpa using this
  · intro x q hx hq
    refine ⟨f.map (fun g => aff g (x ++ q)), (h9.has h7.noLocal _ _ _).mpr ⟨by rw [h5]; exact hx, by rw [h8]; exact hq, rfl⟩, ?_⟩
    simp only [List.map_append, List.map_replicate, List.length_map]
    congr 2
    unfold aff
    exact dot_zero _ _

/-- What becomes of an access. -/
def AccMade (r : OslRel) (a : OslAcc) : Prop := a.1 + 1 = oslArrayId r ∧ ∀ y x q, r.Has ((oslArrayId r : Int) :: y) x q → a.2.map (fun g => aff g (x ++ q)) = islIdx y

theorem oslAccs_ok {npar : Nat} {s : OslStmt} (h : s.OK npar) (w : Bool) : ∃ l, oslAccs (s.rels w) = some l ∧ List.Forall₂ AccMade (s.rels w) l := by
  refine mapM_forall2_of _ (fun r hr => ?_)
  obtain ⟨a, ha, rfl⟩ : ∃ a ∈ s.accs, a.2 = r := by
    cases w with
    | false => exact ⟨_, OslStmt.reads_mem.mp hr, rfl⟩
    | true =>
      obtain ⟨a, h1, -, h2⟩ := OslStmt.writes_mem.mp hr
      exact ⟨a, h1, h2⟩
  obtain ⟨k1, k2, id, f, k3⟩ := h.accs a ha
  rw [k3.accMat k1.noLocal]
  refine ⟨_, rfl, ?_, fun y x q hh => ?_⟩
  · have := k3.1
    simp only [k3.arrayId]; omega
  · rw [k3.arrayId] at hh
    obtain ⟨-, -, -, rfl⟩ := (k3.has k1.noLocal _ _ _ _).mp hh
    by_cases hf : f = []
    · subst hf
      simp [islIdx, aff, dot_zero]
    · simp [islIdx, hf]

/-- What becomes of a dependence between named accesses. -/
structure OslExtracted (p : Prog) (accs : Bool) (d : IslDep) (e : OslDep) : Prop where
  src : e.dep.src = oslCodeStmt accs d.src
  dest : e.dep.dest = oslCodeStmt accs d.dest
  inst : ∀ s t q, d.rel.Has s t q → p.Inst e.dep s t q
  exact : d.rel.ndiv = 0 → ∀ s t q, p.Inst e.dep s t q → d.rel.Has s t q

/-- The accesses of a kind. -/
def kindAccs (w : Bool) (ra wa : List (List OslAcc)) : List (List OslAcc) := if w then wa else ra

/-- The accesses found for a dependence. -/
def OslAccsOf (ra wa : List (List OslAcc)) (d : IslDep) (e : OslDep) : Prop :=
  ∃ i j wi wj ki kj, d.src = accCode i wi ki ∧ d.dest = accCode j wj kj ∧ e.type = kindType wi wj ∧
    (∃ a l, e.srcAcc = some a ∧ (kindAccs wi ra wa)[i]? = some l ∧ l[ki]? = some a) ∧
    ∃ a l, e.destAcc = some a ∧ (kindAccs wj ra wa)[j]? = some l ∧ l[kj]? = some a

theorem oslExtractDep_ok (ops : IslOps) (ho : ops.OK) (accs : Bool) (sc : OslScop) (rows : Nat) (sts : List Stmt)
    (hst : List.Forall₂ (StmtMade sc.context.npar rows) sc.stmts sts) (ra wa : List (List OslAcc))
    (hra : List.Forall₂ (fun s l => List.Forall₂ AccMade (OslStmt.rels s false) l) sc.stmts ra)
    (hwa : List.Forall₂ (fun s l => List.Forall₂ AccMade (OslStmt.rels s true) l) sc.stmts wa) (type : DepType) (k : Bool → Bool → Bool)
    (hk : type = .raw ∧ (k = fun w v => w && !v) ∨ type = .war ∧ (k = fun _ v => v) ∨ type = .waw ∧ (k = fun w v => w && v) ∨ type = .rar ∧ (k = fun w v => !w && !v))
    (nvar : Nat) (deps : List Dep) (hyps : List HypType) (d : IslDep) (hd : OslNamedOK accs sc k [d]) :
    ∃ e, oslExtractDep ops accs ra wa sts type d = some e ∧ OslExtracted ⟨nvar, sc.context.npar, sts, deps, hyps⟩ accs d e ∧
      e.dep.rar = (type == .rar) ∧ (accs = true → OslAccsOf ra wa d e) ∧
      e.dep.bpoly = e.dep.dpoly ∧ Prog.DepFits ⟨nvar, sc.context.npar, sts, deps, hyps⟩ e.dep ∧ e.dep.src < sts.length ∧ e.dep.dest < sts.length := by
  obtain ⟨w, np, i, j, wi, wj, ki, kj, s, t, e1, e2, hs, ht, n1, n2, l1, l2, hkw⟩ := hd d (by simp)
  obtain ⟨r1, r2, r3, r4, r5, r6, r7⟩ := ho.removeDivs d.rel w
  obtain ⟨S, gs, ms⟩ := forall2_get?' hst hs
  obtain ⟨T, gt, mt⟩ := forall2_get?' hst ht
  have hcols : (bmapToCst (ops.removeDivs d.rel)).ncols = S.dim + T.dim + sc.context.npar + 1 := by
    rw [(bmapToCst_wf r1).2, r2, r3, r4, r5, np, n1, n2, ms.dim, mt.dim]; omega
  set P : Prog := ⟨nvar, sc.context.npar, sts, deps, hyps⟩ with hP
  have nm1 : oslCodeStmt accs d.src = i := by rw [e1, oslCodeStmt_code]
  have nm2 : oslCodeStmt accs d.dest = j := by rw [e2, oslCodeStmt_code]
  have dm1 : P.dim i = S.dim := by simp [hP, Prog.dim, gs]
  have dm2 : P.dim j = T.dim := by simp [hP, Prog.dim, gt]
  have hex : extractDep ops sts ⟨oslCodeStmt accs d.src, oslCodeStmt accs d.dest, d.rel⟩ =
      some ⟨i, j, false, bmapToCst (ops.removeDivs d.rel), bmapToCst (ops.removeDivs d.rel), false, -1, [], []⟩ := by
    unfold extractDep
    simp only [nm1, nm2, gs, gt, Option.bind_eq_bind, Option.bind_some]
    rw [if_neg]
    rw [hcols, ms.cols]
    omega
  have hI : ∀ rar s' t' q, P.Inst ⟨i, j, rar, bmapToCst (ops.removeDivs d.rel), bmapToCst (ops.removeDivs d.rel), false, -1, [], []⟩ s' t' q ↔
      (ops.removeDivs d.rel).Has s' t' q := by
    intro rar s' t' q
    unfold Prog.Inst
    simp only [dm1, dm2]
    constructor
    · rintro ⟨a1, a2, a3, a4⟩
      exact (C59_to_map_exact _ r1 r2 s' t' q (by rw [r3, a1, n1, ms.dim]) (by rw [r4, a2, n2, mt.dim]) (by rw [r5, a3, np])).mp a4
    · intro h
      obtain ⟨a1, a2, a3, -⟩ := id h
      exact ⟨by rw [a1, r3, n1, ms.dim], by rw [a2, r4, n2, mt.dim], by rw [a3, r5, np], (C59_to_map_exact _ r1 r2 s' t' q a1 a2 a3).mpr h⟩
  have hfit : ∀ rar, P.DepFits ⟨i, j, rar, bmapToCst (ops.removeDivs d.rel), bmapToCst (ops.removeDivs d.rel), false, -1, [], []⟩ :=
    fun rar => ⟨(bmapToCst_wf r1).1, by rw [hcols]; simp only [dm1, dm2]; rfl⟩
  have li := (List.getElem?_eq_some_iff.mp gs).1
  have lj := (List.getElem?_eq_some_iff.mp gt).1
  have hx : ∀ rar ty sa da, OslExtracted P accs d ⟨⟨i, j, rar, bmapToCst (ops.removeDivs d.rel), bmapToCst (ops.removeDivs d.rel), false, -1, [], []⟩, ty, sa, da⟩ :=
    fun rar ty sa da => ⟨nm1.symm, nm2.symm, fun s' t' q h => (hI rar s' t' q).mpr (r6 s' t' q h), fun h0 s' t' q h => r7 h0 s' t' q ((hI rar s' t' q).mp h)⟩
  unfold oslExtractDep
  rw [hex]
  simp only [Option.bind_eq_bind, Option.bind_some]
  cases accs with
  | false =>
    simp only [Bool.not_false, if_true]
    exact ⟨_, rfl, hx _ _ _ _, rfl, by simp, rfl, hfit _, li, lj⟩
  | true =>
    simp only [Bool.not_true, Bool.false_eq_true, if_false]
    simp only [oslCode, if_true] at e1 e2
    rw [e1, e2, codeName_accCode, codeName_accCode, nameAcc_accName, nameAcc_accName]
    obtain ⟨sr, hsr, msr⟩ := forall2_get?' hra hs
    obtain ⟨sw, hsw, msw⟩ := forall2_get?' hwa hs
    obtain ⟨tr, htr, mtr⟩ := forall2_get?' hra ht
    obtain ⟨tw, htw, mtw⟩ := forall2_get?' hwa ht
    simp only [Option.bind_some, hsr, hsw, htr, htw]
    have ha : ∃ a, (if wi then sw else sr)[ki]? = some a := by
      refine ⟨_, List.getElem?_eq_getElem ?_⟩
      cases wi with
      | true => exact lt_of_lt_of_eq l1 msw.length_eq
      | false => exact lt_of_lt_of_eq l1 msr.length_eq
    have hb : ∃ a, (if wj then tw else tr)[kj]? = some a := by
      refine ⟨_, List.getElem?_eq_getElem ?_⟩
      cases wj with
      | true => exact lt_of_lt_of_eq l2 mtw.length_eq
      | false => exact lt_of_lt_of_eq l2 mtr.length_eq
    obtain ⟨a, ha⟩ := ha
    obtain ⟨b, hb⟩ := hb
    have hacc : ∀ rar ty, (ty = kindType wi wj) →
        OslAccsOf ra wa d ⟨⟨i, j, rar, bmapToCst (ops.removeDivs d.rel), bmapToCst (ops.removeDivs d.rel), false, -1, [], []⟩, ty, some a, some b⟩ := by
      intro rar ty hty
      refine ⟨i, j, wi, wj, ki, kj, e1, e2, hty, ⟨a, if wi then sw else sr, rfl, ?_, ha⟩, b, if wj then tw else tr, rfl, ?_, hb⟩
      · cases wi <;> simp [kindAccs, hsr, hsw]
      · cases wj <;> simp [kindAccs, htr, htw]
    rcases hk with ⟨rfl, rfl⟩ | ⟨rfl, rfl⟩ | ⟨rfl, rfl⟩ | ⟨rfl, rfl⟩
    · simp only [Bool.and_eq_true, Bool.not_eq_true'] at hkw
      obtain ⟨rfl, rfl⟩ := hkw
      simp only [if_true, Bool.false_eq_true, if_false] at ha hb
      simp only [ha, hb, Option.bind_some]
      exact ⟨_, rfl, hx _ _ _ _, rfl, fun _ => hacc _ _ rfl, rfl, hfit _, li, lj⟩
    · simp only at hkw
      subst hkw
      simp only [if_true] at hb
      cases wi with
      | true =>
        simp only [if_true] at ha
        simp only [if_true, ha, hb, Option.bind_some, and_self]
        exact ⟨_, rfl, hx _ _ _ _, rfl, fun _ => hacc _ _ rfl, rfl, hfit _, li, lj⟩
      | false =>
        simp only [Bool.false_eq_true, if_false] at ha
        simp only [if_true, Bool.false_eq_true, if_false, ha, hb, Option.bind_some, show ¬ ('r' = 'w') by decide, false_and]
        exact ⟨_, rfl, hx _ _ _ _, rfl, fun _ => hacc _ _ rfl, rfl, hfit _, li, lj⟩
    · simp only [Bool.and_eq_true] at hkw
      obtain ⟨rfl, rfl⟩ := hkw
      simp only [if_true] at ha hb
      simp only [ha, hb, Option.bind_some]
      exact ⟨_, rfl, hx _ _ _ _, rfl, fun _ => hacc _ _ rfl, rfl, hfit _, li, lj⟩
    · simp only [Bool.and_eq_true, Bool.not_eq_true'] at hkw
      obtain ⟨rfl, rfl⟩ := hkw
      simp only [Bool.false_eq_true, if_false] at ha hb
      simp only [ha, hb, Option.bind_some]
      exact ⟨_, rfl, hx _ _ _ _, rfl, fun _ => hacc _ _ rfl, rfl, hfit _, li, lj⟩

end Pluto
