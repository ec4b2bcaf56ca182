import Verif.Model.Auto
import Verif.Spec.Auto
import Verif.Lemmas.Lexmin
import Verif.Lemmas.Satisfaction
import Verif.Lemmas.SatFold
import Verif.Lemmas.DdgMore
import Verif.Props.Legality
import Verif.Props.Satisfaction
import Verif.Props.Ddg

/-! Invariant of the automatic transformation. -/

namespace Pluto

/-- A statement without its schedule. -/
def skelStmt (st : Stmt) : Stmt := { st with trans := [], hypTypes := [] }

/-- A dependence without its satisfaction data. -/
def skelDep (d : Dep) : Dep := { d with satisfied := false, satLevel := 0, satvec := [], dirvec := [] }

/-- What the search does not change. -/
def skel (p : Prog) : Prog :=
  { p with stmts := p.stmts.map skelStmt, deps := p.deps.map skelDep, hProps := [] }

/-- Facts about the padded program that do not depend on the schedule. -/
structure SkelOK (k : Prog) : Prop where
  stmts : ∀ st ∈ k.stmts, st.dim = k.nvar ∧ st.dimOrig ≤ k.nvar ∧
    st.isOrig = List.replicate st.dimOrig true ++ List.replicate (k.nvar - st.dimOrig) false
  deps : ∀ d ∈ k.deps, DepOK k d

/-- The invariant: shape of the schedule, and legality of what has been found so far. -/
structure Inv (X : Prop) (k p : Prog) : Prop where
  sk : skel p = k
  rows : ∀ st ∈ p.stmts, st.trans.length = p.hProps.length ∧
    ∀ r ∈ st.trans, r.length = p.nvar + p.npar + 1 ∧ ∀ j, st.dimOrig ≤ j → j < p.nvar → coef r j = 0
  legal : X → ∀ d ∈ p.deps, d.rar = false → ∀ s t q, p.Inst d s t q →
    p.LexPos d s t q ∨ (d.satisfied = false ∧ p.AllNonneg d s t q)

section
variable {X : Prop} {k p : Prog}

theorem sk_nvar (h : skel p = k) : k.nvar = p.nvar := by rw [← h]; rfl
theorem sk_npar (h : skel p = k) : k.npar = p.npar := by rw [← h]; rfl
theorem sk_len (h : skel p = k) : k.stmts.length = p.stmts.length := by rw [← h]; simp [skel]

theorem sk_stmt (h : skel p = k) {st : Stmt} (hs : st ∈ p.stmts) : skelStmt st ∈ k.stmts := by
  rw [← h]; exact List.mem_map_of_mem hs

theorem sk_dep (h : skel p = k) {d : Dep} (hd : d ∈ p.deps) : skelDep d ∈ k.deps := by
  rw [← h]; exact List.mem_map_of_mem hd

theorem SkelOK.stmt (hk : SkelOK k) (h : skel p = k) {st : Stmt} (hs : st ∈ p.stmts) :
    st.dim = p.nvar ∧ st.dimOrig ≤ p.nvar ∧
      st.isOrig = List.replicate st.dimOrig true ++ List.replicate (p.nvar - st.dimOrig) false := by
  have := hk.stmts _ (sk_stmt h hs)
  rw [sk_nvar h] at this
  exact this

theorem SkelOK.dep (hk : SkelOK k) (h : skel p = k) {d : Dep} (hd : d ∈ p.deps) : DepOK p d := by
  obtain ⟨a1, a2, a3, a4, a5, a6⟩ := hk.deps _ (sk_dep h hd)
  rw [sk_len h] at a1 a2
  rw [sk_nvar h, sk_npar h] at a4 a6
  exact ⟨a1, a2, a3, a4, a5, a6⟩

theorem SkelOK.dim (hk : SkelOK k) (h : skel p = k) {i : Nat} (hi : i < p.stmts.length) :
    p.dim i = p.nvar := by
  simp only [Prog.dim, List.getElem?_eq_getElem hi, Option.map_some, Option.getD_some]
  exact (hk.stmt h (List.getElem_mem hi)).1

theorem SkelOK.fits (hk : SkelOK k) (h : skel p = k) {d : Dep} (hd : d ∈ p.deps) : p.DepFits d := by
  have := hk.dep h hd
  refine ⟨this.dwf, ?_⟩
  rw [this.dcols, hk.dim h this.src, hk.dim h this.dest]
  omega

theorem SkelOK.inst (hk : SkelOK k) (h : skel p = k) {d : Dep} (hd : d ∈ p.deps) (s t q : List Int) :
    p.Inst d s t q ↔ DepInst d.dpoly k.nvar k.nvar k.npar s t q := by
  have := hk.dep h hd
  unfold Prog.Inst
  rw [hk.dim h this.src, hk.dim h this.dest, sk_nvar h, sk_npar h]

theorem SkelOK.origOK (hk : SkelOK k) (h : skel p = k) : p.OrigOK := by
  intro st hs
  obtain ⟨h1, h2, h3⟩ := hk.stmt h hs
  rw [h3]
  refine ⟨by simp; omega, ?_⟩
  rw [List.countP_append, List.countP_replicate, List.countP_replicate]
  simp

theorem Inv.transOK (hk : SkelOK k) (h : Inv X k p) : p.TransOK := by
  intro st hs r hr
  rw [((h.rows st hs).2 r hr).1, (hk.stmt h.sk hs).1]

end

/-- `p'` is `p` with row `f i` appended to the schedule of statement `i`. -/
structure Appended (p p' : Prog) (f : Nat → List Int) : Prop where
  sk : skel p' = skel p
  deps : p'.deps = p.deps
  hlen : p'.hProps.length = p.hProps.length + 1
  trans : ∀ i : Nat, p'.stmts[i]?.map (·.trans) = p.stmts[i]?.map (fun st : Stmt => st.trans ++ [f i])

section
variable {X : Prop} {k p p' : Prog} {f : Nat → List Int} {m : Nat}

theorem Appended.len (h : Appended p p' f) : p'.stmts.length = p.stmts.length := by
  have := congrArg (fun p : Prog => p.stmts.length) h.sk
  simpa [skel] using this

theorem Appended.dim (h : Appended p p' f) (i : Nat) : p'.dim i = p.dim i := by
  have := congrArg (fun p : Prog => p.stmts[i]?.map (·.dim)) h.sk
  simp only [skel, List.getElem?_map, Option.map_map] at this
  unfold Prog.dim
  exact congrArg (fun o => Option.getD o 0) this

theorem Appended.npar (h : Appended p p' f) : p'.npar = p.npar := by
  have := congrArg Prog.npar h.sk; exact this
theorem Appended.nvar (h : Appended p p' f) : p'.nvar = p.nvar := by
  have := congrArg Prog.nvar h.sk; exact this

theorem Appended.inst (h : Appended p p' f) (d : Dep) (s t q : List Int) :
    p'.Inst d s t q ↔ p.Inst d s t q := by
  unfold Prog.Inst
  rw [h.dim, h.dim, h.npar]

theorem Appended.row_lt (h : Appended p p' f) {i l : Nat}
    (hl : ∀ st ∈ p.stmts, st.trans.length = p.hProps.length) (hlt : l < p.hProps.length) :
    p'.row i l = p.row i l := by
  have ht := h.trans i
  unfold Prog.row
  cases h1 : p.stmts[i]? with
  | none =>
    rw [h1] at ht
    rw [Option.map_none, Option.map_eq_none_iff] at ht
    rw [ht]
  | some st =>
    rw [h1, Option.map_some] at ht
    obtain ⟨st', h2, h3⟩ := Option.map_eq_some_iff.mp ht
    rw [h2]
    simp only [Option.bind_some]
    rw [h3, List.getElem?_append_left]
    rw [hl st (List.mem_of_getElem? h1)]; exact hlt

theorem Appended.row_last (h : Appended p p' f) {i : Nat}
    (hl : ∀ st ∈ p.stmts, st.trans.length = p.hProps.length) (hi : i < p.stmts.length) :
    p'.row i p.hProps.length = f i := by
  have ht := h.trans i
  unfold Prog.row
  rw [List.getElem?_eq_getElem hi, Option.map_some] at ht
  obtain ⟨st', h2, h3⟩ := Option.map_eq_some_iff.mp ht
  rw [h2]
  simp only [Option.bind_some]
  rw [h3, List.getElem?_append_right (by rw [hl _ (List.getElem_mem hi)]), hl _ (List.getElem_mem hi)]
  simp

theorem Appended.comp_lt (h : Appended p p' f) {l : Nat} {d : Dep} {s t q : List Int}
    (hl : ∀ st ∈ p.stmts, st.trans.length = p.hProps.length) (hlt : l < p.hProps.length) :
    p'.comp d l s t q = p.comp d l s t q := by
  unfold Prog.comp Prog.phi
  rw [h.row_lt hl hlt, h.row_lt hl hlt]

theorem Appended.lexPos (h : Appended p p' f) {d : Dep} {s t q : List Int}
    (hl : ∀ st ∈ p.stmts, st.trans.length = p.hProps.length) (hx : p.LexPos d s t q) :
    p'.LexPos d s t q := by
  obtain ⟨l, h1, h2, h3⟩ := hx
  refine ⟨l, by rw [h.hlen]; omega, by rw [h.comp_lt hl h1]; exact h2, ?_⟩
  intro l' hl'
  rw [h.comp_lt hl (by omega)]
  exact h3 l' hl'

/-- Appending a row that no unsatisfied dependence crosses backwards keeps the invariant. -/
theorem Inv.append (hk : SkelOK k) (hi : Inv X k p) (h : Appended p p' f)
    (hf : ∀ i st, p.stmts[i]? = some st → (f i).length = p.nvar + p.npar + 1 ∧
      ∀ j, st.dimOrig ≤ j → j < p.nvar → coef (f i) j = 0)
    (hleg : X → ∀ d ∈ p.deps, d.rar = false → d.satisfied = false → ∀ s t q, p.Inst d s t q →
      aff (f d.src) (s ++ q) ≤ aff (f d.dest) (t ++ q)) : Inv X k p' := by
  have hl : ∀ st ∈ p.stmts, st.trans.length = p.hProps.length := fun st hs => (hi.rows st hs).1
  refine ⟨by rw [h.sk, hi.sk], ?_, ?_⟩
  · intro st' hs'
    obtain ⟨i, hi', rfl⟩ := List.getElem_of_mem hs'
    have hip : i < p.stmts.length := by rw [← h.len]; exact hi'
    have ht := h.trans i
    rw [List.getElem?_eq_getElem hi', List.getElem?_eq_getElem hip, Option.map_some, Option.map_some,
      Option.some.injEq] at ht
    have hd : p'.stmts[i].dimOrig = p.stmts[i].dimOrig := by
      have := congrArg (fun p : Prog => p.stmts[i]?.map (·.dimOrig)) h.sk
      simp only [skel, List.getElem?_map, Option.map_map, List.getElem?_eq_getElem hi',
        List.getElem?_eq_getElem hip, Option.map_some, Option.some.injEq] at this
      exact this
    obtain ⟨r1, r2⟩ := hi.rows _ (List.getElem_mem hip)
    rw [ht, hd, h.hlen, h.nvar, h.npar]
    refine ⟨by simp [r1], ?_⟩
    intro r hr
    rcases List.mem_append.mp hr with h' | h'
    · exact r2 r h'
    · rw [List.mem_singleton] at h'
      subst h'
      exact hf i _ (List.getElem?_eq_getElem hip)
  · intro hX d hd hrar s t q hinst
    rw [h.deps] at hd
    rw [h.inst] at hinst
    rcases hi.legal hX d hd hrar s t q hinst with h' | ⟨h1, h2⟩
    · exact .inl (h.lexPos hl h')
    · refine .inr ⟨h1, ?_⟩
      intro l hlt
      rw [h.hlen] at hlt
      by_cases hc : l < p.hProps.length
      · rw [h.comp_lt hl hc]; exact h2 l hc
      · have : l = p.hProps.length := by omega
        subst this
        have hok := hk.dep hi.sk hd
        unfold Prog.comp Prog.phi
        rw [h.row_last hl hok.src, h.row_last hl hok.dest]
        have := hleg hX d hd hrar h1 s t q hinst
        omega

/-- Every dependence crosses the first `m` levels forward with a positive component among them, or is
unsatisfied and crosses no level backwards. -/
def Early (p : Prog) (m : Nat) : Prop :=
  ∀ d ∈ p.deps, d.rar = false → ∀ s t q, p.Inst d s t q →
    (∃ l < m, 1 ≤ p.comp d l s t q ∧ ∀ l' < l, 0 ≤ p.comp d l' s t q) ∨
      (d.satisfied = false ∧ p.AllNonneg d s t q)

theorem Inv.early (hi : Inv X k p) (hX : X) : Early p p.hProps.length := hi.legal hX

theorem Early.append (he : Early p m) (hk : SkelOK k) (hi : Inv X k p) (h : Appended p p' f)
    (hm : m ≤ p.hProps.length)
    (hleg : ∀ d ∈ p.deps, d.rar = false → d.satisfied = false → ∀ s t q, p.Inst d s t q →
      aff (f d.src) (s ++ q) ≤ aff (f d.dest) (t ++ q)) : Early p' m := by
  have hl : ∀ st ∈ p.stmts, st.trans.length = p.hProps.length := fun st hs => (hi.rows st hs).1
  intro d hd hrar s t q hinst
  rw [h.deps] at hd
  rw [h.inst] at hinst
  rcases he d hd hrar s t q hinst with ⟨l, hlm, h1, h2⟩ | ⟨h1, h2⟩
  · refine .inl ⟨l, hlm, by rw [h.comp_lt hl (by omega)]; exact h1, fun l' hl' => ?_⟩
    rw [h.comp_lt hl (by omega)]
    exact h2 l' hl'
  · refine .inr ⟨h1, ?_⟩
    intro l hlt
    rw [h.hlen] at hlt
    by_cases hc : l < p.hProps.length
    · rw [h.comp_lt hl hc]; exact h2 l hc
    · have : l = p.hProps.length := by omega
      subst this
      have hok := hk.dep hi.sk hd
      unfold Prog.comp Prog.phi
      rw [h.row_last hl hok.src, h.row_last hl hok.dest]
      have := hleg d hd hrar h1 s t q hinst
      omega

end

section flags
variable {X : Prop} {k p : Prog}

/-- Only satisfaction data of dependences differs. -/
def SameBut (ds ds' : List Dep) : Prop := ds'.map skelDep = ds.map skelDep

theorem inst_deps {ds : List Dep} (d : Dep) (s t q : List Int) :
    ({ p with deps := ds } : Prog).Inst d s t q ↔ p.Inst d s t q := Iff.rfl

theorem lexPos_skel {d d' : Dep} (h : skelDep d' = skelDep d) (s t q : List Int) :
    p.LexPos d' s t q ↔ p.LexPos d s t q := by
  have h1 : d'.src = d.src := by
      have := congrArg Dep.src h; exact this
  have h2 : d'.dest = d.dest := by
      have := congrArg Dep.dest h; exact this
  unfold Prog.LexPos Prog.comp
  rw [h1, h2]

theorem allNonneg_skel {d d' : Dep} (h : skelDep d' = skelDep d) (s t q : List Int) :
    p.AllNonneg d' s t q ↔ p.AllNonneg d s t q := by
  have h1 : d'.src = d.src := by
      have := congrArg Dep.src h; exact this
  have h2 : d'.dest = d.dest := by
      have := congrArg Dep.dest h; exact this
  unfold Prog.AllNonneg Prog.comp
  rw [h1, h2]

theorem inst_skel {d d' : Dep} (h : skelDep d' = skelDep d) (s t q : List Int) :
    p.Inst d' s t q ↔ p.Inst d s t q := by
  have h1 : d'.src = d.src := by
      have := congrArg Dep.src h; exact this
  have h2 : d'.dest = d.dest := by
      have := congrArg Dep.dest h; exact this
  have h3 : d'.dpoly = d.dpoly := by
      have := congrArg Dep.dpoly h; exact this
  unfold Prog.Inst
  rw [h1, h2, h3]

/-- Changing satisfaction flags keeps the invariant if no flag is set wrongly. -/
theorem Inv.flags (hi : Inv X k p) {ds : List Dep}
    (h : List.Forall₂ (fun d d' : Dep => skelDep d' = skelDep d ∧
      (X → d.rar = false → d'.satisfied = true → ∀ s t q, p.Inst d s t q → p.LexPos d s t q)) p.deps ds) :
    Inv X k { p with deps := ds } := by
  have hmap : ds.map skelDep = p.deps.map skelDep := by
    clear hi
    generalize p.deps = l at h
    induction h with
    | nil => rfl
    | cons h _ ih => simp [h.1, ih]
  refine ⟨?_, hi.rows, ?_⟩
  · rw [← hi.sk]
    simp only [skel, hmap]
  · intro hX d' hd' hrar s t q hinst
    obtain ⟨j, hj, rfl⟩ := List.getElem_of_mem hd'
    have := List.forall₂_iff_get.mp h
    have hj' : j < p.deps.length := by rw [this.1]; exact hj
    obtain ⟨h1, h2⟩ := this.2 j hj' hj
    simp only [List.get_eq_getElem] at h1 h2
    have hr : p.deps[j].rar = false := by
      have e := congrArg Dep.rar h1
      exact e.symm.trans hrar
    have hinst' := (inst_skel (p := p) h1 s t q).mp hinst
    rcases hi.legal hX _ (List.getElem_mem hj') hr s t q hinst' with hx | ⟨hx1, hx2⟩
    · exact .inl ((lexPos_skel (p := p) h1 s t q).mpr hx)
    · by_cases hs : ds[j].satisfied = true
      · exact .inl ((lexPos_skel (p := p) h1 s t q).mpr (h2 hX hr hs s t q hinst'))
      · exact .inr ⟨by simpa using hs, (allNonneg_skel (p := p) h1 s t q).mpr hx2⟩

/-- The satisfied dependences with instances after a change of flags include those before. -/
def Grows (p : Prog) (ds' : List Dep) : Prop :=
  List.Forall₂ (fun d d' : Dep => skelDep d' = skelDep d ∧
    (d.rar = false → d.satisfied = true → (∃ s t q, p.Inst d s t q) → d'.satisfied = true)) p.deps ds'

theorem Inv.update {isEmpty : Cst → Bool} (hE : EmptyOracle isEmpty) (hk : SkelOK k) (hi : Inv X k p) {l n : Nat}
    {p' : Prog} (hl : l < p.hProps.length) (h : depSatUpdate isEmpty p l = some (p', n)) :
    Inv X k p' ∧ p' = { p with deps := p'.deps } ∧ Grows p p'.deps ∧
      (n = 0 → List.Forall₂ (fun d d' : Dep => skelDep d' = skelDep d ∧
        (d.rar = false → d'.satisfied = d.satisfied)) p.deps p'.deps) := by
  obtain ⟨e, hf, hn⟩ := C12_update hE p p' n (hi.transOK hk) (fun d hd => hk.fits hi.sk hd) l h
  have hsk : ∀ d d' : Dep, d' = { d with satisfied := d'.satisfied, satLevel := d'.satLevel } →
      skelDep d' = skelDep d := by
    intro d d' h
    rw [h]; rfl
  refine ⟨?_, e, ?_, ?_⟩
  · rw [e]
    apply hi.flags
    rw [List.forall₂_iff_get] at hf ⊢
    refine ⟨hf.1, fun j h1 h2 => ?_⟩
    obtain ⟨a1, a2, _⟩ := hf.2 j h1 h2
    refine ⟨hsk _ _ a1, ?_⟩
    intro hX hr hs s t q hinst
    rcases hi.legal hX _ (List.get_mem _ _) hr s t q hinst with hx | ⟨hx1, hx2⟩
    · exact hx
    · rcases a2.mp hs with h' | h'
      · rw [hx1] at h'; cases h'
      · exact ⟨l, hl, h' s t q hinst, fun l' hl' => hx2 l' (by omega)⟩
  · exact hf.imp (fun d d' hd => ⟨hsk _ _ hd.1, fun _ hs _ => hd.2.1.mpr (.inl hs)⟩)
  · intro h0
    rw [h0] at hn
    have hnil := List.length_eq_zero_iff.mp hn.symm
    rw [List.filter_eq_nil_iff] at hnil
    rw [List.forall₂_iff_get] at hf ⊢
    refine ⟨hf.1, fun j h1 h2 => ?_⟩
    obtain ⟨a1, a2, _⟩ := hf.2 j h1 h2
    refine ⟨hsk _ _ a1, fun hr => ?_⟩
    have hmem : (p.deps.get ⟨j, h1⟩, p'.deps.get ⟨j, h2⟩) ∈ p.deps.zip p'.deps := by
      have : (p.deps.zip p'.deps)[j]? = some (p.deps.get ⟨j, h1⟩, p'.deps.get ⟨j, h2⟩) := by
        rw [List.getElem?_zip_eq_some]
        exact ⟨List.getElem?_eq_getElem h1, List.getElem?_eq_getElem h2⟩
      exact List.mem_of_getElem? this
    have := hnil _ hmem
    simp only [hr, Bool.not_false, Bool.and_true, Bool.and_eq_true, Bool.not_eq_eq_eq_not, not_and,
      Bool.not_eq_true] at this
    cases hb : (p.deps.get ⟨j, h1⟩).satisfied with
    | true => exact a2.mpr (.inl hb)
    | false => exact this hb

theorem Inv.precise {isEmpty : Cst → Bool} (hE : EmptyOracle isEmpty) (hk : SkelOK k) (hi : Inv X k p) {n : Nat}
    {p' : Prog} (h : computeDepSatisfactionPrecise isEmpty p = some (p', n)) :
    Inv X k p' ∧ p' = { p with deps := p'.deps } ∧ (X → Grows p p'.deps) := by
  by_cases hn : 1 ≤ p.hProps.length
  · obtain ⟨e, hf, _⟩ := C12_precise hE p p' n (hi.transOK hk) (fun d hd => hk.fits hi.sk hd) hn h
    have hsk : ∀ d d' : Dep, d' = { d with satisfied := d'.satisfied, satLevel := d'.satLevel, satvec := d'.satvec } →
        skelDep d' = skelDep d := by
      intro d d' h
      rw [h]; rfl
    refine ⟨?_, e, ?_⟩
    · rw [e]
      apply hi.flags
      rw [List.forall₂_iff_get] at hf ⊢
      refine ⟨hf.1, fun j h1 h2 => ?_⟩
      obtain ⟨a1, a2, _⟩ := hf.2 j h1 h2
      refine ⟨hsk _ _ a1, ?_⟩
      intro hX hr hs s t q hinst
      rcases hi.legal hX _ (List.get_mem _ _) hr s t q hinst with hx | ⟨hx1, hx2⟩
      · exact hx
      · obtain ⟨l, hl, h'⟩ := a2.mp hs s t q hinst
        exact ⟨l, hl, h', fun l' hl' => hx2 l' (by omega)⟩
    · intro hX
      rw [Grows, List.forall₂_iff_get]
      rw [List.forall₂_iff_get] at hf
      refine ⟨hf.1, fun j h1 h2 => ?_⟩
      obtain ⟨a1, a2, _⟩ := hf.2 j h1 h2
      refine ⟨hsk _ _ a1, fun hr hs _ => a2.mpr ?_⟩
      intro s t q hinst
      rcases hi.legal hX _ (List.get_mem _ _) hr s t q hinst with hx | ⟨hx1, hx2⟩
      · obtain ⟨l, hl, h', _⟩ := hx
        exact ⟨l, hl, h'⟩
      · rw [hs] at hx1; cases hx1
  · have h0 : p.hProps.length = 0 := by omega
    unfold computeDepSatisfactionPrecise at h
    rw [Option.bind_eq_bind, Option.bind_eq_some_iff] at h
    obtain ⟨ds, h1, h2⟩ := h
    simp only [Option.pure_def, Option.some.injEq, Prod.mk.injEq] at h2
    have hp : preciseDep isEmpty p = fun d => some { d with satvec := [], satLevel := -1, satisfied := false } := by
      funext d
      unfold preciseDep
      rw [h0]
      rfl
    rw [hp] at h1
    have hds : ds = p.deps.map (fun d => { d with satvec := [], satLevel := -1, satisfied := false }) := by
      have : ∀ l : List Dep, l.mapM (fun d => some { d with satvec := [], satLevel := -1, satisfied := false } :
          Dep → Option Dep) = some (l.map (fun d => { d with satvec := [], satLevel := -1, satisfied := false })) := by
        intro l
        induction l with
        | nil => rfl
        | cons a l ih => simp [List.mapM_cons, ih]
      rw [this, Option.some.injEq] at h1
      exact h1.symm
    have hnone : X → ∀ d ∈ p.deps, d.rar = false → ∀ s t q, p.Inst d s t q → d.satisfied = false := by
      intro hX d hd hr s t q hinst
      rcases hi.legal hX d hd hr s t q hinst with ⟨l, hl, _⟩ | hx
      · omega
      · exact hx.1
    refine ⟨?_, by rw [← h2.1], ?_⟩
    · rw [← h2.1]
      apply hi.flags
      rw [hds, List.forall₂_map_right_iff]
      exact List.forall₂_same.mpr (fun d _ => ⟨rfl, fun _ _ hs => by simp at hs⟩)
    · intro hX
      rw [← h2.1]
      simp only
      rw [Grows, hds, List.forall₂_map_right_iff]
      refine List.forall₂_same.mpr (fun d hd => ⟨rfl, fun hr hs hex => ?_⟩)
      obtain ⟨s, t, q, hinst⟩ := hex
      rw [hnone hX d hd hr s t q hinst] at hs; cases hs

end flags

end Pluto
