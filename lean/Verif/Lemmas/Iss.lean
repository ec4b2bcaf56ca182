import Verif.Spec.Iss
import Verif.Model.Iss
import Verif.Lemmas.Dims
import Verif.Props.CstEdit
import Verif.Props.StmtOps

namespace Pluto

/-! ### Exactly one -/

theorem ExactlyOne.congr {α : Type*} {l : List α} {P Q : α → Prop} (h : ExactlyOne l P)
    (e : ∀ x ∈ l, P x ↔ Q x) : ExactlyOne l Q := by
  obtain ⟨a, b, c, rfl, hb, ha, hc⟩ := h
  exact ⟨a, b, c, rfl, (e b (by simp)).mp hb, fun x hx hq => ha x hx ((e x (by simp [hx])).mpr hq),
    fun x hx hq => hc x hx ((e x (by simp [hx])).mpr hq)⟩

theorem ExactlyOne.singleton {α : Type*} {b : α} {P : α → Prop} (h : P b) : ExactlyOne [b] P :=
  ⟨[], b, [], rfl, h, by simp, by simp⟩

theorem ExactlyOne.append {α : Type*} {l m : List α} {P : α → Prop}
    (h : ExactlyOne l P ∧ (∀ x ∈ m, ¬ P x) ∨ (∀ x ∈ l, ¬ P x) ∧ ExactlyOne m P) : ExactlyOne (l ++ m) P := by
  rcases h with ⟨⟨a, b, c, rfl, hb, ha, hc⟩, hm⟩ | ⟨hl, ⟨a, b, c, rfl, hb, ha, hc⟩⟩
  · refine ⟨a, b, c ++ m, by simp, hb, ha, fun x hx => ?_⟩
    rcases List.mem_append.mp hx with hx | hx
    · exact hc x hx
    · exact hm x hx
  · refine ⟨l ++ a, b, c, by simp, hb, fun x hx => ?_, hc⟩
    rcases List.mem_append.mp hx with hx | hx
    · exact hl x hx
    · exact ha x hx

theorem ExactlyOne.flatMap {α β : Type*} {l : List α} {P : α → Prop} {f : α → List β} {Q : β → Prop}
    (h : ExactlyOne l P) (h1 : ∀ x ∈ l, P x → ExactlyOne (f x) Q)
    (h0 : ∀ x ∈ l, ¬ P x → ∀ y ∈ f x, ¬ Q y) : ExactlyOne (l.flatMap f) Q := by
  obtain ⟨a, b, c, rfl, hb, ha, hc⟩ := h
  rw [List.flatMap_append, List.flatMap_cons]
  apply ExactlyOne.append
  refine Or.inr ⟨fun y hy => ?_, ExactlyOne.append (Or.inl ⟨h1 b (by simp) hb, fun y hy => ?_⟩)⟩
  · obtain ⟨x, hx, hy⟩ := List.mem_flatMap.mp hy
    exact h0 x (by simp [hx]) (ha x hx) y hy
  · obtain ⟨x, hx, hy⟩ := List.mem_flatMap.mp hy
    exact h0 x (by simp [hx]) (hc x hx) y hy

theorem ExactlyOne.range {α : Type*} {l : List α} {P : α → Prop} (h : ExactlyOne l P) :
    ExactlyOne (List.range l.length) (fun i => ∃ x, l[i]? = some x ∧ P x) := by
  obtain ⟨a, b, c, rfl, hb, ha, hc⟩ := h
  refine ⟨List.range a.length, a.length, (List.range c.length).map (fun i => a.length + (i + 1)), ?_, ?_, ?_, ?_⟩
  · rw [List.length_append, List.length_cons, List.range_add, List.range_succ_eq_map]
    simp [List.map_map, Function.comp_def]
  · exact ⟨b, by simp, hb⟩
  · rintro i hi ⟨x, hx, hp⟩
    rw [List.mem_range] at hi
    rw [List.getElem?_append_left hi] at hx
    exact ha x (List.mem_of_getElem? hx) hp
  · rintro i hi ⟨x, hx, hp⟩
    obtain ⟨j, hj, rfl⟩ := List.mem_map.mp hi
    rw [List.getElem?_append_right (by omega), show a.length + (j + 1) - a.length = j + 1 by omega,
      List.getElem?_cons_succ] at hx
    exact hc x (List.mem_of_getElem? hx) hp

theorem ExactlyOne.map {α β : Type*} {l : List α} {f : α → β} {Q : β → Prop}
    (h : ExactlyOne l (fun x => Q (f x))) : ExactlyOne (l.map f) Q := by
  obtain ⟨a, b, c, rfl, hb, ha, hc⟩ := h
  refine ⟨a.map f, f b, c.map f, by simp, hb, ?_, ?_⟩
  · intro y hy
    obtain ⟨x, hx, rfl⟩ := List.mem_map.mp hy
    exact ha x hx
  · intro y hy
    obtain ⟨x, hx, rfl⟩ := List.mem_map.mp hy
    exact hc x hx

/-! ### Statements -/

/-- Same dimension and domain; the schedule may have further zero rows. -/
def StExt (a b : Stmt) : Prop :=
  b.dim = a.dim ∧ b.domain = a.domain ∧ ∃ z, b.trans = a.trans ++ z ∧ ∀ r ∈ z, ∀ v ∈ r, v = (0 : Int)

theorem StExt.refl (a : Stmt) : StExt a a := ⟨rfl, rfl, [], by simp, by simp⟩

theorem StExt.trans {a b c : Stmt} (h1 : StExt a b) (h2 : StExt b c) : StExt a c := by
  obtain ⟨d1, e1, z1, t1, o1⟩ := h1
  obtain ⟨d2, e2, z2, t2, o2⟩ := h2
  refine ⟨d2.trans d1, e2.trans e1, z1 ++ z2, by rw [t2, t1]; simp, fun r hr => ?_⟩
  rcases List.mem_append.mp hr with h | h
  · exact o1 r h
  · exact o2 r h

theorem stExt_pad (ncols n : Nat) (a : Stmt) : StExt a (padTrans ncols n a) := by
  refine ⟨rfl, rfl, _, rfl, fun r hr v hv => ?_⟩
  rw [List.eq_of_mem_replicate hr] at hv
  exact List.eq_of_mem_replicate hv

theorem stExt_piece {a b : Stmt} (h : StExt a b) (c : Cst) : StExt (issPiece a c) (issPiece b c) := by
  obtain ⟨d, e, z, t, o⟩ := h
  exact ⟨d, by simp [issPiece, e], z, t, o⟩

theorem addGiven_npar (p : Prog) (st : Stmt) : (addGivenStmt p st).npar = p.npar := rfl
theorem addGiven_deps (p : Prog) (st : Stmt) : (addGivenStmt p st).deps = p.deps := rfl

theorem addGiven_stmts (p : Prog) (st : Stmt) :
    (addGivenStmt p st).stmts.length = p.stmts.length + 1 ∧
    (∀ (j : Nat) (a : Stmt), p.stmts[j]? = some a → ∃ b, (addGivenStmt p st).stmts[j]? = some b ∧ StExt a b) ∧
    ∃ b, (addGivenStmt p st).stmts[p.stmts.length]? = some b ∧ StExt st b := by
  unfold addGivenStmt padTransformations
  refine ⟨by simp, fun j a h => ?_, ?_⟩
  · have hj : j < p.stmts.length := by rw [List.getElem?_eq_some_iff] at h; exact h.1
    refine ⟨_, by rw [List.getElem?_map, List.getElem?_append_left hj, h]; rfl, stExt_pad _ _ _⟩
  · refine ⟨_, by rw [List.getElem?_map, List.getElem?_append_right (by omega)]; simp; rfl, stExt_pad _ _ _⟩

/-- Adding the pieces of statement `i`. -/
theorem issPieces_spec (i : Nat) (cuts : List Cst) (q p1 : Prog) (st : Stmt) (hst : q.stmts[i]? = some st)
    (h : cuts.foldlM (fun p c => do
      let st ← p.stmts[i]?
      return addGivenStmt p (issPiece st c)) q = some p1) :
    p1.npar = q.npar ∧ p1.deps = q.deps ∧ p1.stmts.length = q.stmts.length + cuts.length ∧
    (∀ (j : Nat) (a : Stmt), q.stmts[j]? = some a → ∃ b, p1.stmts[j]? = some b ∧ StExt a b) ∧
    ∀ (c : Nat) (cut : Cst), cuts[c]? = some cut →
      ∃ b, p1.stmts[q.stmts.length + c]? = some b ∧ StExt (issPiece st cut) b := by
  induction cuts generalizing q st with
  | nil =>
    simp only [List.foldlM_nil, pure, Option.some.injEq] at h
    subst h
    exact ⟨rfl, rfl, rfl, fun j a ha => ⟨a, ha, StExt.refl a⟩, by simp⟩
  | cons c0 cs ih =>
    simp only [List.foldlM_cons, Option.bind_eq_bind, hst, Option.bind_some, pure] at h
    obtain ⟨l1, l2, l3⟩ := addGiven_stmts q (issPiece st c0)
    obtain ⟨st', hs', he'⟩ := l2 i st hst
    obtain ⟨k1, k2, k3, k4, k5⟩ := ih _ st' hs' h
    refine ⟨k1.trans (addGiven_npar _ _), k2.trans (addGiven_deps _ _), by rw [k3, l1]; simp; omega, ?_, ?_⟩
    · intro j a ha
      obtain ⟨b, hb, eb⟩ := l2 j a ha
      obtain ⟨b', hb', eb'⟩ := k4 j b hb
      exact ⟨b', hb', eb.trans eb'⟩
    · intro c cut hc
      rcases c with _ | c
      · simp only [List.getElem?_cons_zero, Option.some.injEq] at hc
        subst hc
        obtain ⟨b, hb, eb⟩ := l3
        obtain ⟨b', hb', eb'⟩ := k4 _ b hb
        exact ⟨b', by simpa using hb', eb.trans eb'⟩
      · rw [List.getElem?_cons_succ] at hc
        obtain ⟨b, hb, eb⟩ := k5 c cut hc
        rw [l1] at hb
        exact ⟨b, by rw [← hb]; congr 1; omega, (stExt_piece he' cut).trans eb⟩

theorem issPieces_defined (i : Nat) (cuts : List Cst) (q : Prog) (st : Stmt) (hst : q.stmts[i]? = some st) :
    ∃ p1, cuts.foldlM (fun p c => do
      let st ← p.stmts[i]?
      return addGivenStmt p (issPiece st c)) q = some p1 := by
  induction cuts generalizing q st with
  | nil => exact ⟨q, rfl⟩
  | cons c0 cs ih =>
    simp only [List.foldlM_cons, Option.bind_eq_bind, hst, Option.bind_some, pure]
    obtain ⟨st', hs', he'⟩ := (addGiven_stmts q (issPiece st c0)).2.1 i st hst
    exact ih _ st' hs'

/-! ### One dependence, one pair of cuts -/

/-- What the part `nd` of `d` says about a point: dependence `d`, and the cuts at both ends. -/
theorem issCutDep_spec (isEmpty : Cst → Bool) (hE : EmptyOracle isEmpty) (p : Prog) (cuts : List Cst)
    (id base D : Nat) (d : Dep) (s t : Nat) (hw : d.dpoly.WF) (hc : d.dpoly.ncols = D + D + p.npar + 1)
    (hsd : dimOf p d.src = D) (hdd : dimOf p d.dest = D)
    (cs ct : Cst) (hcs : d.src = id → cuts[s]? = some cs) (hct : d.dest = id → cuts[t]? = some ct)
    (hcw : ∀ c ∈ cuts, c.WF ∧ c.ncols = D + p.npar + 1) :
    (∀ nd ∈ issCutDep isEmpty p cuts id base d s t,
      nd.src = (if d.src = id then base + s else d.src) ∧ nd.dest = (if d.dest = id then base + t else d.dest) ∧
      nd.rar = d.rar ∧ nd.dpoly.WF ∧ nd.dpoly.ncols = d.dpoly.ncols ∧
      ∀ x y q : List Int, x.length = D → y.length = D → q.length = p.npar →
        (nd.dpoly.Sat (x ++ y ++ q) ↔ d.dpoly.Sat (x ++ y ++ q) ∧ (d.src = id → cs.Sat (x ++ q)) ∧
          (d.dest = id → ct.Sat (y ++ q)))) ∧
    ∀ x y q : List Int, x.length = D → y.length = D → q.length = p.npar → d.dpoly.Sat (x ++ y ++ q) →
      (d.src = id → cs.Sat (x ++ q)) → (d.dest = id → ct.Sat (y ++ q)) →
      ExactlyOne (issCutDep isEmpty p cuts id base d s t) (fun nd => nd.dpoly.Sat (x ++ y ++ q)) := by
  have gs : d.src = id → cuts.getD s ⟨0, []⟩ = cs := fun e => by
    rw [List.getD_eq_getElem?_getD, hcs e]; rfl
  have gt : d.dest = id → cuts.getD t ⟨0, []⟩ = ct := fun e => by
    rw [List.getD_eq_getElem?_getD, hct e]; rfl
  have ks : d.src = id → (addDims cs D D).WF ∧ (addDims cs D D).ncols = d.dpoly.ncols ∧
      ∀ x y q : List Int, x.length = D → y.length = D → q.length = p.npar →
      ((addDims cs D D).Sat (x ++ y ++ q) ↔ cs.Sat (x ++ q)) := by
    intro e
    obtain ⟨w, n⟩ := hcw cs (List.mem_of_getElem? (hcs e))
    obtain ⟨a, b⟩ := addDims_wf w (by omega : D ≤ cs.ncols) D
    refine ⟨a, by omega, fun x y q hx hy hq => ?_⟩
    have := sat_addDims x y q w (by omega)
    rw [hx, hy] at this
    exact this
  have kt : d.dest = id → (addDims ct 0 D).WF ∧ (addDims ct 0 D).ncols = d.dpoly.ncols ∧
      ∀ x y q : List Int, x.length = D → y.length = D → q.length = p.npar →
      ((addDims ct 0 D).Sat (x ++ y ++ q) ↔ ct.Sat (y ++ q)) := by
    intro e
    obtain ⟨w, n⟩ := hcw ct (List.mem_of_getElem? (hct e))
    obtain ⟨a, b⟩ := addDims_wf w (by omega : 0 ≤ ct.ncols) D
    refine ⟨a, by omega, fun x y q hx hy hq => ?_⟩
    have := sat_addDims [] x (y ++ q) w (by simp; omega)
    rw [hx] at this
    simpa using this
  obtain ⟨dp, hdp, wdp, ndp, sdp⟩ : ∃ dp, dp = (if d.dest = id then
        addCst (if d.src = id then
            addCst d.dpoly (addDims (cuts.getD s ⟨0, []⟩) (dimOf p d.src) (dimOf p d.dest))
          else d.dpoly) (addDims (cuts.getD t ⟨0, []⟩) 0 (dimOf p d.src))
      else if d.src = id then
          addCst d.dpoly (addDims (cuts.getD s ⟨0, []⟩) (dimOf p d.src) (dimOf p d.dest))
        else d.dpoly) ∧
      dp.WF ∧ dp.ncols = d.dpoly.ncols ∧
      ∀ x y q : List Int, x.length = D → y.length = D → q.length = p.npar →
        (dp.Sat (x ++ y ++ q) ↔ d.dpoly.Sat (x ++ y ++ q) ∧ (d.src = id → cs.Sat (x ++ q)) ∧
          (d.dest = id → ct.Sat (y ++ q))) := by
    refine ⟨_, rfl, ?_⟩
    simp only [hsd, hdd]
    by_cases c1 : d.src = id <;> by_cases c2 : d.dest = id
    · obtain ⟨a1, b1, s1⟩ := ks c1
      obtain ⟨a2, b2, s2⟩ := kt c2
      rw [if_pos c1, if_pos c2, gs c1, gt c2]
      refine ⟨addCst_wf (addCst_wf hw a1 b1) a2 b2, rfl, fun x y q hx hy hq => ?_⟩
      rw [C27_add, C27_add, s1 x y q hx hy hq, s2 x y q hx hy hq]
      constructor
      · rintro ⟨⟨a, b⟩, c⟩; exact ⟨a, fun _ => b, fun _ => c⟩
      · rintro ⟨a, b, c⟩; exact ⟨⟨a, b c1⟩, c c2⟩
    · obtain ⟨a1, b1, s1⟩ := ks c1
      rw [if_pos c1, if_neg c2, gs c1]
      refine ⟨addCst_wf hw a1 b1, rfl, fun x y q hx hy hq => ?_⟩
      rw [C27_add, s1 x y q hx hy hq]
      constructor
      · rintro ⟨a, b⟩; exact ⟨a, fun _ => b, fun e => absurd e c2⟩
      · rintro ⟨a, b, c⟩; exact ⟨a, b c1⟩
    · obtain ⟨a2, b2, s2⟩ := kt c2
      rw [if_neg c1, if_pos c2, gt c2]
      refine ⟨addCst_wf hw a2 b2, rfl, fun x y q hx hy hq => ?_⟩
      rw [C27_add, s2 x y q hx hy hq]
      constructor
      · rintro ⟨a, b⟩; exact ⟨a, fun e => absurd e c1, fun _ => b⟩
      · rintro ⟨a, b, c⟩; exact ⟨a, c c2⟩
    · rw [if_neg c1, if_neg c2]
      refine ⟨hw, rfl, fun x y q hx hy hq => ?_⟩
      constructor
      · intro a; exact ⟨a, fun e => absurd e c1, fun e => absurd e c2⟩
      · rintro ⟨a, b, c⟩; exact a
  have hdef : issCutDep isEmpty p cuts id base d s t = if isEmpty dp then [] else
      [{ d with
        dpoly := dp
        satvec := []
        dirvec := []
        src := if d.src = id then base + s else d.src
        dest := if d.dest = id then base + t else d.dest }] := by rw [hdp]; rfl
  rw [hdef]
  constructor
  · intro nd hnd
    by_cases he : isEmpty dp = true
    · rw [if_pos he] at hnd; cases hnd
    · rw [if_neg he, List.mem_singleton] at hnd
      subst hnd
      exact ⟨rfl, rfl, rfl, wdp, ndp, sdp⟩
  · intro x y q hx hy hq h1 h2 h3
    have hs : dp.Sat (x ++ y ++ q) := (sdp x y q hx hy hq).mpr ⟨h1, h2, h3⟩
    have he : ¬ isEmpty dp = true := fun e => (hE dp wdp).mp e ⟨_, by simp [hx, hy, hq, ndp, hc]; omega, hs⟩
    rw [if_neg he]
    exact ExactlyOne.singleton hs

end Pluto
