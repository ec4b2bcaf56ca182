import Verif.Props.Flow

/-! Flow analysis between named accesses, seen from the instances: `dec` gives the statement for a name. -/

namespace Pluto

/-- The instance for a named instance. -/
def decPt (dec : Nat → Nat) (p : Pt) : Pt := (dec p.1, p.2)

/-- Names stand for the reads `RE`, writes `WE` and times `At` of the instances. -/
structure NamesRight (dec : Nat → Nat) (RE WE : Pt → Pt → Prop) (At : Pt → List Int → Prop) (reads writes : List IslAcc) (s : List IslTime) (q : List Int) : Prop where
  r1 : ∀ p e, Touches reads q p e → RE (decPt dec p) e
  r2 : ∀ a e, RE a e → ∃ c, dec c = a.1 ∧ Touches reads q (c, a.2) e
  w1 : ∀ p e, Touches writes q p e → WE (decPt dec p) e
  w2 : ∀ a e, WE a e → ∃ c, dec c = a.1 ∧ Touches writes q (c, a.2) e
  t1 : ∀ p t, AtTime s q p t → At (decPt dec p) t
  t2 : ∀ p t e, Touches reads q p e ∨ Touches writes q p e → At (decPt dec p) t → AtTime s q p t
  fn : ∀ a t t', At a t → At a t' → t = t'

/-- One writes what the other reads or writes. -/
def ConflictAt (RE WE : Pt → Pt → Prop) (a b : Pt) : Prop := ∃ e, WE a e ∧ (RE b e ∨ WE b e) ∨ RE a e ∧ WE b e

def BeforeAt (At : Pt → List Int → Prop) (a b : Pt) : Prop := ∃ t t', At a t ∧ At b t' ∧ LexBefore t t'

theorem flowNames_complete {dec : Nat → Nat} {RE WE : Pt → Pt → Prop} {At : Pt → List Int → Prop} {reads writes : List IslAcc} {s : List IslTime} {q : List Int}
    (h : NamesRight dec RE WE At reads writes s q) (fo : FlowOps) (o : FlowOpts) (trans : Bool) (ho : fo.OK reads writes s) (d : IslDeps)
    (hd : computeDeps fo o trans reads writes s = some d) (hfin : ∀ e, {p | Touches writes q p e}.Finite) (a b : Pt) (hab : ConflictAt RE WE a b) (hb : BeforeAt At a b) :
    Relation.TransGen (fun a b => ∃ x y, decPt dec x = a ∧ decPt dec y = b ∧ (Related d.raw q x y ∨ Related d.war q x y ∨ Related d.waw q x y)) a b := by
  obtain ⟨t, t', ht, ht', hlt⟩ := hb
  have bef : ∀ c c', dec c = a.1 → dec c' = b.1 → ∀ e, (Touches reads q (c, a.2) e ∨ Touches writes q (c, a.2) e) → (Touches reads q (c', b.2) e ∨ Touches writes q (c', b.2) e) →
      Earlier s q (c, a.2) (c', b.2) := by
    intro c c' hc hc' e h1 h2
    refine ⟨t, t', h.t2 _ _ e h1 ?_, h.t2 _ _ e h2 ?_, hlt⟩
    · rw [show decPt dec (c, a.2) = a from Prod.ext hc rfl]; exact ht
    · rw [show decPt dec (c', b.2) = b from Prod.ext hc' rfl]; exact ht'
  obtain ⟨c, c', hc, hc', hC⟩ : ∃ c c', dec c = a.1 ∧ dec c' = b.1 ∧ (Conflict writes reads s q (c, a.2) (c', b.2) ∨ Conflict reads writes s q (c, a.2) (c', b.2) ∨
      Conflict writes writes s q (c, a.2) (c', b.2)) := by
    obtain ⟨e, ⟨h1, h2 | h2⟩ | ⟨h1, h2⟩⟩ := hab
    · obtain ⟨c, c1, c2⟩ := h.w2 _ _ h1
      obtain ⟨c', d1, d2⟩ := h.r2 _ _ h2
      exact ⟨c, c', c1, d1, .inl ⟨e, c2, d2, bef c c' c1 d1 e (.inr c2) (.inl d2)⟩⟩
    · obtain ⟨c, c1, c2⟩ := h.w2 _ _ h1
      obtain ⟨c', d1, d2⟩ := h.w2 _ _ h2
      exact ⟨c, c', c1, d1, .inr (.inr ⟨e, c2, d2, bef c c' c1 d1 e (.inr c2) (.inr d2)⟩)⟩
    · obtain ⟨c, c1, c2⟩ := h.r2 _ _ h1
      obtain ⟨c', d1, d2⟩ := h.w2 _ _ h2
      exact ⟨c, c', c1, d1, .inr (.inl ⟨e, c2, d2, bef c c' c1 d1 e (.inl c2) (.inr d2)⟩)⟩
  have key := C61_complete fo o trans reads writes s ho d hd q (fun p u u' h1 h2 => h.fn _ _ _ (h.t1 _ _ h1) (h.t1 _ _ h2)) hfin _ _ hC
  have lift := Relation.TransGen.lift (p := fun a b => ∃ x y, decPt dec x = a ∧ decPt dec y = b ∧ (Related d.raw q x y ∨ Related d.war q x y ∨ Related d.waw q x y))
    (decPt dec) (fun x y hxy => ⟨x, y, rfl, rfl, hxy⟩) _ _ key
  rw [show a = decPt dec (c, a.2) from Prod.ext hc.symm rfl, show b = decPt dec (c', b.2) from Prod.ext hc'.symm rfl]
  exact lift

theorem flowNames_before {dec : Nat → Nat} {RE WE : Pt → Pt → Prop} {At : Pt → List Int → Prop} {reads writes : List IslAcc} {s : List IslTime} {q : List Int}
    (h : NamesRight dec RE WE At reads writes s q) {x y : Pt} (he : Earlier s q x y) : BeforeAt At (decPt dec x) (decPt dec y) := by
  obtain ⟨t, t', h1, h2, h3⟩ := he
  exact ⟨t, t', h.t1 _ _ h1, h.t1 _ _ h2, h3⟩

theorem flow_rar_sound (fo : FlowOps) (o : FlowOpts) (trans : Bool) (reads writes : List IslAcc) (s : List IslTime) (ho : fo.OK reads writes s)
    (d : IslDeps) (h : computeDeps fo o trans reads writes s = some d) (q : List Int) (a b : Pt) (hr : Related (d.rar.getD []) q a b) : Conflict reads reads s q a b := by
  cases hrar : o.rar with
  | false =>
    have : d.rar = none := by
      unfold computeDeps computeDepsRaw at h
      rw [hrar] at h
      simp only [Bool.false_eq_true, if_false] at h
      split_ifs at h <;> · first | cases h; done | (cases h; rfl)
    rw [this] at hr
    obtain ⟨m, hm, -⟩ := hr
    simp at hm
  | true =>
    cases hl : o.lastwriter with
    | false =>
      obtain ⟨-, -, -, c⟩ := C61_all fo o trans reads writes s ho hl d h q a b
      obtain ⟨r, h1, h2⟩ := c hrar
      rw [h1] at hr
      exact h2.mp hr
    | true =>
      obtain ⟨-, -, c, -⟩ := C61_last fo o trans reads writes s ho hl d h q a b
      obtain ⟨r, h1, h2⟩ := c hrar
      rw [h1] at hr
      obtain ⟨e, g1, g2, g3, -⟩ := h2.mp hr
      exact ⟨e, g1, g2, g3⟩

end Pluto
