import Verif.Lemmas.Polyloop
import Verif.Lemmas.Lex
import Verif.Lemmas.TileLegal

/-! Lemmas about `permutableBand`. -/

namespace Pluto

theorem mapM_false {α : Type*} {f : α → Option Bool} {l : List α} {bs : List Bool} (h : l.mapM f = some bs)
    (hn : bs.any id = false) : ∀ a ∈ l, f a = some false := by
  have hf := mapM_forall₂ _ _ _ h
  clear h
  induction hf with
  | nil => simp
  | @cons a b l l' hab _ ih =>
    simp only [List.any_cons, id_eq, Bool.or_eq_false_iff] at hn
    intro x hx
    rcases List.mem_cons.mp hx with rfl | hx
    · rw [hab, hn.1]
    · exact ih hn.2 x hx

theorem bandEnd_spec {p : Prog} {L : Loop} : ∀ {n depth e : Nat}, bandEnd p L n depth = some e →
    depth ≤ e ∧ e ≤ depth + n ∧ ∀ l, depth ≤ l → l < e → ∀ d ∈ p.deps, breaksBand p L l d = some false := by
  intro n
  induction n with
  | zero =>
    intro depth e h
    simp [bandEnd] at h
    subst h
    exact ⟨le_refl _, by omega, by intros; omega⟩
  | succ n ih =>
    intro depth e h
    simp only [bandEnd, Option.bind_eq_bind, Option.bind_eq_some_iff] at h
    obtain ⟨bs, h1, h2⟩ := h
    split_ifs at h2 with hc
    · simp only [pure, Option.some.injEq] at h2
      subst h2
      exact ⟨le_refl _, by omega, by intros; omega⟩
    · obtain ⟨a, b, c⟩ := ih h2
      refine ⟨by omega, by omega, ?_⟩
      intro l hl1 hl2 d hd
      by_cases hl : l = depth
      · subst hl
        exact mapM_false h1 (by simpa using hc) d hd
      · exact c l (by omega) hl2 d hd

theorem isDepthScalar_iff {p : Prog} {L : Loop} {l : Nat} {b : Bool} (h : isDepthScalar p L l = some b) :
    b = true ↔ ∀ i ∈ L.stmts, p.Scalar l i := by
  unfold isDepthScalar at h
  split_ifs at h
  simp only [Option.bind_eq_bind, Option.bind_eq_some_iff, pure, Option.some.injEq] at h
  obtain ⟨bs, h1, rfl⟩ := h
  have hf := mapM_forall₂ _ _ _ h1
  clear h1
  generalize L.stmts = ss at hf
  induction hf with
  | nil => simp
  | @cons a b l' l2 hab _ ih =>
    simp only [List.all_cons, id_eq, Bool.and_eq_true, List.mem_cons, forall_eq_or_imp]
    rw [scalarAt_iff hab]
    exact and_congr_right (fun _ => ih)

theorem peelScalar_spec {p : Prog} {L : Loop} : ∀ {n w : Nat}, peelScalar p L n = some w →
    1 ≤ w ∧ w ≤ n ∧ ¬ ∀ i ∈ L.stmts, p.Scalar (L.depth + (w - 1)) i := by
  intro n
  induction n with
  | zero => intro w h; simp [peelScalar] at h
  | succ n ih =>
    intro w h
    simp only [peelScalar, Option.bind_eq_bind, Option.bind_eq_some_iff] at h
    obtain ⟨b, h1, h2⟩ := h
    split_ifs at h2 with hb
    · obtain ⟨a, b, c⟩ := ih h2
      exact ⟨a, by omega, c⟩
    · simp only [pure, Option.some.injEq] at h2
      subst h2
      refine ⟨by omega, le_refl _, ?_⟩
      rw [Nat.add_sub_cancel]
      intro hs
      exact hb ((isDepthScalar_iff h1).mpr hs)

theorem permutableBand_spec {p : Prog} {L : Loop} {b : Band} (h : permutableBand p L = some (some b)) :
    b.loop = L ∧ 2 ≤ b.width ∧ L.depth + b.width ≤ p.hProps.length ∧
    (¬ ∀ i ∈ L.stmts, p.Scalar (L.depth + (b.width - 1)) i) ∧
    ∀ m < b.width, ∀ d ∈ p.deps, breaksBand p L (L.depth + m) d = some false := by
  unfold permutableBand at h
  simp only [Option.bind_eq_bind, Option.bind_eq_some_iff, pure, Option.some.injEq] at h
  obtain ⟨e, h1, w, h2, h3⟩ := h
  split_ifs at h3 with hw
  simp only [Option.some.injEq] at h3
  subst h3
  obtain ⟨a1, a2, a3⟩ := bandEnd_spec h1
  obtain ⟨b1, b2, b3⟩ := peelScalar_spec h2
  refine ⟨rfl, by show 2 ≤ w; omega, by show L.depth + w ≤ _; omega, b3, ?_⟩
  intro m hm
  have hm : m < w := hm
  exact a3 _ (by omega) (by omega)

/-- Components of a dependence inside the band for a pair that is tied before it. -/
theorem band_comp {p : Prog} (hi : p.Info) {L : Loop} {b : Band} (h : permutableBand p L = some (some b))
    (hc : Complete p L.stmts) (hn : NonnegToScalar p L.stmts) {d : Dep} (hd : d ∈ p.deps) (hr : d.rar = false)
    (hs : d.src ∈ L.stmts) (ht : d.dest ∈ L.stmts) {s t q : List Int} (hin : p.Inst d s t q)
    (htied : p.TiedBelow d L.depth s t q) {m : Nat} (hm : m < b.width) :
    0 ≤ p.comp d (L.depth + m) s t q ∨
    ∃ m0 < m, (∀ i ∈ L.stmts, p.Scalar (L.depth + m0) i) ∧ 1 ≤ p.comp d (L.depth + m0) s t q := by
  obtain ⟨_, _, hle, _, hbr⟩ := permutableBand_spec h
  have hsat := hc d hd hr hs ht
  have hst := (hi.sat d hd).mpr hsat
  classical
  obtain ⟨hl0, hfull⟩ := Nat.find_spec hsat
  have hmin : ∀ l' < Nat.find hsat, ¬ ∀ s t q, p.Inst d s t q → 1 ≤ p.comp d l' s t q := by
    intro l' hl' hf'
    exact Nat.find_min hsat hl' ⟨by omega, hf'⟩
  generalize Nat.find hsat = l0 at *
  have hlev : d.satLevel = (l0 : Int) := (hi.level d hd l0).mpr ⟨hl0, hfull, hmin⟩
  have hge : L.depth ≤ l0 := by
    by_contra hlt
    have := hfull s t q hin
    rw [htied l0 (by omega)] at this
    omega
  have hb := hbr m hm d hd
  unfold breaksBand at hb
  rw [if_neg (by simp [hr]), if_neg (by rw [hlev]; omega), if_neg (by simp [hst])] at hb
  simp only [Option.bind_eq_bind, Option.bind_eq_some_iff] at hb
  obtain ⟨sc, h1, h2⟩ := hb
  rw [hlev, Int.toNat_natCast] at h1
  have hsc := isDepthScalar_iff h1
  split_ifs at h2 with c1 c2
  · have hall := hsc.mp c1
    rcases Nat.lt_trichotomy (L.depth + m) l0 with hlt | heq | hgt
    · exact .inl (hn d hd hr hs ht l0 hl0 hall hfull hmin _ hlt s t q hin)
    · left; rw [heq]; have := hfull s t q hin; omega
    · right
      refine ⟨l0 - L.depth, by omega, ?_⟩
      rw [show L.depth + (l0 - L.depth) = l0 by omega]
      exact ⟨hall, hfull s t q hin⟩
  · rw [Option.bind_eq_some_iff] at h2
    obtain ⟨dir, h3, h4⟩ := h2
    simp only [pure, Option.some.injEq, decide_eq_false_iff_not, not_or] at h4
    left
    by_contra hneg
    rcases (hi.dir d hd _ dir h3).1.mpr ⟨s, t, q, hin, by omega⟩ with e | e
    · exact h4.2 e
    · exact h4.1 e
  · simp [hs, ht] at c2

theorem lex_map {α : Type*} (σ : List α) (g h : α → Int)
    (hc : ∀ A m B, σ = A ++ m :: B → (∀ a ∈ A, g a = h a) → g m ≤ h m) :
    σ.map g = σ.map h ∨ LexBefore (σ.map g) (σ.map h) := by
  induction σ with
  | nil => left; rfl
  | cons a σ ih =>
    rcases lt_or_eq_of_le (hc [] a σ rfl (by simp)) with hlt | heq
    · right
      exact ⟨0, g a, h a, by simp, by simp, hlt, by intros; omega⟩
    · rcases ih (fun A m B e hA => hc (a :: A) m B (by simp [e]) (by simpa [heq] using hA)) with e | e
      · left; simp [heq, e]
      · right
        have := (lex_prefix [g a]).mpr e
        rw [List.map_cons, List.map_cons, ← heq]
        exact this

/-- Rearranging entries keeps the order if no entry goes backwards when all those put before it are equal. -/
theorem lex_permute {a b : List Int} {f w : Nat} {perm : List Nat} (hp : perm.Perm (List.range w))
    (la : f + w ≤ a.length) (lb : f + w ≤ b.length) (h : LexBefore a b)
    (hc : a.take f = b.take f → ∀ A m B, perm = A ++ m :: B → (∀ m0 ∈ A, a.getD (f + m0) 0 = b.getD (f + m0) 0) →
      a.getD (f + m) 0 ≤ b.getD (f + m) 0) :
    LexBefore (permuteTime f w perm a) (permuteTime f w perm b) := by
  unfold permuteTime
  rw [List.append_assoc, List.append_assoc]
  rw [← List.take_append_drop f a, ← List.take_append_drop f b] at h
  rcases lex_split (by simp; omega) h with h1 | ⟨h1, h2⟩
  · exact lex_append h1 _ _
  · rw [h1, lex_prefix]
    have hcc := hc h1
    rcases lex_map perm (fun m => a.getD (f + m) 0) (fun m => b.getD (f + m) 0) hcc with e | e
    · rw [e, lex_prefix]
      have e' : ∀ m < w, a.getD (f + m) 0 = b.getD (f + m) 0 := by
        intro m hm
        have hmem : m ∈ perm := hp.mem_iff.mpr (by simpa using hm)
        exact List.map_inj_left.mp e m hmem
      rw [← List.take_append_drop w (a.drop f), ← List.take_append_drop w (b.drop f)] at h2
      have ed : (a.drop f).take w = (b.drop f).take w := by
        apply List.ext_getElem?
        intro j
        by_cases hj : j < w
        · have := e' j hj
          rw [List.getElem?_take_of_lt hj, List.getElem?_take_of_lt hj, List.getElem?_drop, List.getElem?_drop]
          rw [List.getD_eq_getElem?_getD, List.getD_eq_getElem?_getD] at this
          rw [List.getElem?_eq_getElem (by omega), List.getElem?_eq_getElem (by omega)] at this ⊢
          simpa using this
        · simp [hj]
      rw [ed, lex_prefix, List.drop_drop, List.drop_drop] at h2
      exact h2
    · exact lex_append e _ _

end Pluto
