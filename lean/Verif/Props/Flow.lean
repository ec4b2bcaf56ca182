import Verif.Spec.Flow
import Verif.Lemmas.IslLib
import Mathlib.Data.Set.Finite.Lattice
import Mathlib.Data.Set.Card
import Mathlib.Tactic.FinCases

/-! C61: dependences computed through isl. -/

namespace Pluto

theorem LexBefore.trans {a b c : List Int} (h1 : LexBefore a b) (h2 : LexBefore b c) : LexBefore a c := by
  obtain ⟨l, x, y, a1, a2, a3, a4⟩ := h1
  obtain ⟨m, z, w, b1, b2, b3, b4⟩ := h2
  rcases lt_trichotomy l m with h | rfl | h
  · exact ⟨l, x, y, a1, by rw [← b4 l h]; exact a2, a3, fun l' hl => (a4 l' hl).trans (b4 l' (by omega))⟩
  · rw [a2] at b1
    cases b1
    exact ⟨l, x, w, a1, b2, a3.trans b3, fun l' hl => (a4 l' hl).trans (b4 l' hl)⟩
  · exact ⟨m, z, w, by rw [a4 m h]; exact b1, b2, b3, fun l' hl => (a4 l' (by omega)).trans (b4 l' hl)⟩

/-- Program order is transitive where instances have one time each. -/
theorem Earlier.trans {s : List IslTime} {q : List Int} {a b c : Pt} (hu : ∀ p t t', AtTime s q p t → AtTime s q p t' → t = t')
    (h1 : Earlier s q a b) (h2 : Earlier s q b c) : Earlier s q a c := by
  obtain ⟨t1, t2, a1, a2, a3⟩ := h1
  obtain ⟨t3, t4, b1, b2, b3⟩ := h2
  rw [hu _ _ _ b1 a2] at b3
  exact ⟨t1, t4, a1, b2, a3.trans b3⟩

theorem Earlier.irrefl {s : List IslTime} {q : List Int} {a : Pt} (hu : ∀ p t t', AtTime s q p t → AtTime s q p t' → t = t') :
    ¬ Earlier s q a a := by
  rintro ⟨t1, t2, a1, a2, l, x, y, h1, h2, h3, -⟩
  rw [hu _ _ _ a1 a2, h2] at h1
  cases h1
  exact lt_irrefl _ h3

theorem touches_append {l l' : List IslAcc} {q : List Int} {p e : Pt} : Touches (l ++ l') q p e ↔ Touches l q p e ∨ Touches l' q p e := by
  simp [Touches, or_and_right, exists_or]

theorem touches_nil {q : List Int} {p e : Pt} : ¬ Touches [] q p e := by simp [Touches]

theorem lastConflict_nil {la lb : List IslAcc} {s : List IslTime} {q : List Int} {a b : Pt} :
    LastConflict [] la lb s q a b ↔ Conflict la lb s q a b := by
  simp [LastConflict, Conflict, touches_nil]

/-- Relations between the results before and after coalescing. -/
theorem computeDeps_cases {fo : FlowOps} {o : FlowOpts} {trans : Bool} {reads writes : List IslAcc} {s : List IslTime} (ho : fo.OK reads writes s)
    {d : IslDeps} (h : computeDeps fo o trans reads writes s = some d) :
    let d0 := computeDepsRaw fo o trans reads writes s
    (∀ q a b, Related d.raw q a b ↔ Related d0.raw q a b) ∧ (∀ q a b, Related d.war q a b ↔ Related d0.war q a b) ∧
    (∀ q a b, Related d.waw q a b ↔ Related d0.waw q a b) ∧ d.rar = d0.rar ∧
    (∀ l, d.transWar = some l → ∃ l0, d0.transWar = some l0 ∧ ∀ q a b, Related l q a b ↔ Related l0 q a b) ∧
    (∀ l, d.transWaw = some l → ∃ l0, d0.transWaw = some l0 ∧ ∀ q a b, Related l q a b ↔ Related l0 q a b) := by
  intro d0
  unfold computeDeps at h
  simp only at h
  split_ifs at h
  · cases h
    refine ⟨ho.coalesce _, ho.coalesce _, ho.coalesce _, rfl, fun l hl => ?_, fun l hl => ?_⟩
    · obtain ⟨l0, h0, rfl⟩ := Option.map_eq_some_iff.mp hl
      exact ⟨l0, h0, ho.coalesce _⟩
    · obtain ⟨l0, h0, rfl⟩ := Option.map_eq_some_iff.mp hl
      exact ⟨l0, h0, ho.coalesce _⟩
  · cases h
    exact ⟨fun _ _ _ => Iff.rfl, fun _ _ _ => Iff.rfl, fun _ _ _ => Iff.rfl, rfl, fun l hl => ⟨l, hl, fun _ _ _ => Iff.rfl⟩,
      fun l hl => ⟨l, hl, fun _ _ _ => Iff.rfl⟩⟩

theorem flow_all {fo : FlowOps} {reads writes : List IslAcc} {s : List IslTime} (ho : fo.OK reads writes s) {sink may : List IslAcc}
    (h1 : sink ∈ [reads, writes]) (h2 : may ∈ [[], reads, writes]) (q : List Int) (a b : Pt) :
    Related (fo.flow sink [] may s).2 q a b ↔ Conflict may sink s q a b := by
  obtain ⟨f1, -, f3⟩ := ho.flow sink [] may h1 (by simp) h2
  have := f1 q a b
  rw [or_iff_right (f3 rfl q a b), lastConflict_nil] at this
  simpa using this

theorem flow_last {fo : FlowOps} {reads writes : List IslAcc} {s : List IslTime} (ho : fo.OK reads writes s) {sink must : List IslAcc}
    (h1 : sink ∈ [reads, writes]) (h2 : must ∈ [[], reads, writes]) (q : List Int) (a b : Pt) :
    Related (fo.flow sink must [] s).1 q a b ↔ LastConflict must must sink s q a b := by
  obtain ⟨f1, f2, -⟩ := ho.flow sink must [] h1 h2 (by simp)
  have := f1 q a b
  rw [or_iff_left (f2 rfl q a b)] at this
  simpa using this

/-- C61. Without `--lastwriter` the dependences are exactly the conflicting pairs in program order: earlier write
and read, earlier read and write, earlier write and write, and (if asked for) earlier read and read. -/
theorem C61_all (fo : FlowOps) (o : FlowOpts) (trans : Bool) (reads writes : List IslAcc) (s : List IslTime) (ho : fo.OK reads writes s)
    (hl : o.lastwriter = false) (d : IslDeps) (h : computeDeps fo o trans reads writes s = some d) (q : List Int) (a b : Pt) :
    (Related d.raw q a b ↔ Conflict writes reads s q a b) ∧ (Related d.war q a b ↔ Conflict reads writes s q a b) ∧
    (Related d.waw q a b ↔ Conflict writes writes s q a b) ∧
    (o.rar = true → ∃ r, d.rar = some r ∧ (Related r q a b ↔ Conflict reads reads s q a b)) := by
  obtain ⟨c1, c2, c3, c4, -, -⟩ := computeDeps_cases ho h
  rw [c1, c2, c3, c4]
  simp only [computeDepsRaw, hl, Bool.false_eq_true, if_false]
  refine ⟨flow_all ho (by simp) (by simp) q a b, flow_all ho (by simp) (by simp) q a b, flow_all ho (by simp) (by simp) q a b, fun hr => ?_⟩
  rw [hr]
  exact ⟨_, rfl, flow_all ho (by simp) (by simp) q a b⟩

/-- C61. With `--lastwriter` the dependences are exactly: the last write before a read; and, together, the
accesses before a write that no other write separates from it. The transitive ones are all conflicting
pairs. -/
theorem C61_last (fo : FlowOps) (o : FlowOpts) (trans : Bool) (reads writes : List IslAcc) (s : List IslTime) (ho : fo.OK reads writes s)
    (hl : o.lastwriter = true) (d : IslDeps) (h : computeDeps fo o trans reads writes s = some d) (q : List Int) (a b : Pt) :
    (Related d.raw q a b ↔ LastConflict writes writes reads s q a b) ∧
    (Related d.waw q a b ∨ Related d.war q a b ↔ LastConflict writes (writes ++ reads) writes s q a b) ∧
    (o.rar = true → ∃ r, d.rar = some r ∧ (Related r q a b ↔ LastConflict reads reads reads s q a b)) ∧
    (∀ l, d.transWar = some l → (Related l q a b ↔ Conflict reads writes s q a b)) ∧
    (∀ l, d.transWaw = some l → (Related l q a b ↔ Conflict writes writes s q a b)) := by
  obtain ⟨c1, c2, c3, c4, c5, c6⟩ := computeDeps_cases ho h
  rw [c1, c2, c3, c4]
  simp only [computeDepsRaw, hl, if_true] at c5 c6 ⊢
  refine ⟨flow_last ho (by simp) (by simp) q a b, (ho.flow writes writes reads (by simp) (by simp) (by simp)).1 q a b, fun hr => ?_,
    fun l hl' => ?_, fun l hl' => ?_⟩
  · rw [hr]
    exact ⟨_, rfl, flow_last ho (by simp) (by simp) q a b⟩
  · obtain ⟨l0, e0, e1⟩ := c5 l hl'
    rw [e1]
    split_ifs at e0
    cases e0
    exact flow_all ho (by simp) (by simp) q a b
  · obtain ⟨l0, e0, e1⟩ := c6 l hl'
    rw [e1]
    split_ifs at e0
    cases e0
    exact flow_all ho (by simp) (by simp) q a b

/-- A conflict is a chain of conflicts with no write in between. -/
theorem conflict_chain {reads writes : List IslAcc} {s : List IslTime} {q : List Int} (hu : ∀ p t t', AtTime s q p t → AtTime s q p t' → t = t')
    (hf : ∀ e, {p | Touches writes q p e}.Finite) {R : Pt → Pt → Prop} (h1 : ∀ a b, LastConflict writes writes reads s q a b → R a b)
    (h2 : ∀ a b, LastConflict writes (writes ++ reads) writes s q a b → R a b) (e : Pt) :
    ∀ (n : Nat) (a b : Pt), {c | Touches writes q c e ∧ Earlier s q a c ∧ Earlier s q c b}.ncard ≤ n →
      Touches (writes ++ reads) q a e → Touches (writes ++ reads) q b e → (Touches writes q a e ∨ Touches writes q b e) → Earlier s q a b →
      Relation.TransGen R a b := by
  have hfin : ∀ a b, {c | Touches writes q c e ∧ Earlier s q a c ∧ Earlier s q c b}.Finite := fun a b =>
    (hf e).subset fun c hc => hc.1
  intro n
  induction n with
  | zero =>
    intro a b hn ha hb hab hlt
    have hno : ¬ ∃ c, Touches writes q c e ∧ Earlier s q a c ∧ Earlier s q c b := by
      rintro ⟨c, hc⟩
      have := (Set.ncard_eq_zero (hfin a b)).mp (Nat.le_zero.mp hn)
      rw [Set.eq_empty_iff_forall_notMem] at this
      exact this c hc
    by_cases hw : Touches writes q b e
    · exact .single (h2 a b ⟨e, ha, hw, hlt, hno⟩)
    · have hra := hab.resolve_right hw
      exact .single (h1 a b ⟨e, hra, (touches_append.mp hb).resolve_left hw, hlt, hno⟩)
  | succ n ih =>
    intro a b hn ha hb hab hlt
    by_cases hex : ∃ c, Touches writes q c e ∧ Earlier s q a c ∧ Earlier s q c b
    · obtain ⟨c, hc, hac, hcb⟩ := hex
      have less : ∀ S : Set Pt, S ⊆ {c | Touches writes q c e ∧ Earlier s q a c ∧ Earlier s q c b} → c ∉ S → S.ncard ≤ n := by
        intro S hS hcS
        have : S.ncard < {c | Touches writes q c e ∧ Earlier s q a c ∧ Earlier s q c b}.ncard :=
          Set.ncard_lt_ncard ⟨hS, fun hsub => hcS (hsub ⟨hc, hac, hcb⟩)⟩ (hfin a b)
        omega
      refine (ih a c ?_ ha (touches_append.mpr (.inl hc)) (.inr hc) hac).trans (ih c b ?_ (touches_append.mpr (.inl hc)) hb (.inl hc) hcb)
      · exact less _ (fun x hx => ⟨hx.1, hx.2.1, hx.2.2.trans hu hcb⟩) (fun hx => absurd hx.2.2 (Earlier.irrefl hu))
      · exact less _ (fun x hx => ⟨hx.1, hac.trans hu hx.2.1, hx.2.2⟩) (fun hx => absurd hx.2.1 (Earlier.irrefl hu))
    · have hn0 : {c | Touches writes q c e ∧ Earlier s q a c ∧ Earlier s q c b}.ncard ≤ n := by
        have : {c | Touches writes q c e ∧ Earlier s q a c ∧ Earlier s q c b} = ∅ := by
          rw [Set.eq_empty_iff_forall_notMem]
          exact fun c hc => hex ⟨c, hc⟩
        rw [this, Set.ncard_empty]
        omega
      exact ih a b hn0 ha hb hab hlt

/-- C61. With or without `--lastwriter`, any two instances that access the same element, at least one of them
writing, are connected by a chain of RAW, WAR and WAW dependences from the earlier to the later one. (If
finitely many instances write each element, and instances have one time.) -/
theorem C61_complete (fo : FlowOps) (o : FlowOpts) (trans : Bool) (reads writes : List IslAcc) (s : List IslTime) (ho : fo.OK reads writes s)
    (d : IslDeps) (h : computeDeps fo o trans reads writes s = some d) (q : List Int)
    (hu : ∀ p t t', AtTime s q p t → AtTime s q p t' → t = t') (hf : ∀ e, {p | Touches writes q p e}.Finite) (a b : Pt)
    (hab : Conflict writes reads s q a b ∨ Conflict reads writes s q a b ∨ Conflict writes writes s q a b) :
    Relation.TransGen (fun a b => Related d.raw q a b ∨ Related d.war q a b ∨ Related d.waw q a b) a b := by
  cases hl : o.lastwriter with
  | false =>
    obtain ⟨c1, c2, c3, -⟩ := C61_all fo o trans reads writes s ho hl d h q a b
    refine .single ?_
    rw [c1, c2, c3]
    exact hab
  | true =>
    have key : ∀ e, Touches (writes ++ reads) q a e → Touches (writes ++ reads) q b e → (Touches writes q a e ∨ Touches writes q b e) →
        Earlier s q a b → Relation.TransGen (fun a b => Related d.raw q a b ∨ Related d.war q a b ∨ Related d.waw q a b) a b := fun e =>
      conflict_chain hu hf (fun a b hc => .inl (((C61_last fo o trans reads writes s ho hl d h q a b).1).mpr hc))
        (fun a b hc => .inr (((C61_last fo o trans reads writes s ho hl d h q a b).2.1).mpr hc).symm) e _ a b (le_refl _)
    rcases hab with ⟨e, h1, h2, h3⟩ | ⟨e, h1, h2, h3⟩ | ⟨e, h1, h2, h3⟩
    · exact key e (touches_append.mpr (.inl h1)) (touches_append.mpr (.inr h2)) (.inl h1) h3
    · exact key e (touches_append.mpr (.inr h1)) (touches_append.mpr (.inl h2)) (.inr h2) h3
    · exact key e (touches_append.mpr (.inl h1)) (touches_append.mpr (.inl h2)) (.inl h1) h3

/-- C61. Every dependence found is a conflict: the two instances access the same element, one of them writes it,
and the source runs first. -/
theorem C61_sound (fo : FlowOps) (o : FlowOpts) (trans : Bool) (reads writes : List IslAcc) (s : List IslTime) (ho : fo.OK reads writes s)
    (d : IslDeps) (h : computeDeps fo o trans reads writes s = some d) (q : List Int) (a b : Pt)
    (hr : Related d.raw q a b ∨ Related d.war q a b ∨ Related d.waw q a b) :
    Conflict writes reads s q a b ∨ Conflict reads writes s q a b ∨ Conflict writes writes s q a b := by
  cases hl : o.lastwriter with
  | false =>
    obtain ⟨c1, c2, c3, -⟩ := C61_all fo o trans reads writes s ho hl d h q a b
    rwa [c1, c2, c3] at hr
  | true =>
    obtain ⟨c1, c2, -⟩ := C61_last fo o trans reads writes s ho hl d h q a b
    rcases hr with hr | hr
    · obtain ⟨e, h1, h2, h3, -⟩ := c1.mp hr
      exact .inl ⟨e, h1, h2, h3⟩
    · obtain ⟨e, h1, h2, h3, -⟩ := c2.mp hr.symm
      rcases touches_append.mp h1 with h1 | h1
      · exact .inr (.inr ⟨e, h1, h2, h3⟩)
      · exact .inr (.inl ⟨e, h1, h2, h3⟩)

end Pluto
