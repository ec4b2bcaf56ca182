import Verif.Spec.Graph
import Mathlib.Data.Finset.Card
import Mathlib.Data.Finset.Range
import Mathlib.Tactic

namespace Pluto

/-- What a (sequence of) depth first visit(s) from state `s` to `s'` guarantees. -/
structure Visit (g : Graph) (s s' : DfsState) : Prop where
  time : s.time ≤ s'.time
  vn_old : ∀ x, s.vn x ≠ 0 → s'.vn x = s.vn x
  fn_old : ∀ x, s.vn x ≠ 0 ∨ s'.vn x = 0 → s'.fn x = s.fn x
  new : ∀ x, s.vn x = 0 → s'.vn x ≠ 0 →
    x < g.n ∧ s.time < s'.vn x ∧ s'.vn x < s'.fn x ∧ s'.fn x ≤ s'.time
  closed : ∀ x w, s.vn x = 0 → s'.vn x ≠ 0 → g.Edge x w → s'.vn w ≠ 0 ∧ s'.vn w < s'.fn x
  nest : ∀ x y, s.vn x = 0 → s'.vn x ≠ 0 → s.vn y = 0 → s'.vn y ≠ 0 →
    s'.vn x < s'.fn y → s'.fn y ≤ s'.fn x → g.Reach x y ∧ s'.vn x ≤ s'.vn y
  inj : ∀ x y, s.vn x = 0 → s'.vn x ≠ 0 → s.vn y = 0 → s'.vn y ≠ 0 → s'.fn x = s'.fn y → x = y

theorem Visit.refl' (g : Graph) {s s' : DfsState} (h1 : s'.vn = s.vn) (h2 : s'.fn = s.fn)
    (h3 : s'.time = s.time) : Visit g s s' := by
  constructor <;> simp only [h1, h2, h3]
  · exact le_refl _
  · intros; trivial
  · intros; trivial
  · intro x a b; exact absurd a b
  · intro x _ a b; exact absurd a b
  · intro x _ a b; exact absurd a b
  · intro x _ a b; exact absurd a b

/-- Visit numbers never exceed the clock. -/
def DfsState.Ok (s : DfsState) : Prop := ∀ x, s.vn x ≤ s.time

theorem Visit.ok {g : Graph} {s s' : DfsState} (h : Visit g s s') (hs : s.Ok) : s'.Ok := by
  intro x
  by_cases h0 : s.vn x = 0
  · by_cases h1 : s'.vn x = 0
    · omega
    · have := h.new x h0 h1; omega
  · have := h.vn_old x h0; have := hs x; have := h.time; omega

theorem Visit.trans {g : Graph} {s s' s'' : DfsState} (hs : s.Ok) (h : Visit g s s')
    (h' : Visit g s' s'') : Visit g s s'' := by
  have hs' := h.ok hs
  -- a vertex new overall is new in exactly one part
  have split : ∀ x, s.vn x = 0 → s''.vn x ≠ 0 →
      (s'.vn x ≠ 0 ∧ s''.vn x = s'.vn x ∧ s''.fn x = s'.fn x) ∨ s'.vn x = 0 := by
    intro x _ _
    by_cases h0 : s'.vn x = 0
    · exact Or.inr h0
    · exact Or.inl ⟨h0, h'.vn_old x h0, h'.fn_old x (Or.inl h0)⟩
  refine ⟨le_trans h.time h'.time, ?_, ?_, ?_, ?_, ?_, ?_⟩
  · intro x hx
    have := h.vn_old x hx
    rw [← this]; apply h'.vn_old; omega
  · intro x hx
    rcases hx with hx | hx
    · rw [← h.fn_old x (Or.inl hx)]
      apply h'.fn_old; left
      have := h.vn_old x hx; omega
    · have h0 : s'.vn x = 0 := by
        by_contra h0
        exact h0 (by rw [← h'.vn_old x h0]; exact hx)
      rw [h'.fn_old x (Or.inr hx), h.fn_old x (Or.inr h0)]
  · intro x h0 h2
    rcases split x h0 h2 with ⟨h1, e1, e2⟩ | h1
    · have := h.new x h0 h1; have := h'.time; omega
    · have := h'.new x h1 h2; have := h.time; omega
  · intro x w h0 h2 he
    rcases split x h0 h2 with ⟨h1, e1, e2⟩ | h1
    · obtain ⟨a, b⟩ := h.closed x w h0 h1 he
      have := h'.vn_old w a
      omega
    · exact h'.closed x w h1 h2 he
  · intro x y hx hx2 hy hy2 ha hb
    rcases split x hx hx2 with ⟨h1, e1, e2⟩ | h1 <;> rcases split y hy hy2 with ⟨k1, f1, f2⟩ | k1
    · have := h.nest x y hx h1 hy k1 (by omega) (by omega)
      exact ⟨this.1, by omega⟩
    · have := h'.new y k1 hy2; have := h.new x hx h1; omega
    · have := h'.new x h1 hx2; have := h.new y hy k1; omega
    · exact h'.nest x y h1 hx2 k1 hy2 ha hb
  · intro x y hx hx2 hy hy2 ha
    rcases split x hx hx2 with ⟨h1, e1, e2⟩ | h1 <;> rcases split y hy hy2 with ⟨k1, f1, f2⟩ | k1
    · exact h.inj x y hx h1 hy k1 (by omega)
    · have := h'.new y k1 hy2; have := h.new x hx h1; omega
    · have := h'.new x h1 hx2; have := h.new y hy k1; omega
    · exact h'.inj x y h1 hx2 k1 hy2 ha

/-- Number of vertices not yet visited. -/
def unvisited (g : Graph) (s : DfsState) : Nat := ((Finset.range g.n).filter (fun x => s.vn x = 0)).card

theorem Visit.unvisited_le {g : Graph} {s s' : DfsState} (h : Visit g s s') :
    unvisited g s' ≤ unvisited g s := by
  apply Finset.card_le_card
  intro x
  simp only [Finset.mem_filter, Finset.mem_range]
  rintro ⟨a, b⟩
  refine ⟨a, ?_⟩
  by_contra h0
  have := h.vn_old x h0
  omega

theorem unvisited_mark (g : Graph) (s : DfsState) (v : Nat) (hv : v < g.n) (h0 : s.vn v = 0) (t : Nat)
    (s' : DfsState) (h' : s'.vn = upd s.vn v (t + 1)) : unvisited g s' < unvisited g s := by
  apply Finset.card_lt_card
  rw [Finset.ssubset_iff_of_subset]
  · refine ⟨v, ?_, ?_⟩
    · simp [hv, h0]
    · simp [h', upd]
  · intro x
    simp only [Finset.mem_filter, Finset.mem_range, h', upd]
    rintro ⟨a, b⟩
    refine ⟨a, ?_⟩
    split at b
    · omega
    · exact b

/-- Step function of the loop over the successors of `v`. -/
def dfsStep (g : Graph) (fuel v : Nat) (s : DfsState) (j : Nat) : Option DfsState :=
  if g.adj v j ≠ 0 then
    let s := { s with cc := upd s.cc j (s.cc v) }
    if s.vn j = 0 then dfsVertex g fuel j s else some s
  else some s

theorem dfsVertex_succ (g : Graph) (fuel v : Nat) (s : DfsState) :
    dfsVertex g (fuel + 1) v s =
      ((List.range g.n).foldlM (dfsStep g fuel v)
        { s with time := s.time + 1, vn := upd s.vn v (s.time + 1) }).bind
        (fun s => some { s with time := s.time + 1, fn := upd s.fn v (s.time + 1) }) := by
  rfl

/-- What one call of `dfs_vertex` guarantees. -/
def VisitFrom (g : Graph) (v : Nat) (s s' : DfsState) : Prop :=
  Visit g s s' ∧ s'.vn v ≠ 0 ∧ ∀ x, s.vn x = 0 → s'.vn x ≠ 0 → g.Reach v x

theorem dfsVertex_spec (g : Graph) (fuel : Nat) : ∀ (v : Nat) (s : DfsState), v < g.n → s.vn v = 0 → s.Ok →
    unvisited g s ≤ fuel → ∃ s', dfsVertex g fuel v s = some s' ∧ VisitFrom g v s s' := by
  induction fuel with
  | zero =>
    intro v s hv h0 _ hf
    exfalso
    have : 0 < unvisited g s := Finset.card_pos.mpr ⟨v, by simp [hv, h0]⟩
    omega
  | succ fuel ih =>
    intro v s hv h0 hs hf
    -- the loop over the successors
    have loop : ∀ (L : List Nat), (∀ j ∈ L, j < g.n) → ∀ t : DfsState, t.Ok → unvisited g t ≤ fuel →
        ∃ t', L.foldlM (dfsStep g fuel v) t = some t' ∧ Visit g t t' ∧
          (∀ j ∈ L, g.adj v j ≠ 0 → t'.vn j ≠ 0) ∧ ∀ x, t.vn x = 0 → t'.vn x ≠ 0 → g.Reach v x := by
      intro L
      induction L with
      | nil =>
        intro _ t _ _
        exact ⟨t, rfl, Visit.refl' g rfl rfl rfl, by simp, fun x a b => absurd a b⟩
      | cons j L ihL =>
        intro hL t ht hft
        have hj : j < g.n := hL j (by simp)
        have step : ∃ t1, dfsStep g fuel v t j = some t1 ∧ Visit g t t1 ∧
            (g.adj v j ≠ 0 → t1.vn j ≠ 0) ∧ ∀ x, t.vn x = 0 → t1.vn x ≠ 0 → g.Reach v x := by
          unfold dfsStep
          by_cases ha : g.adj v j = 0
          · exact ⟨t, by simp [ha], Visit.refl' g rfl rfl rfl, fun h => absurd ha h,
              fun x a b => absurd a b⟩
          · rw [if_pos ha]
            by_cases hvj : t.vn j = 0
            · obtain ⟨t1, e, hv1, hv2, hv3⟩ := ih j { t with cc := upd t.cc j (t.cc v) } hj hvj ht hft
              refine ⟨t1, by simp only [hvj, if_true]; exact e, ?_, fun _ => hv2, ?_⟩
              · exact Visit.trans (s' := { t with cc := upd t.cc j (t.cc v) }) ht (Visit.refl' g rfl rfl rfl) hv1
              · intro x a b
                exact Relation.ReflTransGen.head ⟨hv, hj, ha⟩ (hv3 x a b)
            · refine ⟨{ t with cc := upd t.cc j (t.cc v) }, by simp only [hvj, if_false],
                Visit.refl' g rfl rfl rfl, fun _ => hvj, fun x a b => absurd a b⟩
        obtain ⟨t1, e1, hv1, hj1, hr1⟩ := step
        obtain ⟨t2, e2, hv2, hj2, hr2⟩ := ihL (fun k hk => hL k (by simp [hk])) t1 (hv1.ok ht)
          (le_trans hv1.unvisited_le hft)
        refine ⟨t2, by rw [List.foldlM_cons, e1]; exact e2, Visit.trans ht hv1 hv2, ?_, ?_⟩
        · intro k hk hadj
          rcases List.mem_cons.mp hk with rfl | hk
          · have := hj1 hadj
            have := hv2.vn_old k this
            omega
          · exact hj2 k hk hadj
        · intro x a b
          by_cases hx : t1.vn x = 0
          · exact hr2 x hx b
          · exact hr1 x a hx
    -- mark, loop, finish
    let s1 : DfsState := { s with time := s.time + 1, vn := upd s.vn v (s.time + 1) }
    have hs1 : s1.Ok := by
      intro x
      show upd s.vn v (s.time + 1) x ≤ s.time + 1
      have := hs x
      unfold upd; split <;> omega
    have hv1 : s1.vn v = s.time + 1 := by show upd _ _ _ _ = _; simp [upd]
    have hvne : ∀ x, x ≠ v → s1.vn x = s.vn x := by
      intro x hx; show upd _ _ _ _ = _; simp [upd, hx]
    have ht1 : s1.time = s.time + 1 := rfl
    obtain ⟨s2, e2, hv2, hadj, hreach⟩ := loop (List.range g.n) (fun j hj => by simpa using hj) s1 hs1 (by
      have := unvisited_mark g s v hv h0 s.time s1 rfl; omega)
    have hok2 := hv2.ok hs1
    have hv2v : s2.vn v = s.time + 1 := by rw [hv2.vn_old v (by omega), hv1]
    let s3 : DfsState := { s2 with time := s2.time + 1, fn := upd s2.fn v (s2.time + 1) }
    have hs3v : s3.vn = s2.vn := rfl
    have hs3t : s3.time = s2.time + 1 := rfl
    have hf3 : s3.fn v = s2.time + 1 := by show upd _ _ _ _ = _; simp [upd]
    have hf3' : ∀ x, x ≠ v → s3.fn x = s2.fn x := by
      intro x hx; show upd _ _ _ _ = _; simp [upd, hx]
    have hfn1 : s1.fn = s.fn := rfl
    have ht := hv2.time
    refine ⟨s3, by rw [dfsVertex_succ, e2]; rfl, ⟨?_, ?_, ?_, ?_, ?_, ?_, ?_⟩, by rw [hs3v]; omega, ?_⟩
    · omega
    · intro x hx
      have hxv : x ≠ v := by rintro rfl; exact hx h0
      rw [hs3v, hv2.vn_old x (by rw [hvne x hxv]; exact hx), hvne x hxv]
    · intro x hx
      have hxv : x ≠ v := by
        rintro rfl
        rcases hx with hx | hx
        · exact hx h0
        · rw [hs3v] at hx; omega
      rw [hf3' x hxv, hv2.fn_old x ?_, hfn1]
      rwa [hvne x hxv]
    · intro x hx hx'
      rw [hs3v] at hx' ⊢
      by_cases hxv : x = v
      · subst hxv; omega
      · have := hv2.new x (by rw [hvne x hxv]; exact hx) hx'
        have := hf3' x hxv
        omega
    · intro x w hx hx' he
      rw [hs3v] at hx' ⊢
      by_cases hxv : x = v
      · subst hxv
        have h1 := hadj w (by simpa using he.2.1) he.2.2
        have := hok2 w
        exact ⟨h1, by omega⟩
      · have := hv2.closed x w (by rw [hvne x hxv]; exact hx) hx' he
        rw [hf3' x hxv]; exact this
    · intro x y hx hx' hy hy' ha hb
      rw [hs3v] at *
      by_cases hxv : x = v
      · subst hxv
        by_cases hyv : y = x
        · subst hyv; exact ⟨Relation.ReflTransGen.refl, le_refl _⟩
        · have hy1 : s1.vn y = 0 := by rw [hvne y hyv]; exact hy
          exact ⟨hreach y hy1 hy', by have := hv2.new y hy1 hy'; omega⟩
      · have hx1 : s1.vn x = 0 := by rw [hvne x hxv]; exact hx
        have hnx := hv2.new x hx1 hx'
        have e1 := hf3' x hxv
        by_cases hyv : y = v
        · subst hyv; omega
        · have hy1 : s1.vn y = 0 := by rw [hvne y hyv]; exact hy
          have e2 := hf3' y hyv
          exact hv2.nest x y hx1 hx' hy1 hy' (by omega) (by omega)
    · intro x y hx hx' hy hy' ha
      rw [hs3v] at *
      by_cases hxv : x = v
      · by_cases hyv : y = v
        · rw [hxv, hyv]
        · have hy1 : s1.vn y = 0 := by rw [hvne y hyv]; exact hy
          have := hv2.new y hy1 hy'
          have := hf3' y hyv
          subst hxv; omega
      · have hx1 : s1.vn x = 0 := by rw [hvne x hxv]; exact hx
        have hnx := hv2.new x hx1 hx'
        have e1 := hf3' x hxv
        by_cases hyv : y = v
        · subst hyv; omega
        · have hy1 : s1.vn y = 0 := by rw [hvne y hyv]; exact hy
          have e2 := hf3' y hyv
          exact hv2.inj x y hx1 hx' hy1 hy' (by omega)
    · intro x hx hx'
      rw [hs3v] at hx'
      by_cases hxv : x = v
      · subst hxv; exact Relation.ReflTransGen.refl
      · exact hreach x (by rw [hvne x hxv]; exact hx) hx'

theorem unvisited_le (g : Graph) (s : DfsState) : unvisited g s ≤ g.n := by
  unfold unvisited
  exact le_trans (Finset.card_filter_le _ _) (by simp)

theorem dfsVertex_n (g : Graph) (v : Nat) (s : DfsState) (hv : v < g.n) (h0 : s.vn v = 0) (hs : s.Ok) :
    ∃ s', dfsVertex g g.n v s = some s' ∧ VisitFrom g v s s' :=
  dfsVertex_spec g g.n v s hv h0 hs (unvisited_le g s)

/-- The complete search: every vertex is visited. -/
theorem dfsAll_spec (g : Graph) (s0 : DfsState) :
    ∃ s', dfsAll g s0 = some s' ∧ Visit g { s0 with vn := fun _ => 0, time := 0 } s' ∧
      ∀ i < g.n, s'.vn i ≠ 0 := by
  have key : ∀ (L : List Nat), (∀ j ∈ L, j < g.n) → ∀ t : DfsState, t.Ok →
      ∃ t', L.foldlM (fun s i => if s.vn i = 0 then dfsVertex g g.n i s else some s) t = some t' ∧
        Visit g t t' ∧ ∀ j ∈ L, t'.vn j ≠ 0 := by
    intro L
    induction L with
    | nil => intro _ t _; exact ⟨t, rfl, Visit.refl' g rfl rfl rfl, by simp⟩
    | cons j L ihL =>
      intro hL t ht
      have step : ∃ t1, (if t.vn j = 0 then dfsVertex g g.n j t else some t) = some t1 ∧
          Visit g t t1 ∧ t1.vn j ≠ 0 := by
        by_cases h0 : t.vn j = 0
        · obtain ⟨t1, e, h1, h2, _⟩ := dfsVertex_n g j t (hL j (by simp)) h0 ht
          exact ⟨t1, by rw [if_pos h0]; exact e, h1, h2⟩
        · exact ⟨t, by rw [if_neg h0], Visit.refl' g rfl rfl rfl, h0⟩
      obtain ⟨t1, e1, h1, hj⟩ := step
      obtain ⟨t2, e2, h2, hj2⟩ := ihL (fun k hk => hL k (by simp [hk])) t1 (h1.ok ht)
      refine ⟨t2, by rw [List.foldlM_cons, e1]; exact e2, Visit.trans ht h1 h2, ?_⟩
      intro k hk
      rcases List.mem_cons.mp hk with rfl | hk
      · have := h2.vn_old k hj; omega
      · exact hj2 k hk
  obtain ⟨s', e, h, hv⟩ := key (List.range g.n) (fun j hj => by simpa using hj)
    { s0 with vn := fun _ => 0, time := 0 } (fun x => by simp)
  exact ⟨s', e, h, fun i hi => hv i (by simpa using hi)⟩

/-- If all vertices on a path from `u` to `v` finish no later than `v`, then `v` reaches `u`. -/
theorem path_back {g : Graph} {s s' : DfsState} (h : Visit g s s') (h0 : ∀ x, s.vn x = 0)
    (hall : ∀ i < g.n, s'.vn i ≠ 0) {u v : Nat} (hv : v < g.n)
    (hp : Relation.ReflTransGen (fun a b => g.Edge a b ∧ s'.fn a ≤ s'.fn v) u v) : g.Reach v u := by
  have key : u < g.n ∧ s'.vn v < s'.fn u ∧ s'.fn u ≤ s'.fn v := by
    induction hp using Relation.ReflTransGen.head_induction_on with
    | refl => exact ⟨hv, (h.new v (h0 v) (hall v hv)).2.2.1, le_refl _⟩
    | head hab hbv ih =>
      rename_i a b
      obtain ⟨hb, h1, h2⟩ := ih
      have ha := hab.1.1
      have h3 := (h.nest v b (h0 v) (hall v hv) (h0 b) (hall b hb) h1 h2).2
      have h4 := (h.closed a b (h0 a) (hall a ha) hab.1).2
      exact ⟨ha, by omega, hab.2⟩
  exact (h.nest v u (h0 v) (hall v hv) (h0 u) (hall u key.1) key.2.1 key.2.2).1

theorem edge_transpose (g : Graph) (i j : Nat) : g.transpose.Edge i j ↔ g.Edge j i := by
  unfold Graph.Edge Graph.transpose
  constructor <;> rintro ⟨a, b, c⟩ <;> exact ⟨b, a, c⟩

theorem reach_transpose (g : Graph) (i j : Nat) : g.transpose.Reach i j ↔ g.Reach j i := by
  unfold Graph.Reach
  rw [show g.transpose.Edge = Function.swap g.Edge from by
    funext a b; exact propext (edge_transpose g a b)]
  exact Relation.reflTransGen_swap

theorem reach_lt {g : Graph} {i j : Nat} (h : g.Reach i j) (hi : i < g.n) : j < g.n := by
  induction h with
  | refl => exact hi
  | tail _ e _ => exact e.2.1

/-- Invariant of the second search. -/
structure SccInv (g : Graph) (z : DfsState) (s : SccState) : Prop where
  visit : Visit g.transpose z s.d
  none_iff : ∀ i < g.n, (s.scc i = -1 ↔ s.d.vn i = 0)
  range : ∀ i < g.n, s.d.vn i ≠ 0 → 0 ≤ s.scc i ∧ s.scc i < s.num
  same : ∀ i j, i < g.n → j < g.n → s.d.vn i ≠ 0 → s.d.vn j ≠ 0 →
    (s.scc i = s.scc j ↔ g.Reach i j ∧ g.Reach j i)
  mono : ∀ i j, g.Edge i j → s.d.vn i ≠ 0 → s.d.vn j ≠ 0 → s.scc i ≤ s.scc j
  onto : ∀ k < s.num, ∃ i < g.n, s.d.vn i ≠ 0 ∧ s.scc i = (k : Int)

theorem visited_closed {g : Graph} {z d : DfsState} (h : Visit g z d) (h0 : ∀ x, z.vn x = 0) {a b : Nat}
    (ha : d.vn a ≠ 0) (hr : g.Reach a b) : d.vn b ≠ 0 := by
  induction hr with
  | refl => exact ha
  | tail _ e ih => exact (h.closed _ _ (h0 _) ih e).1

theorem sccStep_inv {g : Graph} {s0 s1 : DfsState} (h1 : Visit g s0 s1) (h1z : ∀ x, s0.vn x = 0)
    (hall : ∀ i < g.n, s1.vn i ≠ 0) {z : DfsState} (hz : ∀ x, z.vn x = 0) {s : SccState}
    (inv : SccInv g z s) (v : Nat) (hv : v < g.n)
    (hmax : ∀ u < g.n, s.d.vn u = 0 → s1.fn u ≤ s1.fn v) :
    ∃ s', sccStep g.transpose s v = some s' ∧ SccInv g z s' ∧ s'.d.vn v ≠ 0 ∧
      ∀ x, s'.d.vn x = 0 → s.d.vn x = 0 := by
  have hzok : z.Ok := fun x => by rw [hz x]; omega
  have hdok := inv.visit.ok hzok
  by_cases hv0 : s.d.vn v = 0
  swap
  · refine ⟨s, by unfold sccStep; rw [if_neg hv0], inv, hv0, fun x h => h⟩
  obtain ⟨d, e, hvis, hvd, hreach⟩ := dfsVertex_n g.transpose v s.d hv hv0 hdok
  have hvis' := inv.visit.trans hzok hvis
  have hold : ∀ x, s.d.vn x ≠ 0 → d.vn x ≠ 0 := fun x hx => by rw [hvis.vn_old x hx]; exact hx
  -- newly visited vertices are mutually reachable with `v`
  have hnew : ∀ u, s.d.vn u = 0 → d.vn u ≠ 0 → g.Reach u v ∧ g.Reach v u := by
    intro u hu hu'
    have r := (reach_transpose g v u).mp (hreach u hu hu')
    refine ⟨r, ?_⟩
    apply path_back h1 h1z hall hv
    have : Relation.ReflTransGen (fun a b => g.Edge a b ∧ s1.fn a ≤ s1.fn v) u v ∧ s.d.vn u = 0 := by
      induction r using Relation.ReflTransGen.head_induction_on with
      | refl => exact ⟨Relation.ReflTransGen.refl, hv0⟩
      | head hab hbv ih =>
        rename_i a b
        by_cases hb : s.d.vn b = 0
        · have hb' : d.vn b ≠ 0 :=
            visited_closed hvis' hz hvd ((reach_transpose g v b).mpr hbv)
          exact ⟨Relation.ReflTransGen.head ⟨hab, hmax a hab.1 hu⟩ (ih hb hb').1, hu⟩
        · exfalso
          have := (inv.visit.closed b a (hz b) hb ((edge_transpose g b a).mpr hab)).1
          exact this hu
    exact this.1
  -- an old vertex never reaches a new one in the transpose
  have hsep : ∀ u w, s.d.vn u ≠ 0 → s.d.vn w = 0 → ¬ g.Reach w u := by
    intro u w hu hw hr
    exact visited_closed inv.visit hz hu ((reach_transpose g u w).mpr hr) hw
  have scc_new : ∀ j < g.n, s.d.vn j = 0 → d.vn j ≠ 0 →
      (if j < g.transpose.n ∧ s.scc j = -1 ∧ d.vn j > 0 then (s.num : Int) else s.scc j) = s.num := by
    intro j hj h0 h1
    rw [if_pos ⟨hj, (inv.none_iff j hj).mpr h0, by omega⟩]
  have scc_old : ∀ j < g.n, s.d.vn j ≠ 0 →
      (if j < g.transpose.n ∧ s.scc j = -1 ∧ d.vn j > 0 then (s.num : Int) else s.scc j) = s.scc j := by
    intro j hj h0
    rw [if_neg]
    rintro ⟨_, h, _⟩
    exact h0 ((inv.none_iff j hj).mp h)
  refine ⟨⟨d, fun j => if j < g.transpose.n ∧ s.scc j = -1 ∧ d.vn j > 0 then (s.num : Int)
    else s.scc j, s.num + 1⟩, ?_, ⟨hvis', ?_, ?_, ?_, ?_, ?_⟩, hvd, ?_⟩
  · unfold sccStep
    rw [if_pos hv0, show g.transpose.n = g.n from rfl]
    rw [show g.transpose.n = g.n from rfl] at e
    rw [e]; rfl
  · intro i hi
    by_cases h0 : s.d.vn i = 0
    · by_cases hd : d.vn i = 0
      · show (if i < g.transpose.n ∧ s.scc i = -1 ∧ d.vn i > 0 then (s.num : Int) else s.scc i) = -1 ↔
          d.vn i = 0
        rw [if_neg (by omega)]
        simp [hd, (inv.none_iff i hi).mpr h0]
      · show (if i < g.transpose.n ∧ s.scc i = -1 ∧ d.vn i > 0 then (s.num : Int) else s.scc i) = -1 ↔
          d.vn i = 0
        rw [scc_new i hi h0 hd]
        constructor
        · intro h; omega
        · intro h; exact absurd h hd
    · show (if i < g.transpose.n ∧ s.scc i = -1 ∧ d.vn i > 0 then (s.num : Int) else s.scc i) = -1 ↔
          d.vn i = 0
      rw [scc_old i hi h0, inv.none_iff i hi]
      exact ⟨fun h => absurd h h0, fun h => absurd h (hold i h0)⟩
  · intro i hi hd
    show 0 ≤ (if i < g.transpose.n ∧ s.scc i = -1 ∧ d.vn i > 0 then (s.num : Int) else s.scc i) ∧
      (if i < g.transpose.n ∧ s.scc i = -1 ∧ d.vn i > 0 then (s.num : Int) else s.scc i) <
        ((s.num + 1 : Nat) : Int)
    by_cases h0 : s.d.vn i = 0
    · rw [scc_new i hi h0 hd]; push_cast; omega
    · rw [scc_old i hi h0]
      have := inv.range i hi h0
      push_cast; omega
  · intro i j hi hj hdi hdj
    show (if i < g.transpose.n ∧ s.scc i = -1 ∧ d.vn i > 0 then (s.num : Int) else s.scc i) =
      (if j < g.transpose.n ∧ s.scc j = -1 ∧ d.vn j > 0 then (s.num : Int) else s.scc j) ↔ _
    by_cases hi0 : s.d.vn i = 0 <;> by_cases hj0 : s.d.vn j = 0
    · rw [scc_new i hi hi0 hdi, scc_new j hj hj0 hdj]
      have a := hnew i hi0 hdi
      have b := hnew j hj0 hdj
      simp only [true_iff]
      exact ⟨a.1.trans b.2, b.1.trans a.2⟩
    · rw [scc_new i hi hi0 hdi, scc_old j hj hj0]
      have := inv.range j hj hj0
      constructor
      · intro h; omega
      · intro h; exact absurd h.1 (hsep j i hj0 hi0)
    · rw [scc_old i hi hi0, scc_new j hj hj0 hdj]
      have := inv.range i hi hi0
      constructor
      · intro h; omega
      · intro h; exact absurd h.2 (hsep i j hi0 hj0)
    · rw [scc_old i hi hi0, scc_old j hj hj0]
      exact inv.same i j hi hj hi0 hj0
  · intro i j he hdi hdj
    have hi := he.1
    have hj := he.2.1
    show (if i < g.transpose.n ∧ s.scc i = -1 ∧ d.vn i > 0 then (s.num : Int) else s.scc i) ≤
      (if j < g.transpose.n ∧ s.scc j = -1 ∧ d.vn j > 0 then (s.num : Int) else s.scc j)
    by_cases hi0 : s.d.vn i = 0 <;> by_cases hj0 : s.d.vn j = 0
    · rw [scc_new i hi hi0 hdi, scc_new j hj hj0 hdj]
    · exact absurd (Relation.ReflTransGen.single he) (hsep j i hj0 hi0)
    · rw [scc_old i hi hi0, scc_new j hj hj0 hdj]
      have := inv.range i hi hi0
      omega
    · rw [scc_old i hi hi0, scc_old j hj hj0]
      exact inv.mono i j he hi0 hj0
  · intro k hk
    have hk : k < s.num + 1 := hk
    by_cases hk' : k < s.num
    · obtain ⟨i, hi, h2, h3⟩ := inv.onto k hk'
      refine ⟨i, hi, hold i h2, ?_⟩
      show (if i < g.transpose.n ∧ s.scc i = -1 ∧ d.vn i > 0 then (s.num : Int) else s.scc i) = _
      rw [scc_old i hi h2, h3]
    · refine ⟨v, hv, hvd, ?_⟩
      show (if v < g.transpose.n ∧ s.scc v = -1 ∧ d.vn v > 0 then (s.num : Int) else s.scc v) = _
      rw [scc_new v hv hv0 hvd]
      omega
  · intro x hx
    by_contra h0
    exact hold x h0 hx

/-- The second search, for any processing order by non-increasing finish number. -/
theorem scc_fold {g : Graph} {s0 s1 : DfsState} (h1 : Visit g s0 s1) (h1z : ∀ x, s0.vn x = 0)
    (hall : ∀ i < g.n, s1.vn i ≠ 0) {z : DfsState} (hz : ∀ x, z.vn x = 0) :
    ∀ (L : List Nat) (s : SccState), SccInv g z s → (∀ v ∈ L, v < g.n) →
      L.Pairwise (fun a b => s1.fn b ≤ s1.fn a) → (∀ u < g.n, s.d.vn u = 0 → u ∈ L) →
      ∃ s', L.foldlM (sccStep g.transpose) s = some s' ∧ SccInv g z s' ∧ ∀ u < g.n, s'.d.vn u ≠ 0 := by
  intro L
  induction L with
  | nil =>
    intro s inv _ _ hc
    exact ⟨s, rfl, inv, fun u hu h0 => by simpa using hc u hu h0⟩
  | cons v L ih =>
    intro s inv hL hs hc
    obtain ⟨hs1, hs2⟩ := List.pairwise_cons.mp hs
    obtain ⟨s', e, inv', hv', hmono⟩ := sccStep_inv h1 h1z hall hz inv v (hL v (by simp)) (by
      intro u hu h0
      rcases List.mem_cons.mp (hc u hu h0) with rfl | h
      · exact le_refl _
      · exact hs1 u h)
    obtain ⟨s'', e', inv'', hv''⟩ := ih s' inv' (fun k hk => hL k (by simp [hk])) hs2 (by
      intro u hu h0
      rcases List.mem_cons.mp (hc u hu (hmono u h0)) with rfl | h
      · exact absurd h0 hv'
      · exact h)
    exact ⟨s'', by rw [List.foldlM_cons, e]; exact e', inv'', hv''⟩

theorem scc_spec (g : Graph) (s0 : DfsState) :
    ∃ s z, ddgComputeScc g s0 = some s ∧ SccInv g z s ∧ ∀ u < g.n, s.d.vn u ≠ 0 := by
  obtain ⟨s1, e1, hv, hall⟩ := dfsAll_spec g s0
  have hz : ∀ x, ({ s1 with vn := fun _ => 0, time := 0 } : DfsState).vn x = 0 := fun _ => rfl
  have hperm := List.perm_insertionSort (fun a b => s1.fn a ≤ s1.fn b) (List.range g.n)
  have : IsTrans Nat (fun a b => s1.fn a ≤ s1.fn b) := ⟨fun a b c => le_trans⟩
  have : Std.Total (fun a b : Nat => s1.fn a ≤ s1.fn b) := ⟨fun a b => le_total _ _⟩
  have hsort := List.pairwise_insertionSort (fun a b => s1.fn a ≤ s1.fn b) (List.range g.n)
  obtain ⟨s, e, inv, hfin⟩ := scc_fold hv (fun _ => rfl) hall hz
    (((List.range g.n).insertionSort (fun a b => s1.fn a ≤ s1.fn b)).reverse)
    ⟨{ s1 with vn := fun _ => 0, time := 0 }, fun _ => -1, 0⟩
    ⟨Visit.refl' _ rfl rfl rfl, by simp, by simp, by simp, by simp, by simp⟩
    (by intro v hv; rw [List.mem_reverse, hperm.mem_iff] at hv; simpa using hv)
    (by rw [List.pairwise_reverse]; exact hsort)
    (by intro u hu _; rw [List.mem_reverse, hperm.mem_iff]; simpa using hu)
  refine ⟨s, _, ?_, inv, hfin⟩
  unfold ddgComputeScc
  rw [e1]
  exact e

end Pluto
