import Verif.Spec.Polyloop
import Verif.Lemmas.SatFold
import Verif.Props.Satisfaction

/-! Lemmas about Verif/Model/Polyloop.lean: the loops found by `loopsUnder`. -/

namespace Pluto

theorem scalarAt_iff {p : Prog} {l i : Nat} {b : Bool} (h : scalarAt p l i = some b) : b = true ↔ p.Scalar l i := by
  unfold scalarAt at h
  rw [Option.bind_eq_some_iff] at h
  obtain ⟨st, h1, h2⟩ := h
  unfold isHyperplaneScalar at h2
  simp only [Option.bind_eq_bind, Option.bind_eq_some_iff] at h2
  obtain ⟨r, h3, h4⟩ := h2
  simp only [pure, Option.some.injEq] at h4
  rw [← h4]
  constructor
  · intro h
    exact ⟨st, r, h1, h3, by simpa using h⟩
  · rintro ⟨st', r', k1, k2, k3⟩
    rw [h1] at k1; cases k1
    rw [h3] at k2; cases k2
    simpa using k3

theorem constAt_eq {p : Prog} {l i : Nat} {c : Int} (h : constAt p l i = some c) : c = p.const l i := by
  unfold constAt at h
  simp only [Option.bind_eq_bind, Option.bind_eq_some_iff] at h
  obtain ⟨st, h1, r, h2, h3⟩ := h
  simp [Prog.const, Prog.row, h1, h2, h3]

/-- Groups of statements by the constant at a level. -/
structure Groups (p : Prog) (l : Nat) (S : List Nat) (gs : List (List Nat)) : Prop where
  ne : ∀ g ∈ gs, g ≠ []
  sub : ∀ g ∈ gs, ∀ i ∈ g, i ∈ S
  cover : ∀ i ∈ S, ∃ g ∈ gs, i ∈ g
  same : ∀ g ∈ gs, ∀ i ∈ g, ∀ j ∈ g, p.const l i = p.const l j
  diff : gs.Pairwise (fun g h => ∀ i ∈ g, ∀ j ∈ h, p.const l i ≠ p.const l j)
  nodup : ∀ g ∈ gs, g.Nodup

theorem addToGroup_cases {p : Prog} {l i : Nat} : ∀ {gs gs' : List (List Nat)}, addToGroup p l i gs = some gs' →
    (∃ pre g post, gs = pre ++ g :: post ∧ gs' = pre ++ (g ++ [i]) :: post ∧ (∃ j ∈ g, p.const l i = p.const l j)) ∨
    (gs' = gs ++ [[i]] ∧ ∀ g ∈ gs, ∃ j ∈ g, p.const l i ≠ p.const l j) := by
  intro gs
  induction gs with
  | nil => intro gs' h; simp [addToGroup] at h; right; simp [h]
  | cons g gs ih =>
    intro gs' h
    simp only [addToGroup, Option.bind_eq_bind, Option.bind_eq_some_iff] at h
    obtain ⟨j, hj, ci, hci, cj, hcj, h⟩ := h
    have e1 := constAt_eq hci
    have e2 := constAt_eq hcj
    have hjm := List.mem_of_getElem? hj
    split_ifs at h with hc
    · simp only [pure, Option.some.injEq] at h
      left
      exact ⟨[], g, gs, rfl, h.symm, j, hjm, by rw [← e1, ← e2, hc]⟩
    · rw [Option.bind_eq_some_iff] at h
      obtain ⟨gs1, h1, h2⟩ := h
      simp only [pure, Option.some.injEq] at h2
      rcases ih h1 with ⟨pre, g', post, k1, k2, k3⟩ | ⟨k1, k2⟩
      · left
        exact ⟨g :: pre, g', post, by simp [k1], by simp [← h2, k2], k3⟩
      · right
        refine ⟨by simp [← h2, k1], ?_⟩
        intro g' hg'
        rcases List.mem_cons.mp hg' with rfl | hg'
        · exact ⟨j, hjm, by rw [← e1, ← e2]; exact hc⟩
        · exact k2 g' hg'

theorem addToGroup_spec {p : Prog} {l i : Nat} {S : List Nat} {gs gs' : List (List Nat)} (hg : Groups p l S gs)
    (hi : i ∉ S) (h : addToGroup p l i gs = some gs') : Groups p l (S ++ [i]) gs' := by
  rcases addToGroup_cases h with ⟨pre, g, post, rfl, rfl, j, hj, hc⟩ | ⟨rfl, hne⟩
  · have hgm : g ∈ pre ++ g :: post := by simp
    have ci : ∀ k ∈ g, p.const l i = p.const l k := fun k hk => hc.trans (hg.same g hgm j hj k hk)
    have old : ∀ g', g' ∈ pre ++ (g ++ [i]) :: post → g' = g ++ [i] ∨ g' ∈ pre ++ g :: post := by
      intro g' h; simp at h ⊢; tauto
    refine ⟨?_, ?_, ?_, ?_, ?_, ?_⟩
    · intro g' h'
      rcases old g' h' with rfl | h'
      · simp
      · exact hg.ne g' h'
    · intro g' h' k hk
      rcases old g' h' with rfl | h'
      · rcases List.mem_append.mp hk with hk | hk
        · exact List.mem_append_left _ (hg.sub g hgm k hk)
        · exact List.mem_append_right _ hk
      · exact List.mem_append_left _ (hg.sub g' h' k hk)
    · intro k hk
      rcases List.mem_append.mp hk with hk | hk
      · obtain ⟨g', h1, h2⟩ := hg.cover k hk
        simp only [List.mem_append, List.mem_cons] at h1
        rcases h1 with h1 | rfl | h1
        · exact ⟨g', by simp [h1], h2⟩
        · exact ⟨g' ++ [i], by simp, by simp [h2]⟩
        · exact ⟨g', by simp [h1], h2⟩
      · exact ⟨g ++ [i], by simp, by simp at hk; simp [hk]⟩
    · intro g' h' a ha b hb
      rcases old g' h' with rfl | h'
      · simp only [List.mem_append, List.mem_singleton] at ha hb
        rcases ha with ha | rfl <;> rcases hb with hb | rfl
        · exact hg.same g hgm a ha b hb
        · exact (ci a ha).symm
        · exact ci b hb
        · rfl
      · exact hg.same g' h' a ha b hb
    · have := hg.diff
      rw [List.pairwise_append, List.pairwise_cons] at this ⊢
      obtain ⟨h1, ⟨h2, h3⟩, h4⟩ := this
      refine ⟨h1, ⟨?_, h3⟩, ?_⟩
      · intro g' h' a ha b hb
        simp only [List.mem_append, List.mem_singleton] at ha
        rcases ha with ha | rfl
        · exact h2 g' h' a ha b hb
        · rw [hc]; exact h2 g' h' j hj b hb
      · intro g1 hg1 g2 hg2 a ha b hb
        rcases List.mem_cons.mp hg2 with rfl | hg2
        · simp only [List.mem_append, List.mem_singleton] at hb
          rcases hb with hb | rfl
          · exact h4 g1 hg1 g (by simp) a ha b hb
          · rw [hc]; exact h4 g1 hg1 g (by simp) a ha j hj
        · exact h4 g1 hg1 g2 (by simp [hg2]) a ha b hb
    · intro g' h'
      rcases old g' h' with rfl | h'
      · rw [List.nodup_append]
        refine ⟨hg.nodup g hgm, by simp, ?_⟩
        intro a ha b hb hab
        simp at hb
        subst hb; subst hab
        exact hi (hg.sub g hgm a ha)
      · exact hg.nodup g' h'
  · have old : ∀ g', g' ∈ gs ++ [[i]] → g' = [i] ∨ g' ∈ gs := by
      intro g' h; simp at h; tauto
    refine ⟨?_, ?_, ?_, ?_, ?_, ?_⟩
    · intro g' h'
      rcases old g' h' with rfl | h'
      · simp
      · exact hg.ne g' h'
    · intro g' h' k hk
      rcases old g' h' with rfl | h'
      · exact List.mem_append_right _ hk
      · exact List.mem_append_left _ (hg.sub g' h' k hk)
    · intro k hk
      rcases List.mem_append.mp hk with hk | hk
      · obtain ⟨g', h1, h2⟩ := hg.cover k hk
        exact ⟨g', by simp [h1], h2⟩
      · exact ⟨[i], by simp, hk⟩
    · intro g' h' a ha b hb
      rcases old g' h' with rfl | h'
      · simp at ha hb; rw [ha, hb]
      · exact hg.same g' h' a ha b hb
    · rw [List.pairwise_append]
      refine ⟨hg.diff, by simp, ?_⟩
      intro g' h' g2 h2 a ha b hb
      simp only [List.mem_singleton] at h2
      subst h2
      simp only [List.mem_singleton] at hb
      subst hb
      obtain ⟨j, hj, hne⟩ := hne g' h'
      rw [hg.same g' h' a ha j hj]
      exact fun h => hne h.symm
    · intro g' h'
      rcases old g' h' with rfl | h'
      · simp
      · exact hg.nodup g' h'

theorem regroup_spec {p : Prog} {l : Nat} {stmts : List Nat} {gs : List (List Nat)} (hnd : stmts.Nodup)
    (h : regroup p l stmts = some gs) : Groups p l stmts gs := by
  have aux : ∀ (todo S : List Nat) (gs0 gs : List (List Nat)), Groups p l S gs0 → (S ++ todo).Nodup →
      todo.foldlM (fun gs i => addToGroup p l i gs) gs0 = some gs → Groups p l (S ++ todo) gs := by
    intro todo
    induction todo with
    | nil => intro S gs0 gs hg _ h; simp at h; subst h; simpa using hg
    | cons i todo ih =>
      intro S gs0 gs hg hnd h
      rw [List.foldlM_cons] at h
      simp only [Option.bind_eq_bind, Option.bind_eq_some_iff] at h
      obtain ⟨gs1, h1, h2⟩ := h
      have e : S ++ i :: todo = (S ++ [i]) ++ todo := by simp
      rw [e] at hnd ⊢
      refine ih (S ++ [i]) gs1 gs (addToGroup_spec hg ?_ h1) hnd h2
      intro hi
      have := (List.nodup_append.mp (List.nodup_append.mp hnd).1).2.2 i hi i (by simp)
      exact this rfl
  have := aux stmts [] [] gs ⟨by simp, by simp, by simp, by simp, by simp, by simp⟩ (by simpa using hnd) h
  simpa using this

/-- What `loopsUnder` returns. -/
structure LoopsSpec (p : Prog) (depth n : Nat) (stmts : List Nat) (ls : List Loop) : Prop where
  lo : ∀ L ∈ ls, depth ≤ L.depth
  hi : ∀ L ∈ ls, L.depth < depth + n
  ne : ∀ L ∈ ls, L.stmts ≠ []
  nodup : ∀ L ∈ ls, L.stmts.Nodup
  sub : ∀ L ∈ ls, ∀ i ∈ L.stmts, i ∈ stmts ∧ ¬ p.Scalar L.depth i
  cover : ∀ i ∈ stmts, ∀ l, depth ≤ l → l < depth + n → ¬ p.Scalar l i → ∃ L ∈ ls, L.depth = l ∧ i ∈ L.stmts
  disj : ls.Pairwise (fun L M => L.depth = M.depth → ∀ i ∈ L.stmts, i ∉ M.stmts)
  join : ∀ L ∈ ls, ∀ i ∈ L.stmts, ∀ j ∈ stmts, ¬ p.Scalar L.depth j → Agree p depth L.depth i j → j ∈ L.stmts
  share : Uniform p depth (depth + n) stmts → ∀ L ∈ ls, ∀ i ∈ L.stmts, ∀ j ∈ L.stmts, Agree p depth L.depth i j

theorem Agree.mono {p : Prog} {a a' b i j : Nat} (h : Agree p a b i j) (ha : a ≤ a') : Agree p a' b i j :=
  fun l h1 h2 => h l (by omega) h2

theorem zip_filter_mem {p : Prog} {l : Nat} {stmts : List Nat} {sc : List Bool} (h : stmts.mapM (scalarAt p l) = some sc)
    (i : Nat) : i ∈ ((stmts.zip sc).filter (fun x => !x.2)).map (·.1) ↔ i ∈ stmts ∧ ¬ p.Scalar l i := by
  have hf := mapM_forall₂ _ _ _ h
  clear h
  induction hf with
  | nil => simp
  | @cons a b l1 l2 hab _ ih =>
    have := scalarAt_iff hab
    cases b with
    | true =>
      simp only [List.zip_cons_cons, Bool.not_true, Bool.false_eq_true, not_false_eq_true, List.filter_cons_of_neg, ih,
        List.mem_cons]
      constructor
      · rintro ⟨h1, h2⟩; exact ⟨Or.inr h1, h2⟩
      · rintro ⟨rfl | h1, h2⟩
        · exact absurd (this.mp rfl) h2
        · exact ⟨h1, h2⟩
    | false =>
      simp only [List.zip_cons_cons, Bool.not_false, List.filter_cons_of_pos, List.map_cons, List.mem_cons, ih]
      constructor
      · rintro (rfl | ⟨h1, h2⟩)
        · exact ⟨Or.inl rfl, fun hs => by simpa using this.mpr hs⟩
        · exact ⟨Or.inr h1, h2⟩
      · rintro ⟨rfl | h1, h2⟩
        · exact Or.inl rfl
        · exact Or.inr ⟨h1, h2⟩

theorem zip_filter_nodup {stmts : List Nat} (sc : List Bool) (h : stmts.Nodup) :
    (((stmts.zip sc).filter (fun x => !x.2)).map (·.1)).Nodup := by
  have h1 : ((stmts.zip sc).map (·.1)).Sublist stmts := by
    clear h
    induction stmts generalizing sc with
    | nil => simp
    | cons a l ih =>
      cases sc with
      | nil => simp
      | cons b sc => simpa using ih sc
  exact ((List.filter_sublist.map _).trans h1).nodup h

theorem mapM_any_not {p : Prog} {l : Nat} {stmts : List Nat} {sc : List Bool} (h : stmts.mapM (scalarAt p l) = some sc) :
    sc.any (fun b => !b) = true ↔ ∃ i ∈ stmts, ¬ p.Scalar l i := by
  have hf := mapM_forall₂ _ _ _ h
  clear h
  induction hf with
  | nil => simp
  | @cons a b l1 l2 hab _ ih =>
    have := scalarAt_iff hab
    simp only [List.any_cons, Bool.or_eq_true, ih, List.mem_cons, exists_eq_or_imp, Bool.not_eq_true']
    rw [← this]; simp

theorem loopsUnder_spec {p : Prog} : ∀ (n depth : Nat) (stmts : List Nat) (ls : List Loop), stmts.Nodup →
    loopsUnder p n depth stmts = some ls → LoopsSpec p depth n stmts ls := by
  intro n
  induction n with
  | zero =>
    intro depth stmts ls _ h
    simp [loopsUnder] at h
    subst h
    exact ⟨by simp, by simp, by simp, by simp, by simp, by intros; omega, by simp, by simp, by simp⟩
  | succ n ih =>
    intro depth stmts ls hnd h
    simp only [loopsUnder, Option.bind_eq_bind, Option.bind_eq_some_iff] at h
    obtain ⟨sc, hsc, h⟩ := h
    split_ifs at h with hany
    · rw [Option.bind_eq_some_iff] at h
      obtain ⟨inner, hin, h⟩ := h
      simp only [pure, Option.some.injEq] at h
      have hI := ih _ _ _ hnd hin
      have hmem := zip_filter_mem hsc
      set N := ((stmts.zip sc).filter (fun x => !x.2)).map (·.1) with hN
      have hex := (mapM_any_not hsc).mp hany
      subst h
      have cs : ∀ L, L ∈ inner ++ [(⟨depth, N⟩ : Loop)] → L ∈ inner ∨ L = ⟨depth, N⟩ := by
        intro L hL; simpa using hL
      refine ⟨?_, ?_, ?_, ?_, ?_, ?_, ?_, ?_, ?_⟩
      · intro L hL
        rcases cs L hL with hL | rfl
        · have := hI.lo L hL; omega
        · exact le_refl _
      · intro L hL
        rcases cs L hL with hL | rfl
        · have := hI.hi L hL; omega
        · show depth < _; omega
      · intro L hL
        rcases cs L hL with hL | rfl
        · exact hI.ne L hL
        · obtain ⟨i, h1, h2⟩ := hex
          exact List.ne_nil_of_mem ((hmem i).mpr ⟨h1, h2⟩)
      · intro L hL
        rcases cs L hL with hL | rfl
        · exact hI.nodup L hL
        · exact zip_filter_nodup sc hnd
      · intro L hL i hi
        rcases cs L hL with hL | rfl
        · exact hI.sub L hL i hi
        · exact (hmem i).mp hi
      · intro i hi l h1 h2 hs
        by_cases hl : l = depth
        · subst hl
          exact ⟨⟨l, N⟩, by simp, rfl, (hmem i).mpr ⟨hi, hs⟩⟩
        · obtain ⟨L, k1, k2⟩ := hI.cover i hi l (by omega) (by omega) hs
          exact ⟨L, by simp [k1], k2⟩
      · rw [List.pairwise_append]
        refine ⟨hI.disj, by simp, ?_⟩
        intro L hL M hM hd
        simp only [List.mem_singleton] at hM
        subst hM
        have := hI.lo L hL
        simp only at hd
        omega
      · intro L hL i hi j hj hs ha
        rcases cs L hL with hL | rfl
        · exact hI.join L hL i hi j hj hs (ha.mono (by omega))
        · exact (hmem j).mpr ⟨hj, hs⟩
      · intro hU L hL i hi j hj
        have none : ∀ k ∈ stmts, ¬ p.Scalar depth k := by
          obtain ⟨k0, h0, h1⟩ := hex
          intro k hk hs
          exact h1 (hU depth (le_refl _) (by omega) k hk k0 h0 (fun l a b => by omega) hs)
        rcases cs L hL with hL' | rfl
        · have hU' : Uniform p (depth + 1) (depth + 1 + n) stmts := by
            intro l h1 h2 a ha b hb hab
            refine hU l (by omega) (by omega) a ha b hb ?_
            intro l' k1 k2 k3
            by_cases hl : l' = depth
            · subst hl; exact absurd k3 (none a ha)
            · exact hab l' (by omega) k2 k3
          have := hI.share hU' L hL' i hi j hj
          intro l' k1 k2 k3
          by_cases hl : l' = depth
          · subst hl; exact absurd k3 (none i (hI.sub L hL' i hi).1)
          · exact this l' (by omega) k2 k3
        · intro l' k1 k2
          have : l' < depth := k2
          omega
    · rw [Option.bind_eq_some_iff] at h
      obtain ⟨gs, hgs, h⟩ := h
      rw [Option.bind_eq_some_iff] at h
      obtain ⟨lss, hls, h⟩ := h
      simp only [pure, Option.some.injEq] at h
      subst h
      have hG := regroup_spec hnd hgs
      have hall : ∀ i ∈ stmts, p.Scalar depth i := by
        intro i hi
        by_contra hs
        exact hany ((mapM_any_not hsc).mpr ⟨i, hi, hs⟩)
      have hF := mapM_forall₂ _ _ _ hls
      have hF : List.Forall₂ (fun g ls => LoopsSpec p (depth + 1) n g ls) gs lss :=
        forall₂_imp_mem hF (fun g hg ls h => ih _ _ _ (hG.nodup g hg) h)
      have pick : ∀ L ∈ lss.flatten, ∃ g ∈ gs, ∃ ls, LoopsSpec p (depth + 1) n g ls ∧ L ∈ ls ∧ ∀ M ∈ ls, M ∈ lss.flatten := by
        intro L hL
        obtain ⟨ls, h1, h2⟩ := List.mem_flatten.mp hL
        obtain ⟨k, hk⟩ := List.getElem?_of_mem h1
        obtain ⟨hk1, hk2⟩ := List.getElem?_eq_some_iff.mp hk
        have hk3 : k < gs.length := by rw [hF.length_eq]; exact hk1
        have := hF.get hk3 hk1
        simp only [List.get_eq_getElem, hk2] at this
        exact ⟨gs[k], List.getElem_mem _, ls, this, h2, fun M hM => List.mem_flatten.mpr ⟨ls, h1, hM⟩⟩
      have pick' : ∀ g ∈ gs, ∃ ls, LoopsSpec p (depth + 1) n g ls ∧ ∀ M ∈ ls, M ∈ lss.flatten := by
        intro g hg
        obtain ⟨k, hk⟩ := List.getElem?_of_mem hg
        obtain ⟨hk1, hk2⟩ := List.getElem?_eq_some_iff.mp hk
        have hk3 : k < lss.length := by rw [← hF.length_eq]; exact hk1
        have := hF.get hk1 hk3
        simp only [List.get_eq_getElem, hk2] at this
        exact ⟨lss[k], this, fun M hM => List.mem_flatten.mpr ⟨_, List.getElem_mem _, hM⟩⟩
      refine ⟨?_, ?_, ?_, ?_, ?_, ?_, ?_, ?_, ?_⟩
      · intro L hL
        obtain ⟨g, hg, ls, hs, hm, _⟩ := pick L hL
        have := hs.lo L hm; omega
      · intro L hL
        obtain ⟨g, hg, ls, hs, hm, _⟩ := pick L hL
        have := hs.hi L hm; omega
      · intro L hL
        obtain ⟨g, hg, ls, hs, hm, _⟩ := pick L hL
        exact hs.ne L hm
      · intro L hL
        obtain ⟨g, hg, ls, hs, hm, _⟩ := pick L hL
        exact hs.nodup L hm
      · intro L hL i hi
        obtain ⟨g, hg, ls, hs, hm, _⟩ := pick L hL
        exact ⟨hG.sub g hg i (hs.sub L hm i hi).1, (hs.sub L hm i hi).2⟩
      · intro i hi l h1 h2 hs
        by_cases hl : l = depth
        · subst hl; exact absurd (hall i hi) hs
        · obtain ⟨g, hg, hig⟩ := hG.cover i hi
          obtain ⟨ls, k1, k2⟩ := pick' g hg
          obtain ⟨L, m1, m2⟩ := k1.cover i hig l (by omega) (by omega) hs
          exact ⟨L, k2 L m1, m2⟩
      · rw [List.pairwise_flatten]
        constructor
        · intro ls hls
          obtain ⟨k, hk⟩ := List.getElem?_of_mem hls
          obtain ⟨hk1, hk2⟩ := List.getElem?_eq_some_iff.mp hk
          have hk3 : k < gs.length := by rw [hF.length_eq]; exact hk1
          have := hF.get hk3 hk1
          simp only [List.get_eq_getElem, hk2] at this
          exact this.disj
        · rw [List.pairwise_iff_getElem]
          intro a b ha hb hab L hL M hM _ i hi1 hi2
          have ha' : a < gs.length := by rw [hF.length_eq]; exact ha
          have hb' : b < gs.length := by rw [hF.length_eq]; exact hb
          have sa := hF.get ha' ha
          have sb := hF.get hb' hb
          simp only [List.get_eq_getElem] at sa sb
          exact List.pairwise_iff_getElem.mp hG.diff a b ha' hb' hab i (sa.sub L hL i hi1).1 i (sb.sub M hM i hi2).1 rfl
      · intro L hL i hi j hj hs ha
        obtain ⟨g, hg, ls, hsp, hm, _⟩ := pick L hL
        have hig := (hsp.sub L hm i hi).1
        have hle := hsp.lo L hm
        have hc := ha depth (le_refl _) (by omega) (hall i (hG.sub g hg i hig)) (hall j hj)
        obtain ⟨g', hg', hj'⟩ := hG.cover j hj
        have : g' = g := by
          by_contra hne
          have hsym : Std.Symm (fun g h : List Nat => ∀ i ∈ g, ∀ j ∈ h, p.const depth i ≠ p.const depth j) :=
            ⟨fun g h H i hi j hj e => H j hj i hi e.symm⟩
          exact hG.diff.forall hg' hg hne j hj' i hig hc.symm
        subst this
        exact hsp.join L hm i hi j hj' hs (ha.mono (by omega))
      · intro hU L hL i hi j hj
        obtain ⟨g, hg, ls, hsp, hm, _⟩ := pick L hL
        have ext : ∀ l a b, a ∈ g → b ∈ g → Agree p (depth + 1) l a b → Agree p depth l a b := by
          intro l a b ha hb hab l' k1 k2 k3 k4
          by_cases hl : l' = depth
          · subst hl; exact hG.same g hg a ha b hb
          · exact hab l' (by omega) k2 k3 k4
        have hU' : Uniform p (depth + 1) (depth + 1 + n) g := by
          intro l h1 h2 a ha b hb hab
          exact hU l (by omega) (by omega) a (hG.sub g hg a ha) b (hG.sub g hg b hb) (ext l a b ha hb hab)
        exact ext _ i j (hsp.sub L hm i hi).1 (hsp.sub L hm j hj).1 (hsp.share hU' L hm i hi j hj)


theorem addToGroup_defined {p : Prog} {l i : Nat} (hi : (constAt p l i).isSome) : ∀ {gs : List (List Nat)},
    (∀ g ∈ gs, g ≠ [] ∧ ∀ j ∈ g, (constAt p l j).isSome) → (addToGroup p l i gs).isSome := by
  intro gs
  induction gs with
  | nil => intro _; simp [addToGroup]
  | cons g gs ih =>
    intro h
    obtain ⟨hne, hc⟩ := h g (by simp)
    obtain ⟨j, g', rfl⟩ := List.exists_cons_of_ne_nil hne
    obtain ⟨ci, hci⟩ := Option.isSome_iff_exists.mp hi
    obtain ⟨cj, hcj⟩ := Option.isSome_iff_exists.mp (hc j (by simp))
    obtain ⟨r, hr⟩ := Option.isSome_iff_exists.mp (ih (fun g hg => h g (by simp [hg])))
    simp only [addToGroup, List.getElem?_cons_zero, Option.bind_eq_bind, Option.bind_some, hci, hcj, hr]
    split_ifs <;> rfl

theorem regroup_defined {p : Prog} {l : Nat} {stmts : List Nat} (h : ∀ i ∈ stmts, (constAt p l i).isSome) (hnd : stmts.Nodup) :
    (regroup p l stmts).isSome := by
  have aux : ∀ (todo S : List Nat) (gs0 : List (List Nat)), Groups p l S gs0 → (S ++ todo).Nodup →
      (∀ i ∈ S ++ todo, (constAt p l i).isSome) →
      (todo.foldlM (fun gs i => addToGroup p l i gs) gs0).isSome := by
    intro todo
    induction todo with
    | nil => intro S gs0 _ _ _; simp
    | cons i todo ih =>
      intro S gs0 hg hnd hs
      have hd : (addToGroup p l i gs0).isSome := by
        refine addToGroup_defined (hs i (by simp)) (fun g hgm => ⟨hg.ne g hgm, fun j hj => hs j ?_⟩)
        exact List.mem_append_left _ (hg.sub g hgm j hj)
      obtain ⟨gs1, h1⟩ := Option.isSome_iff_exists.mp hd
      rw [List.foldlM_cons, h1]
      have e : S ++ i :: todo = (S ++ [i]) ++ todo := by simp
      rw [e] at hnd hs
      refine ih (S ++ [i]) gs1 (addToGroup_spec hg ?_ h1) hnd hs
      intro hi
      exact (List.nodup_append.mp (List.nodup_append.mp hnd).1).2.2 i hi i (by simp) rfl
  exact aux stmts [] [] ⟨by simp, by simp, by simp, by simp, by simp, by simp⟩ (by simpa using hnd) (by simpa using h)

theorem mapM_isSome' {α β : Type*} {f : α → Option β} : ∀ {l : List α}, (∀ a ∈ l, (f a).isSome) → (l.mapM f).isSome := by
  intro l
  induction l with
  | nil => intro _; simp
  | cons a l ih =>
    intro h
    obtain ⟨b, hb⟩ := Option.isSome_iff_exists.mp (h a (by simp))
    obtain ⟨bs, hbs⟩ := Option.isSome_iff_exists.mp (ih (fun a ha => h a (by simp [ha])))
    simp [List.mapM_cons, hb, hbs]

/-- Statement `i` has rows at all levels below `n`, with a constant. -/
def HasRows (p : Prog) (n i : Nat) : Prop :=
  ∃ st, p.stmts[i]? = some st ∧ n ≤ st.trans.length ∧ ∀ r ∈ st.trans, r ≠ []

theorem HasRows.scalarAt {p : Prog} {n i l : Nat} (h : HasRows p n i) (hl : l < n) : (scalarAt p l i).isSome := by
  obtain ⟨st, h1, h2, _⟩ := h
  have : l < st.trans.length := by omega
  simp [Pluto.scalarAt, h1, isHyperplaneScalar, this]

theorem HasRows.constAt {p : Prog} {n i l : Nat} (h : HasRows p n i) (hl : l < n) : (constAt p l i).isSome := by
  obtain ⟨st, h1, h2, h3⟩ := h
  have : l < st.trans.length := by omega
  have hne := h3 st.trans[l] (List.getElem_mem _)
  simp [Pluto.constAt, h1, this, List.getLast?_isSome, hne]

theorem loopsUnder_defined {p : Prog} : ∀ (n depth : Nat) (stmts : List Nat), stmts.Nodup →
    (∀ i ∈ stmts, HasRows p (depth + n) i) → (loopsUnder p n depth stmts).isSome := by
  intro n
  induction n with
  | zero => intro depth stmts _ _; simp [loopsUnder]
  | succ n ih =>
    intro depth stmts hnd h
    have h' : ∀ i ∈ stmts, HasRows p (depth + 1 + n) i := fun i hi => by
      have := h i hi
      rwa [show depth + (n + 1) = depth + 1 + n by omega] at this
    obtain ⟨sc, hsc⟩ := Option.isSome_iff_exists.mp (mapM_isSome' (fun i hi => (h i hi).scalarAt (l := depth) (by omega)))
    simp only [loopsUnder, hsc, Option.bind_eq_bind, Option.bind_some]
    split_ifs with hany
    · obtain ⟨inner, hin⟩ := Option.isSome_iff_exists.mp (ih (depth + 1) stmts hnd h')
      simp [hin]
    · obtain ⟨gs, hgs⟩ := Option.isSome_iff_exists.mp
        (regroup_defined (fun i hi => (h i hi).constAt (l := depth) (by omega)) hnd)
      have hG := regroup_spec hnd hgs
      obtain ⟨lss, hls⟩ := Option.isSome_iff_exists.mp (mapM_isSome' (f := loopsUnder p n (depth + 1)) (l := gs)
        (fun g hg => ih (depth + 1) g (hG.nodup g hg) (fun i hi => h' i (hG.sub g hg i hi))))
      simp [hgs, hls]

/-! ### Satisfaction data -/

theorem inst_same {p p' : Prog} {d d' : Dep} (h1 : p' = { p with deps := p'.deps })
    (h2 : d' = ⟨d.src, d.dest, d.rar, d.dpoly, d.bpoly, d'.satisfied, d'.satLevel, d'.satvec, d'.dirvec⟩) (s t q : List Int) :
    (p'.Inst d' s t q ↔ p.Inst d s t q) ∧ ∀ l, p'.comp d' l s t q = p.comp d l s t q := by
  rw [h1, h2]
  exact ⟨Iff.rfl, fun _ => rfl⟩

theorem forall₂_trans {α β γ : Type*} {R : α → β → Prop} {S : β → γ → Prop} {T : α → γ → Prop}
    (hT : ∀ a b c, R a b → S b c → T a c) : ∀ {l1 : List α} {l2 : List β} {l3 : List γ},
    List.Forall₂ R l1 l2 → List.Forall₂ S l2 l3 → List.Forall₂ T l1 l3
  | _, _, _, .nil, .nil => .nil
  | _, _, _, .cons h1 t1, .cons h2 t2 => .cons (hT _ _ _ h1 h2) (forall₂_trans hT t1 t2)

theorem forall₂_mem_right {α β : Type*} {R : α → β → Prop} {l : List α} {l' : List β} (h : List.Forall₂ R l l') {b : β}
    (hb : b ∈ l') : ∃ a ∈ l, R a b := by
  induction h with
  | nil => simp at hb
  | @cons a b' l l' hab _ ih =>
    rcases List.mem_cons.mp hb with rfl | hb
    · exact ⟨a, by simp, hab⟩
    · obtain ⟨a', h1, h2⟩ := ih hb
      exact ⟨a', by simp [h1], h2⟩

theorem info_of {isEmpty : Cst → Bool} (hE : EmptyOracle isEmpty) (p p1 p2 : Prog) (hT : p.TransOK)
    (hd : ∀ d ∈ p.deps, p.DepFits d) (h1 : computeDepDirections isEmpty p = some p1)
    (h2 : computeDepSatisfaction isEmpty p1 = some p2) :
    p2.Info ∧ p2 = { p with deps := p2.deps } ∧ List.Forall₂ (fun d d' : Dep =>
      d' = ⟨d.src, d.dest, d.rar, d.dpoly, d.bpoly, d'.satisfied, d'.satLevel, d'.satvec, d'.dirvec⟩) p.deps p2.deps := by
  obtain ⟨e1, f1⟩ := C13_directions p p1 h1
  have hT1 : p1.TransOK := by rw [e1]; exact hT
  have hd1 : ∀ d ∈ p1.deps, p1.DepFits d := by
    intro d hdm
    obtain ⟨d0, hd0, k1, _⟩ := forall₂_mem_right f1 hdm
    have := hd d0 hd0
    rw [e1, k1]
    exact ⟨this.wf, this.cols⟩
  obtain ⟨e2, f2⟩ := C12_compute hE p1 p2 hT1 hd1 h2
  have e : p2 = { p with deps := p2.deps } := by rw [e2, e1]
  have hl1 : p1.hProps = p.hProps := by rw [e1]
  have hl2 : p2.hProps = p.hProps := by rw [e]
  have key : ∀ d2 ∈ p2.deps, ∃ d1 ∈ p1.deps, ∃ d0 ∈ p.deps,
      d1 = { d0 with dirvec := d1.dirvec } ∧ d2 = { d1 with satisfied := d2.satisfied, satLevel := d2.satLevel, satvec := d2.satvec } ∧
      (d1.dirvec.length = p.hProps.length ∧ ∀ l < p.hProps.length, d1.dirvec[l]? = depDirection isEmpty p d0 l) ∧
      ((d2.satisfied = true ↔ ∃ l < p1.hProps.length, ∀ s t q, p1.Inst d1 s t q → 1 ≤ p1.comp d1 l s t q) ∧
      (∀ l : Nat, d2.satLevel = (l : Int) ↔ l < p1.hProps.length ∧
        (∀ s t q, p1.Inst d1 s t q → 1 ≤ p1.comp d1 l s t q) ∧
        ∀ l' < l, ¬ ∀ s t q, p1.Inst d1 s t q → 1 ≤ p1.comp d1 l' s t q) ∧
      (d2.satisfied = false → d2.satLevel = -1) ∧
      (d1.rar = false → d2.satvec.length = p1.hProps.length ∧
        ∀ l < p1.hProps.length, d2.satvec[l]? = some true ↔
          (∃ dir, d1.dirvec[l]? = some dir ∧ dir ≠ Dir.zero) ∧
          ∀ l' < l, ¬ ∀ s t q, p1.Inst d1 s t q → 1 ≤ p1.comp d1 l' s t q)) := by
    intro d2 hd2
    obtain ⟨d1, hm1, k1, k2⟩ := forall₂_mem_right f2 hd2
    obtain ⟨d0, hm0, k3, k4⟩ := forall₂_mem_right f1 hm1
    exact ⟨d1, hm1, d0, hm0, k3, k1, k4, k2⟩
  have same : ∀ d2 d1 : Dep, d2 = { d1 with satisfied := d2.satisfied, satLevel := d2.satLevel, satvec := d2.satvec } →
      (∀ s t q, p2.Inst d2 s t q ↔ p1.Inst d1 s t q) ∧ ∀ l s t q, p2.comp d2 l s t q = p1.comp d1 l s t q := by
    intro d2 d1 hk
    rw [e2, hk]
    exact ⟨fun _ _ _ => Iff.rfl, fun _ _ _ _ => rfl⟩
  have same1 : ∀ d1 d0 : Dep, d1 = { d0 with dirvec := d1.dirvec } →
      (∀ s t q, p1.Inst d1 s t q ↔ p.Inst d0 s t q) ∧ ∀ l s t q, p1.comp d1 l s t q = p.comp d0 l s t q := by
    intro d1 d0 hk
    rw [e1, hk]
    exact ⟨fun _ _ _ => Iff.rfl, fun _ _ _ _ => rfl⟩
  refine ⟨⟨?_, ?_, ?_, ?_, ?_, ?_⟩, e, ?_⟩
  · intro d2 hd2
    obtain ⟨d1, _, d0, _, k1, k2, k3, k4, k5, k6, k7⟩ := key d2 hd2
    obtain ⟨a1, a2⟩ := same d2 d1 k2
    simp only [a1, a2, hl2]
    rwa [hl1] at k4
  · intro d2 hd2
    obtain ⟨d1, _, d0, _, k1, k2, k3, k4, k5, k6, k7⟩ := key d2 hd2
    obtain ⟨a1, a2⟩ := same d2 d1 k2
    simp only [a1, a2, hl2]
    rwa [hl1] at k5
  · intro d2 hd2
    obtain ⟨d1, _, d0, _, k1, k2, k3, k4, k5, k6, k7⟩ := key d2 hd2
    exact k6
  · intro d2 hd2 hr
    obtain ⟨d1, _, d0, hm0, k1, k2, k3, k4, k5, k6, k7⟩ := key d2 hd2
    obtain ⟨a1, a2⟩ := same d2 d1 k2
    have hr1 : d1.rar = false := by rw [k2] at hr; exact hr
    obtain ⟨v1, v2⟩ := k7 hr1
    simp only [a1, a2, hl2]
    rw [hl1] at v1 v2
    refine ⟨v1, fun l hl => ?_⟩
    rw [v2 l hl]
    refine and_congr ?_ Iff.rfl
    have hdir := k3.2 l hl
    obtain ⟨b1, b2⟩ := same1 d1 d0 k1
    simp only [b1, b2]
    have hlt : l < d1.dirvec.length := by rw [k3.1]; exact hl
    have hg := List.getElem?_eq_getElem hlt
    rw [hg] at hdir
    have hz := (C13_direction hE p hT d0 (hd d0 hm0) l _ hdir.symm).1
    rw [hg]
    simp only [Option.some.injEq, exists_eq_left']
    rw [Ne, hz]
    push Not
    rfl
  · intro d2 hd2
    obtain ⟨d1, _, d0, _, k1, k2, k3, k4, k5, k6, k7⟩ := key d2 hd2
    have : d2.dirvec = d1.dirvec := by rw [k2]
    rw [this, hl2]; exact k3.1
  · intro d2 hd2 l dir hdir
    obtain ⟨d1, _, d0, hm0, k1, k2, k3, k4, k5, k6, k7⟩ := key d2 hd2
    have hv : d2.dirvec = d1.dirvec := by rw [k2]
    obtain ⟨a1, a2⟩ := same d2 d1 k2
    obtain ⟨b1, b2⟩ := same1 d1 d0 k1
    simp only [a1, a2, b1, b2]
    rw [hv] at hdir
    have hlt := (List.getElem?_eq_some_iff.mp hdir).1
    rw [k3.1] at hlt
    rw [k3.2 l hlt] at hdir
    obtain ⟨c1, c2, c3, c4⟩ := C13_direction hE p hT d0 (hd d0 hm0) l _ hdir
    cases dir with
    | zero =>
      have := c1.mp rfl
      simp only [reduceCtorEq, or_self, false_iff, not_exists, not_and]
      exact ⟨fun s t q hi => by rw [this s t q hi]; omega, fun s t q hi => by rw [this s t q hi]; omega⟩
    | plus =>
      have := c2.mp rfl
      simp only [reduceCtorEq, or_self, false_iff, not_exists, not_and, true_or, true_iff]
      exact ⟨fun s t q hi => by have := this.1 s t q hi; omega, this.2⟩
    | minus =>
      have := c3.mp rfl
      simp only [reduceCtorEq, or_self, false_iff, not_exists, not_and, true_or, true_iff]
      exact ⟨this.2, fun s t q hi => by have := this.1 s t q hi; omega⟩
    | star =>
      have := c4.mp rfl
      simp only [reduceCtorEq, false_or, true_iff]
      exact ⟨this.2, this.1⟩
  · refine forall₂_trans ?_ f1 f2
    rintro d0 d1 d2 ⟨k1, _⟩ ⟨k2, _⟩
    rw [k2, k1]

theorem parallel_spec {p : Prog} (hi : p.Info) {L : Loop} (h : loopIsParallel p L = some true) :
    ∀ d ∈ p.deps, d.rar = false → d.src ∈ L.stmts → d.dest ∈ L.stmts → ∀ s t q, p.Inst d s t q →
      p.TiedBelow d L.depth s t q → p.phi d.src L.depth s q = p.phi d.dest L.depth t q := by
  intro d hd hr hs ht s t q hin htied
  unfold loopIsParallel at h
  simp only [Option.bind_eq_bind, Option.bind_eq_some_iff, pure, Option.some.injEq] at h
  obtain ⟨bs, hbs, hall⟩ := h
  have hf := mapM_forall₂ _ _ _ hbs
  have hm : d ∈ p.deps.filter (fun d => !d.rar && L.stmts.contains d.src && L.stmts.contains d.dest) := by
    simp [hd, hr, hs, ht]
  obtain ⟨k, hk⟩ := List.getElem?_of_mem hm
  obtain ⟨k1, k2⟩ := List.getElem?_eq_some_iff.mp hk
  have k3 : k < bs.length := by rw [← hf.length_eq]; exact k1
  have hg := hf.get k1 k3
  simp only [List.get_eq_getElem, k2] at hg
  have hb : bs[k] = false := by
    have := List.all_eq_true.mp hall bs[k] (List.getElem_mem _)
    simpa using this
  rw [hb] at hg
  obtain ⟨v1, v2⟩ := hi.vec d hd hr
  have hl : L.depth < p.hProps.length := by rw [← v1]; exact (List.getElem?_eq_some_iff.mp hg).1
  by_contra hne
  have hvt := (not_congr (v2 L.depth hl)).mp (by rw [hg]; simp)
  refine hvt ⟨⟨s, t, q, hin, ?_⟩, ?_⟩
  · unfold Prog.comp; omega
  · intro l hl' hfull
    have := hfull s t q hin
    rw [htied l hl'] at this
    omega

theorem rejected_spec {p : Prog} (hi : p.Info) {L : Loop} (hd : L.depth < p.hProps.length) (h : loopIsParallel p L = some false) :
    ∃ d ∈ p.deps, d.rar = false ∧ d.src ∈ L.stmts ∧ d.dest ∈ L.stmts ∧
      (∃ s t q, p.Inst d s t q ∧ p.phi d.src L.depth s q ≠ p.phi d.dest L.depth t q) ∧
      ∀ l < L.depth, ¬ ∀ s t q, p.Inst d s t q → 1 ≤ p.comp d l s t q := by
  unfold loopIsParallel at h
  simp only [Option.bind_eq_bind, Option.bind_eq_some_iff, pure, Option.some.injEq] at h
  obtain ⟨bs, hbs, hall⟩ := h
  have hf := mapM_forall₂ _ _ _ hbs
  obtain ⟨b, hb, hbt⟩ := List.all_eq_false.mp hall
  obtain ⟨d, hdm, hdb⟩ := forall₂_mem_right hf hb
  simp only [List.mem_filter, Bool.and_eq_true, Bool.not_eq_true', List.contains_iff_mem] at hdm
  obtain ⟨m1, ⟨m2, m3⟩, m4⟩ := hdm
  have hbt' : b = true := by simpa using hbt
  rw [hbt'] at hdb
  obtain ⟨⟨s, t, q, i1, i2⟩, o⟩ := ((hi.vec d m1 m2).2 L.depth hd).mp hdb
  refine ⟨d, m1, m2, m3, m4, ⟨s, t, q, i1, ?_⟩, o⟩
  unfold Prog.comp at i2; omega

end Pluto
