import Verif.Model.Transforms
import Mathlib.Tactic

/-! Lemmas about `fuseBands`: if being fused is an equivalence, the groups are its classes. -/

namespace Pluto

variable {p : Prog} {b : Band} {k : Nat} {R : Nat → Nat → Prop}

/-- `fusedInBand` decides `R` on the statements of the band. -/
def Fuses (p : Prog) (b : Band) (k : Nat) (R : Nat → Nat → Prop) : Prop :=
  ∀ a c : Nat, ∀ i j : Nat, b.loop.stmts[a]? = some i → b.loop.stmts[c]? = some j →
    ∃ v, fusedInBand p b k i j = some v ∧ (v = true ↔ R a c)

theorem fuseWith_step (hF : Fuses p b k R) {i t : Nat} (hi : i < b.loop.stmts.length) : ∀ (js : List Nat) (map : List Nat),
    map.length = b.loop.stmts.length → (∀ j ∈ js, i < j ∧ j < b.loop.stmts.length) → js.Nodup →
    map[i]? = some t → (∀ j ∈ js, map[j]? ≠ some t) →
    ∃ map', js.foldlM (fuseStep p b k i) map = some map' ∧
      map'.length = b.loop.stmts.length ∧
      ∀ a : Nat, (a ∈ js → R i a → map'[a]? = some t) ∧ (¬ (a ∈ js ∧ R i a) → map'[a]? = map[a]?) := by
  intro js
  induction js with
  | nil =>
    intro map hl _ _ _ _
    exact ⟨map, rfl, hl, fun a => ⟨by simp, fun _ => rfl⟩⟩
  | cons j js ih =>
    intro map hl hjs hnd ht hne
    obtain ⟨hj1, hj2⟩ := hjs j (by simp)
    obtain ⟨hjn, hnd'⟩ := List.nodup_cons.mp hnd
    have gj : map[j]? = some (map[j]'(by omega)) := List.getElem?_eq_getElem (by omega)
    have si := List.getElem?_eq_getElem hi
    have sj := List.getElem?_eq_getElem hj2
    obtain ⟨v, hv, hvR⟩ := hF i j _ _ si sj
    have hne' : ¬ (t = map[j]'(by omega)) := fun e => hne j (by simp) (by rw [gj, e])
    rw [List.foldlM_cons]
    have hst : fuseStep p b k i map j = if v = true then some (map.set j t) else some map := by
      simp only [fuseStep, ht, gj, si, sj, hv, Option.bind_eq_bind, Option.bind_some, pure, if_neg hne']
    rw [hst]
    simp only [Option.bind_eq_bind]
    by_cases c : v = true
    · rw [if_pos c, Option.bind_some]
      obtain ⟨map', h1, h2, h3⟩ := ih (map.set j t) (by simpa using hl) (fun a ha => hjs a (by simp [ha])) hnd'
        (by rw [List.getElem?_set_ne (by omega)]; exact ht)
        (by
          intro a ha
          have : j ≠ a := fun e => hjn (e ▸ ha)
          rw [List.getElem?_set_ne this]
          exact hne a (by simp [ha]))
      refine ⟨map', h1, h2, fun a => ⟨fun ha hR => ?_, fun ha => ?_⟩⟩
      · rcases List.mem_cons.mp ha with rfl | ha
        · rw [(h3 a).2 (fun x => hjn x.1)]
          rw [List.getElem?_set_self (by omega)]
        · exact (h3 a).1 ha hR
      · have hja : j ≠ a := fun e => ha ⟨by simp [e], e ▸ hvR.mp c⟩
        rw [(h3 a).2 (fun x => ha ⟨by simp [x.1], x.2⟩), List.getElem?_set_ne hja]
    · rw [if_neg c, Option.bind_some]
      obtain ⟨map', h1, h2, h3⟩ := ih map hl (fun a ha => hjs a (by simp [ha])) hnd' ht (fun a ha => hne a (by simp [ha]))
      refine ⟨map', h1, h2, fun a => ⟨fun ha hR => ?_, fun ha => ?_⟩⟩
      · rcases List.mem_cons.mp ha with rfl | ha
        · exact absurd (hvR.mpr hR) c
        · exact (h3 a).1 ha hR
      · exact (h3 a).2 (fun x => ha ⟨by simp [x.1], x.2⟩)

/-- State of the loop after the first `m` statements. -/
structure FuseInv (n m : Nat) (R : Nat → Nat → Prop) (map : List Nat) (total : Nat) : Prop where
  len : map.length = n
  tot : total ≤ m
  done : ∀ a < n, (∃ r < m, R r a) → ∃ v, map[a]? = some v ∧ v < total
  todo : ∀ a < n, (¬ ∃ r < m, R r a) → map[a]? = some a
  same : ∀ a < n, ∀ c < n, (∃ r < m, R r a) → (∃ r < m, R r c) → (map[a]? = map[c]? ↔ R a c)

theorem fuse_fold (hF : Fuses p b k R) (hrefl : ∀ a, R a a) (hsymm : ∀ a c, R a c → R c a) (htrans : ∀ a c e, R a c → R c e → R a e) :
    ∀ m ≤ b.loop.stmts.length, ∃ map total,
      (List.range m).foldlM (fun (acc : List Nat × Nat) i => do
        let mi ← acc.1[i]?
        if mi < i then return acc
        else return (← fuseWith p b k i (acc.1.set i acc.2), acc.2 + 1)) (List.range b.loop.stmts.length, 0) = some (map, total) ∧
      FuseInv b.loop.stmts.length m R map total := by
  intro m
  induction m with
  | zero =>
    intro _
    refine ⟨List.range b.loop.stmts.length, 0, rfl, by simp, by simp, ?_, ?_, ?_⟩
    · rintro a _ ⟨r, hr, _⟩; omega
    · intro a ha _; simp [ha]
    · rintro a _ c _ ⟨r, hr, _⟩; omega
  | succ m ih =>
    intro hm
    obtain ⟨map, total, h1, hI⟩ := ih (by omega)
    rw [List.range_succ, List.foldlM_append, h1]
    simp only [Option.bind_eq_bind, Option.bind_some, List.foldlM_cons, List.foldlM_nil, pure]
    by_cases c : ∃ r < m, R r m
    · obtain ⟨v, hv, hvt⟩ := hI.done m (by omega) c
      have := hI.tot
      rw [hv, Option.bind_some, if_pos (by omega), Option.bind_some]
      have hdone : ∀ a, (∃ r < m + 1, R r a) ↔ ∃ r < m, R r a := by
        intro a
        constructor
        · rintro ⟨r, hr, hR⟩
          by_cases e : r = m
          · subst e
            obtain ⟨r', hr', hR'⟩ := c
            exact ⟨r', hr', htrans _ _ _ hR' hR⟩
          · exact ⟨r, by omega, hR⟩
        · rintro ⟨r, hr, hR⟩; exact ⟨r, by omega, hR⟩
      refine ⟨map, total, rfl, hI.len, by omega, ?_, ?_, ?_⟩
      · intro a ha hd; exact hI.done a ha ((hdone a).mp hd)
      · intro a ha hd; exact hI.todo a ha (fun x => hd ((hdone a).mpr x))
      · intro a ha e he hd hd'; exact hI.same a ha e he ((hdone a).mp hd) ((hdone e).mp hd')
    · have hmm := hI.todo m (by omega) c
      rw [hmm, Option.bind_some, if_neg (by omega)]
      have htot := hI.tot
      have hml : m < map.length := by rw [hI.len]; omega
      unfold fuseWith
      obtain ⟨map', f1, f2, f3⟩ := fuseWith_step (i := m) (t := total) hF (by omega)
        ((List.range (map.set m total).length).filter (fun j => m < j)) (map.set m total) (by simp [hI.len])
        (by intro j hj; simp [hI.len] at hj; omega)
        (List.nodup_range.filter _)
        (by simp [hml])
        (by
          intro j hj
          simp [hI.len] at hj
          rw [List.getElem?_set_ne (by omega)]
          by_cases cj : ∃ r < m, R r j
          · obtain ⟨v, hv, hvt⟩ := hI.done j hj.1 cj
            rw [hv]; simp; omega
          · rw [hI.todo j hj.1 cj]; simp; omega)
      rw [f1]
      simp only [Option.bind_some]
      have hmem : ∀ a, a ∈ (List.range (map.set m total).length).filter (fun j => m < j) ↔ a < b.loop.stmts.length ∧ m < a := by
        intro a; simp [hI.len]
      have hlow : ∀ a, R m a → m ≤ a := by
        intro a hR
        by_contra hlt
        exact c ⟨a, by omega, hsymm _ _ hR⟩
      -- values of the new map
      have hnew : ∀ a < b.loop.stmts.length, R m a → map'[a]? = some total := by
        intro a ha hR
        rcases Nat.lt_or_ge m a with hlt | hge
        · exact (f3 a).1 ((hmem a).mpr ⟨ha, hlt⟩) hR
        · have e : a = m := by have := hlow a hR; omega
          subst e
          rw [(f3 a).2 (by rw [hmem]; omega)]
          simp [hml]
      have hold : ∀ a < b.loop.stmts.length, ¬ R m a → map'[a]? = map[a]? := by
        intro a ha hR
        rw [(f3 a).2 (fun x => hR x.2), List.getElem?_set_ne (by rintro rfl; exact hR (hrefl m))]
      have hsplit : ∀ a, (∃ r < m + 1, R r a) ↔ (∃ r < m, R r a) ∨ R m a := by
        intro a
        constructor
        · rintro ⟨r, hr, hR⟩
          by_cases e : r = m
          · subst e; exact .inr hR
          · exact .inl ⟨r, by omega, hR⟩
        · rintro (⟨r, hr, hR⟩ | hR)
          · exact ⟨r, by omega, hR⟩
          · exact ⟨m, by omega, hR⟩
      have hexcl : ∀ a, (∃ r < m, R r a) → ¬ R m a := by
        rintro a ⟨r, hr, hR⟩ hR'
        exact c ⟨r, hr, htrans _ _ _ hR (hsymm _ _ hR')⟩
      refine ⟨map', total + 1, rfl, f2, by omega, ?_, ?_, ?_⟩
      · intro a ha hd
        rcases (hsplit a).mp hd with hd | hR
        · obtain ⟨v, hv, hvt⟩ := hI.done a ha hd
          exact ⟨v, by rw [hold a ha (hexcl a hd), hv], by omega⟩
        · exact ⟨total, hnew a ha hR, by omega⟩
      · intro a ha hd
        rw [hsplit] at hd
        push Not at hd
        rw [hold a ha hd.2]
        exact hI.todo a ha (by push Not; exact hd.1)
      · intro a ha e he hda hde
        rcases (hsplit a).mp hda with ha' | ha' <;> rcases (hsplit e).mp hde with he' | he'
        · rw [hold a ha (hexcl a ha'), hold e he (hexcl e he')]
          exact hI.same a ha e he ha' he'
        · rw [hold a ha (hexcl a ha'), hnew e he he']
          obtain ⟨v, hv, hvt⟩ := hI.done a ha ha'
          rw [hv]
          constructor
          · intro h; simp at h; omega
          · intro hR
            exact absurd (htrans _ _ _ he' (hsymm _ _ hR)) (hexcl a ha')
        · rw [hnew a ha ha', hold e he (hexcl e he')]
          obtain ⟨v, hv, hvt⟩ := hI.done e he he'
          rw [hv]
          constructor
          · intro h; simp at h; omega
          · intro hR
            exact absurd (htrans _ _ _ ha' hR) (hexcl e he')
        · rw [hnew a ha ha', hnew e he he']
          simp only [true_iff]
          exact htrans _ _ _ (hsymm _ _ ha') he'

/-- The groups are the classes of the relation. -/
theorem fuseBands_spec {R : Nat → Nat → Prop} (hnd : b.loop.stmts.Nodup)
    (hF : ∀ i ∈ b.loop.stmts, ∀ j ∈ b.loop.stmts, ∃ v, fusedInBand p b k i j = some v ∧ (v = true ↔ R i j))
    (hrefl : ∀ a, R a a) (hsymm : ∀ a c, R a c → R c a) (htrans : ∀ a c e, R a c → R c e → R a e) :
    ∃ gs, fuseBands p b k = some gs ∧ (∀ g ∈ gs, g.Nodup ∧ ∀ i ∈ g, i ∈ b.loop.stmts) ∧
      (∀ g ∈ gs, ∀ i ∈ g, ∀ j ∈ b.loop.stmts, j ∈ g ↔ R i j) ∧ (∀ i ∈ b.loop.stmts, ∃ g ∈ gs, i ∈ g) ∧
      gs.Pairwise (fun g h => ∀ i ∈ g, i ∉ h) := by
  let S := b.loop.stmts
  have hF' : Fuses p b k (fun a c => R (S.getD a 0) (S.getD c 0)) := by
    intro a c i j hi hj
    obtain ⟨v, h1, h2⟩ := hF i (List.mem_of_getElem? hi) j (List.mem_of_getElem? hj)
    refine ⟨v, h1, ?_⟩
    rw [h2]
    show _ ↔ R (S.getD a 0) (S.getD c 0)
    rw [List.getD_eq_getElem?_getD, List.getD_eq_getElem?_getD]
    show _ ↔ R ((b.loop.stmts[a]?).getD 0) ((b.loop.stmts[c]?).getD 0)
    rw [hi, hj]; rfl
  obtain ⟨map, total, h1, hI⟩ := fuse_fold hF' (fun a => hrefl _) (fun a c => hsymm _ _) (fun a c e => htrans _ _ _)
    b.loop.stmts.length le_rfl
  have hdone : ∀ a < b.loop.stmts.length, ∃ r < b.loop.stmts.length, R (S.getD r 0) (S.getD a 0) :=
    fun a ha => ⟨a, ha, hrefl _⟩
  have hgrp : ∀ t i, i ∈ ((b.loop.stmts.zip map).filter (fun x => x.2 == t)).map (·.1) ↔
      ∃ a : Nat, b.loop.stmts[a]? = some i ∧ map[a]? = some t := by
    intro t i
    simp only [List.mem_map, List.mem_filter, Prod.exists, beq_iff_eq]
    constructor
    · rintro ⟨i', t', ⟨h1, rfl⟩, rfl⟩
      obtain ⟨a, ha⟩ := List.getElem?_of_mem h1
      rw [List.getElem?_zip_eq_some] at ha
      exact ⟨a, ha.1, ha.2⟩
    · rintro ⟨a, h1, h2⟩
      refine ⟨i, t, ⟨?_, rfl⟩, rfl⟩
      apply List.mem_of_getElem? (i := a)
      rw [List.getElem?_zip_eq_some]
      exact ⟨h1, h2⟩
  have huniq : ∀ a c i : Nat, b.loop.stmts[a]? = some i → b.loop.stmts[c]? = some i → a = c := by
    intro a c i ha hc
    obtain ⟨a1, a2⟩ := List.getElem?_eq_some_iff.mp ha
    obtain ⟨c1, c2⟩ := List.getElem?_eq_some_iff.mp hc
    exact (hnd.getElem_inj_iff).mp (by rw [a2, c2])
  refine ⟨(List.range total).map (fun t => ((b.loop.stmts.zip map).filter (fun x => x.2 == t)).map (·.1)), ?_, ?_, ?_, ?_, ?_⟩
  · unfold fuseBands
    simp only [Option.bind_eq_bind, pure] at h1 ⊢
    rw [h1]
    rfl
  · intro g hg
    simp only [List.mem_map, List.mem_range] at hg
    obtain ⟨t, ht, rfl⟩ := hg
    refine ⟨?_, ?_⟩
    · have hsub : (((b.loop.stmts.zip map).filter (fun x => x.2 == t)).map (·.1)).Sublist ((b.loop.stmts.zip map).map (·.1)) :=
        List.filter_sublist.map _
      refine hsub.nodup ?_
      have hz : (b.loop.stmts.zip map).map (·.1) = b.loop.stmts := by
        have := List.map_fst_zip (l₁ := b.loop.stmts) (l₂ := map) (by rw [hI.len])
        exact this
      rw [hz]; exact hnd
    · intro i hi
      obtain ⟨a, ha, _⟩ := (hgrp t i).mp hi
      exact List.mem_of_getElem? ha
  · intro g hg i hi j hj
    simp only [List.mem_map, List.mem_range] at hg
    obtain ⟨t, ht, rfl⟩ := hg
    obtain ⟨a, ha, hat⟩ := (hgrp t i).mp hi
    obtain ⟨c, hc⟩ := List.getElem?_of_mem hj
    have la := (List.getElem?_eq_some_iff.mp ha).1
    have lc := (List.getElem?_eq_some_iff.mp hc).1
    have hs := hI.same a la c lc (hdone a la) (hdone c lc)
    have ea : S.getD a 0 = i := by rw [List.getD_eq_getElem?_getD]; show (b.loop.stmts[a]?).getD 0 = i; rw [ha]; rfl
    have ec : S.getD c 0 = j := by rw [List.getD_eq_getElem?_getD]; show (b.loop.stmts[c]?).getD 0 = j; rw [hc]; rfl
    simp only [ea, ec] at hs
    rw [hgrp, ← hs, hat]
    constructor
    · rintro ⟨c', hc', ht'⟩
      rw [huniq c c' j hc hc', ht']
    · intro h
      exact ⟨c, hc, h.symm⟩
  · intro i hi
    obtain ⟨a, ha⟩ := List.getElem?_of_mem hi
    have la := (List.getElem?_eq_some_iff.mp ha).1
    obtain ⟨v, hv, hvt⟩ := hI.done a la (hdone a la)
    exact ⟨_, List.mem_map.mpr ⟨v, by simpa using hvt, rfl⟩, (hgrp v i).mpr ⟨a, ha, hv⟩⟩
  · rw [List.pairwise_map]
    refine List.nodup_range.imp ?_
    intro t t' hne i hi hi'
    obtain ⟨a, ha, hat⟩ := (hgrp t i).mp hi
    obtain ⟨c, hc, hct⟩ := (hgrp t' i).mp hi'
    rw [huniq a c i ha hc, hct] at hat
    simp at hat
    exact hne hat.symm

end Pluto
