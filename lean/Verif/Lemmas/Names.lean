import Verif.Spec.Names
import Mathlib.Data.List.Induction

/-! Lemmas on arrays of names. -/

namespace Pluto

/-- Memory without the string at `k`. -/
def cut (m : Nat → Option String) (k : Nat) : Nat → Option String := fun j => if j = k then none else m j

theorem cut_comm (m : Nat → Option String) (i k : Nat) : cut (cut m i) k = cut (cut m k) i := by
  funext j; unfold cut; split <;> split <;> rfl

theorem own_length {m f : Nat → Option String} : ∀ {s l}, Own m f s l → s.length = l.length := by
  intro s
  induction s generalizing m with
  | nil => intro l h; cases l <;> simp_all [Own]
  | cons a s ih =>
    intro l h
    cases a <;> rcases l with _ | ⟨_ | n, l⟩ <;> simp only [Own] at h
    · simp [ih h]
    · simp [ih h.2]

theorem own_append {m f : Nat → Option String} : ∀ {a la b lb}, a.length = la.length →
    (Own m f (a ++ b) (la ++ lb) ↔ ∃ g, Own m g a la ∧ Own g f b lb) := by
  intro a
  induction a generalizing m with
  | nil => intro la b lb h; cases la <;> simp_all [Own]
  | cons x a ih =>
    intro la b lb h
    rcases la with _ | ⟨o, la⟩
    · simp at h
    have h' : a.length = la.length := by simpa using h
    cases x <;> cases o <;> simp [Own, ih h', and_assoc]

theorem own_cut {m g : Nat → Option String} {k : Nat} {n : String} : ∀ {s l}, Own m g s l → g k = some n →
    m k = some n ∧ Own (cut m k) (cut g k) s l := by
  intro s
  induction s generalizing m with
  | nil => intro l h hk; cases l <;> simp_all [Own]
  | cons a s ih =>
    intro l h hk
    cases a <;> rcases l with _ | ⟨_ | x, l⟩ <;> simp only [Own] at h ⊢
    · exact ih h hk
    · rename_i i
      obtain ⟨h1, h2⟩ := h
      have := ih h2 hk
      obtain ⟨h3, h4⟩ := this
      have hne : k ≠ i := by intro e; subst e; simp at h3
      have hm : m k = some n := by simpa [hne] using h3
      refine ⟨hm, ?_, ?_⟩
      · simp [cut, Ne.symm hne, h1]
      · have e := cut_comm m i k
        unfold cut at e h4 ⊢
        rw [← e]; exact h4

theorem own_comm {m f : Nat → Option String} : ∀ {g a la b lb}, Own m g a la → Own g f b lb →
    ∃ g', Own m g' b lb ∧ Own g' f a la := by
  intro g a la b
  induction b generalizing g m with
  | nil => intro lb ha hb; cases lb <;> simp_all [Own]
  | cons x b ih =>
    intro lb ha hb
    cases x <;> rcases lb with _ | ⟨_ | n, lb⟩ <;> simp only [Own] at hb ⊢
    · exact ih ha hb
    · obtain ⟨h1, h2⟩ := own_cut ha hb.1
      obtain ⟨g', h3, h4⟩ := ih h2 hb.2
      exact ⟨g', ⟨h1, h3⟩, h4⟩

theorem own_sub {m g : Nat → Option String} {k : Nat} {n : String} {s l} (h : Own m g s l) (hk : g k = some n) :
    m k = some n := (own_cut h hk).1

/-- Everything free in `m` is free in what is left. -/
theorem own_none {m g : Nat → Option String} {i : Nat} : ∀ {s l}, Own m g s l → m i = none → g i = none := by
  intro s l h hi
  cases hg : g i with
  | none => rfl
  | some n => rw [own_sub h hg] at hi; cases hi

theorem freeNames_own {e : List NameSlot} : ∀ {s l h f a}, Own h.at_ f s l →
    freeNames h (a ++ (s ++ e)) a.length s.length = some { h with at_ := f } := by
  intro s
  induction s with
  | nil => intro l h f a ho; cases l <;> simp_all [Own, freeNames]; rw [← ho]
  | cons x s ih =>
    intro l h f a ho
    have hx : (a ++ (x :: s ++ e))[a.length]? = some x := by simp
    have happ : a ++ (x :: s ++ e) = (a ++ [x]) ++ (s ++ e) := by simp
    cases x <;> rcases l with _ | ⟨_ | n, l⟩ <;> simp only [Own] at ho
    · simp only [List.length_cons, freeNames, freeName, hx, Option.bind_eq_bind, Option.bind_some]
      rw [happ]
      have := @ih l h f (a ++ [.null]) ho
      simpa using this
    · simp only [List.length_cons, freeNames, freeName, hx, ho.1, Option.isSome_some, if_true, Option.bind_eq_bind,
        Option.bind_some]
      rw [happ]
      rename_i k
      have := @ih l { h with at_ := fun j => if j = k then none else h.at_ j } f (a ++ [.ptr k]) ho.2
      simpa using this

theorem nullNames_eq {e : List NameSlot} : ∀ {s a}, nullNames (a ++ (s ++ e)) a.length s.length =
    some (a ++ (List.replicate s.length .null ++ e)) := by
  intro s
  induction s with
  | nil => intro a; rfl
  | cons x s ih =>
    intro a
    have hw : writeName (a ++ (x :: s ++ e)) a.length .null = some ((a ++ [NameSlot.null]) ++ (s ++ e)) := by
      simp [writeName]
    simp only [List.length_cons, nullNames, hw, Option.bind_eq_bind, Option.bind_some]
    have := @ih (a ++ [.null])
    rw [List.length_append] at this
    simp only [List.length_singleton] at this
    rw [this, List.replicate_succ]; simp

theorem own_null {m : Nat → Option String} : ∀ n, Own m m (List.replicate n .null) (List.replicate n none)
  | 0 => rfl
  | n + 1 => own_null n

theorem shiftNamesUp_eq {rest : List NameSlot} : ∀ {b a x}, ∃ y,
    shiftNamesUp (a ++ (b ++ x :: rest)) a.length b.length = some (a ++ y :: (b ++ rest)) := by
  intro b
  induction b using List.reverseRecOn generalizing rest with
  | nil => intro a x; exact ⟨x, rfl⟩
  | append_singleton b z ih =>
    intro a x
    have h1 : (a ++ (b ++ [z] ++ x :: rest))[a.length + b.length]? = some z := by
      rw [List.getElem?_append_right (by omega)]; simp
    have h2 : writeName (a ++ (b ++ [z] ++ x :: rest)) (a.length + b.length + 1) z =
        some (a ++ (b ++ z :: (z :: rest))) := by
      have e : a ++ (b ++ [z] ++ x :: rest) = (a ++ b ++ [z]) ++ x :: rest := by simp
      have el : a.length + b.length + 1 = (a ++ b ++ [z]).length := by simp; omega
      unfold writeName
      rw [e, if_pos (by simp; omega), el, List.set_append_right _ _ (Nat.le_refl _)]
      simp
    obtain ⟨y, hy⟩ := @ih (z :: rest) a z
    refine ⟨y, ?_⟩
    rw [List.length_append, List.length_singleton]
    simp only [shiftNamesUp, h1, h2, Option.bind_eq_bind, Option.bind_some]
    rw [hy]; simp

theorem shiftNamesDown_eq {rest : List NameSlot} : ∀ {b a x}, (∀ y ∈ b, y ≠ .null) → ∃ y,
    shiftNamesDown (a ++ x :: (b ++ rest)) a.length b.length = some (a ++ (b ++ y :: rest)) := by
  intro b
  induction b with
  | nil => intro a x _; exact ⟨x, rfl⟩
  | cons z b ih =>
    intro a x hb
    have hz : z ≠ .null := hb z (by simp)
    have h1 : (a ++ x :: (z :: b ++ rest))[a.length + 1]? = some z := by
      rw [List.getElem?_append_right (by omega)]; simp
    have h2 : writeName (a ++ x :: (z :: b ++ rest)) a.length z = some ((a ++ [z]) ++ z :: (b ++ rest)) := by
      simp [writeName]
    obtain ⟨y, hy⟩ := @ih (a ++ [z]) z (fun y h => hb y (by simp [h]))
    refine ⟨y, ?_⟩
    simp only [List.length_cons, shiftNamesDown, h1, h2, hz, if_false, Option.bind_eq_bind, Option.bind_some]
    rw [List.length_append, List.length_singleton] at hy
    rw [hy]; simp

theorem reads_length {r : Nat → Option String} : ∀ {s l}, NamesRead r s l → s.length = l.length := by
  intro s
  induction s with
  | nil => intro l h; cases l <;> simp_all [NamesRead]
  | cons a s ih =>
    intro l h
    cases a <;> rcases l with _ | ⟨_ | n, l⟩ <;> simp only [NamesRead] at h
    · simp [ih h]
    · simp [ih h.2]

/-- A new string. -/
theorem nameDup_own {h : NameHeap} (hf : ∀ i, h.next ≤ i → h.at_ i = none) (s : String) :
    Own (nameDup h s).1.at_ h.at_ [(nameDup h s).2] [some s] ∧
      ∀ i, (nameDup h s).1.next ≤ i → (nameDup h s).1.at_ i = none := by
  refine ⟨⟨by simp [nameDup], ?_⟩, ?_⟩
  · funext j
    simp only [nameDup]
    split
    · next h1 => subst h1; exact (hf _ (Nat.le_refl _)).symm
    · rfl
  · intro i hi
    simp only [nameDup] at hi ⊢
    rw [if_neg (by omega)]
    exact hf _ (by omega)

theorem writeName_mid (a e : List NameSlot) (x v : NameSlot) :
    writeName (a ++ x :: e) a.length v = some (a ++ v :: e) := by simp [writeName]

theorem copyNames_eq {r : Nat → Option String} {e q : List NameSlot} : ∀ {t ss l h a p},
    (∀ i, h.next ≤ i → h.at_ i = none) → (∀ k n, r k = some n → h.at_ k = some n) → NamesRead r ss l →
    t.length = ss.length →
    ∃ h' s', copyNames h (a ++ (t ++ e)) (p ++ (ss ++ q)) a.length p.length ss.length =
        some (h', a ++ (s' ++ e)) ∧ Own h'.at_ h.at_ s' l ∧ (∀ i, h'.next ≤ i → h'.at_ i = none) := by
  intro t
  induction t with
  | nil =>
    intro ss l h a p hf _ hr hl
    have : ss = [] := by simpa using hl.symm
    subst this
    cases l with
    | nil => exact ⟨h, [], rfl, rfl, hf⟩
    | cons _ _ => simp [NamesRead] at hr
  | cons x t ih =>
    intro ss l h a p hf hsub hr hl
    rcases ss with _ | ⟨z, ss⟩
    · simp at hl
    have hl' : t.length = ss.length := by simpa using hl
    have hz : (p ++ (z :: ss ++ q))[p.length]? = some z := by simp
    have hp : p ++ (z :: ss ++ q) = (p ++ [z]) ++ (ss ++ q) := by simp
    cases z <;> rcases l with _ | ⟨_ | n, l⟩ <;> simp only [NamesRead] at hr
    · obtain ⟨h', s', h1, h2, h3⟩ := @ih ss l h (a ++ [.null]) (p ++ [.null]) hf hsub hr hl'
      refine ⟨h', .null :: s', ?_, h2, h3⟩
      simp only [List.length_cons, copyNames, copyName, List.cons_append, writeName_mid, Option.bind_eq_bind,
        Option.bind_some]
      simpa using h1
    · rename_i k
      obtain ⟨hk, hr⟩ := hr
      have hd := nameDup_own hf n
      have hsub' : ∀ k' n', r k' = some n' → (nameDup h n).1.at_ k' = some n' := fun k' n' h' =>
        own_sub hd.1 (hsub k' n' h')
      obtain ⟨h', s', h1, h2, h3⟩ := @ih ss l (nameDup h n).1 (a ++ [(nameDup h n).2]) (p ++ [.ptr k]) hd.2 hsub' hr hl'
      obtain ⟨g, h4, h5⟩ := own_comm h2 hd.1
      refine ⟨h', (nameDup h n).2 :: s', ?_, ?_, h3⟩
      · have hc : copyName h (a ++ (x :: t ++ e)) (p ++ (.ptr k :: ss ++ q)) a.length p.length =
            some ((nameDup h n).1, a ++ (nameDup h n).2 :: (t ++ e)) := by
          simp only [copyName, List.cons_append, writeName_mid, Option.bind_eq_bind, Option.bind_some]
          simp [hsub k n hk]
        rw [List.length_cons, copyNames, hc]
        simpa using h1
      · exact (own_append (a := [(nameDup h n).2]) (la := [some n]) (by simp)).mpr ⟨g, h4, h5⟩

end Pluto
