import Verif.Spec.Pet
import Verif.Props.Flow

/-! Names of accesses, named accesses and times. -/

namespace Pluto

theorem accCode_unpair (i : Nat) (w : Bool) (k : Nat) : Nat.unpair (accCode i w k) = (i, Nat.pair (if w then 1 else 0) k) := by
  simp [accCode]

theorem accCode_inj {i j : Nat} {w v : Bool} {k l : Nat} (h : accCode i w k = accCode j v l) : i = j ∧ w = v ∧ k = l := by
  unfold accCode at h
  rw [Nat.pair_eq_pair, Nat.pair_eq_pair] at h
  obtain ⟨h1, h2, h3⟩ := h
  refine ⟨h1, ?_, h3⟩
  cases w <;> cases v <;> simp_all

theorem codeName_accCode (i : Nat) (w : Bool) (k : Nat) : codeName (accCode i w k) = accName i w k := by
  unfold codeName
  rw [accCode_unpair]
  simp only [Nat.unpair_pair]
  cases w <;> rfl

theorem repr_isDigit {k : Nat} {c : Char} (h : c ∈ (Nat.repr k).toList) : c.isDigit = true := by
  rw [Nat.toList_repr] at h
  exact Nat.isDigit_of_mem_toDigits (by decide) (by decide) h

theorem atoi_repr (k : Nat) (t : List Char) (ht : ∀ c ∈ t.head?, c.isDigit = false) : atoi ((Nat.repr k).toList ++ t) = k := by
  unfold atoi
  rw [List.takeWhile_append_of_pos (fun c hc => repr_isDigit hc)]
  have : t.takeWhile (·.isDigit) = [] := by
    cases t with
    | nil => rfl
    | cons c t => simp [List.takeWhile_cons, ht c (by simp)]
  rw [this, List.append_nil, Nat.toList_repr, Nat.ofDigitChars_ten_toDigits]

theorem nameStmt_accName (i : Nat) (w : Bool) (k : Nat) : nameStmt (accName i w k) = i := by
  unfold nameStmt accName
  simp only [List.cons_append, List.drop_succ_cons, List.drop_zero]
  exact atoi_repr i _ (by simp)

theorem afterUnderscore_append (l t : List Char) (h : '_' ∉ l) : afterUnderscore (l ++ '_' :: t) = t := by
  induction l with
  | nil => simp [afterUnderscore]
  | cons c l ih =>
    simp only [List.mem_cons, not_or] at h
    simp only [List.cons_append, afterUnderscore, if_neg (Ne.symm h.1), ih h.2]

theorem nameAcc_accName (i : Nat) (w : Bool) (k : Nat) : nameAcc (accName i w k) = some (if w then 'w' else 'r', k) := by
  unfold nameAcc accName
  simp only [List.cons_append, List.drop_succ_cons, List.drop_zero]
  rw [afterUnderscore_append _ _ (fun h => absurd (repr_isDigit h) (by decide))]
  simp only
  have := atoi_repr k [] (by simp)
  rw [List.append_nil] at this
  rw [this]

theorem mem_namedAccs {i : Nat} {w : Bool} {l : List PetAcc} {m : IslAcc} :
    m ∈ namedAccs i w l ↔ ∃ (k : Nat) (a : PetAcc), l[k]? = some a ∧ m.stmt = accCode i w k ∧ m.arr = a.arr ∧ m.rel ∈ a.parts := by
  unfold namedAccs
  simp only [List.mem_flatten, List.mem_mapIdx]
  constructor
  · rintro ⟨_, ⟨k, hk, rfl⟩, h⟩
    obtain ⟨b, hb, rfl⟩ := List.mem_map.mp h
    exact ⟨k, l[k], List.getElem?_eq_getElem hk, rfl, rfl, hb⟩
  · rintro ⟨k, a, h1, h2, h3, h4⟩
    obtain ⟨hk, rfl⟩ := List.getElem?_eq_some_iff.mp h1
    refine ⟨_, ⟨k, hk, rfl⟩, List.mem_map.mpr ⟨m.rel, h4, ?_⟩⟩
    cases m
    simp_all

theorem touches_petReads {ps : List PetStmt} {q : List Int} {p e : Pt} :
    Touches (petReads ps) q p e ↔ ∃ (i k : Nat) (s : PetStmt) (a : PetAcc), p.1 = accCode i false k ∧ ps[i]? = some s ∧ s.reads[k]? = some a ∧
      a.arr = e.1 ∧ ∃ b ∈ a.parts, b.Has p.2 e.2 q := by
  unfold Touches petReads
  simp only [List.mem_flatten, List.mem_mapIdx]
  constructor
  · rintro ⟨m, ⟨_, ⟨i, hi, rfl⟩, hm⟩, h1, h2, h3⟩
    obtain ⟨k, a, g1, g2, g3, g4⟩ := mem_namedAccs.mp hm
    exact ⟨i, k, ps[i], a, by rw [← h1, g2], List.getElem?_eq_getElem hi, g1, by rw [← g3, h2], m.rel, g4, h3⟩
  · rintro ⟨i, k, s, a, h1, h2, h3, h4, b, hb, h5⟩
    obtain ⟨hi, rfl⟩ := List.getElem?_eq_some_iff.mp h2
    exact ⟨⟨accCode i false k, a.arr, b⟩, ⟨_, ⟨i, hi, rfl⟩, mem_namedAccs.mpr ⟨k, a, h3, rfl, rfl, hb⟩⟩, h1.symm, h4, h5⟩

theorem touches_petWrites {ps : List PetStmt} {q : List Int} {p e : Pt} :
    Touches (petWrites ps) q p e ↔ ∃ (i k : Nat) (s : PetStmt) (a : PetAcc), p.1 = accCode i true k ∧ ps[i]? = some s ∧ s.writes[k]? = some a ∧
      a.arr = e.1 ∧ ∃ b ∈ a.parts, b.Has p.2 e.2 q := by
  unfold Touches petWrites
  simp only [List.mem_flatten, List.mem_mapIdx]
  constructor
  · rintro ⟨m, ⟨_, ⟨i, hi, rfl⟩, hm⟩, h1, h2, h3⟩
    obtain ⟨k, a, g1, g2, g3, g4⟩ := mem_namedAccs.mp hm
    exact ⟨i, k, ps[i], a, by rw [← h1, g2], List.getElem?_eq_getElem hi, g1, by rw [← g3, h2], m.rel, g4, h3⟩
  · rintro ⟨i, k, s, a, h1, h2, h3, h4, b, hb, h5⟩
    obtain ⟨hi, rfl⟩ := List.getElem?_eq_some_iff.mp h2
    exact ⟨⟨accCode i true k, a.arr, b⟩, ⟨_, ⟨i, hi, rfl⟩, mem_namedAccs.mpr ⟨k, a, h3, rfl, rfl, hb⟩⟩, h1.symm, h4, h5⟩

theorem atTime_petTimes {ps : List PetStmt} {q : List Int} {p : Pt} {t : List Int} :
    AtTime (petTimes ps) q p t ↔ ∃ (i : Nat) (w : Bool) (k : Nat) (s : PetStmt), p.1 = accCode i w k ∧ ps[i]? = some s ∧
      k < (if w then s.writes else s.reads).length ∧ s.sched.Has p.2 t q := by
  unfold AtTime petTimes
  simp only [List.mem_flatten, List.mem_mapIdx]
  constructor
  · rintro ⟨m, ⟨_, ⟨i, hi, rfl⟩, hm⟩, h1, h2⟩
    rcases List.mem_append.mp hm with hm | hm
    · obtain ⟨k, hk, rfl⟩ := List.mem_mapIdx.mp hm
      exact ⟨i, false, k, ps[i], h1.symm, List.getElem?_eq_getElem hi, hk, h2⟩
    · obtain ⟨k, hk, rfl⟩ := List.mem_mapIdx.mp hm
      exact ⟨i, true, k, ps[i], h1.symm, List.getElem?_eq_getElem hi, hk, h2⟩
  · rintro ⟨i, w, k, s, h1, h2, h3, h4⟩
    obtain ⟨hi, rfl⟩ := List.getElem?_eq_some_iff.mp h2
    refine ⟨⟨accCode i w k, ps[i].sched⟩, ⟨_, ⟨i, hi, rfl⟩, ?_⟩, h1.symm, h4⟩
    rw [List.mem_append]
    cases w with
    | false => exact .inl (List.mem_mapIdx.mpr ⟨k, h3, rfl⟩)
    | true => exact .inr (List.mem_mapIdx.mpr ⟨k, h3, rfl⟩)

theorem petTimes_unique {npar : Nat} {ps : List PetStmt} (hok : PetOK npar ps) (q : List Int) (p : Pt) (t t' : List Int)
    (h : AtTime (petTimes ps) q p t) (h' : AtTime (petTimes ps) q p t') : t = t' := by
  obtain ⟨i, w, k, s, a1, a2, a3, a4⟩ := atTime_petTimes.mp h
  obtain ⟨j, v, l, u, b1, b2, b3, b4⟩ := atTime_petTimes.mp h'
  obtain ⟨rfl, rfl, rfl⟩ := accCode_inj (a1.symm.trans b1)
  rw [a2] at b2
  cases b2
  exact (hok.sched s (List.mem_of_getElem? a2) _ _ _ b4).2 _ a4

/-- Accesses to an element by a named access of the statement. -/
theorem petReadsElem_named {ps : List PetStmt} {q : List Int} {p e : Pt} (h : PetReadsElem ps q p e) :
    ∃ k s, ps[p.1]? = some s ∧ k < s.reads.length ∧ Touches (petReads ps) q (accCode p.1 false k, p.2) e := by
  obtain ⟨s, h1, a, ha, h2, b, hb, h3⟩ := h
  obtain ⟨k, hk, rfl⟩ := List.mem_iff_getElem.mp ha
  exact ⟨k, s, h1, hk, touches_petReads.mpr ⟨p.1, k, s, _, rfl, h1, List.getElem?_eq_getElem hk, h2, b, hb, h3⟩⟩

theorem petWritesElem_named {ps : List PetStmt} {q : List Int} {p e : Pt} (h : PetWritesElem ps q p e) :
    ∃ k s, ps[p.1]? = some s ∧ k < s.writes.length ∧ Touches (petWrites ps) q (accCode p.1 true k, p.2) e := by
  obtain ⟨s, h1, a, ha, h2, b, hb, h3⟩ := h
  obtain ⟨k, hk, rfl⟩ := List.mem_iff_getElem.mp ha
  exact ⟨k, s, h1, hk, touches_petWrites.mpr ⟨p.1, k, s, _, rfl, h1, List.getElem?_eq_getElem hk, h2, b, hb, h3⟩⟩

theorem named_petReads {ps : List PetStmt} {q : List Int} {p e : Pt} (h : Touches (petReads ps) q p e) :
    ∃ i k, p.1 = accCode i false k ∧ PetReadsElem ps q (i, p.2) e := by
  obtain ⟨i, k, s, a, h1, h2, h3, h4, h5⟩ := touches_petReads.mp h
  exact ⟨i, k, h1, s, h2, a, List.mem_of_getElem? h3, h4, h5⟩

theorem named_petWrites {ps : List PetStmt} {q : List Int} {p e : Pt} (h : Touches (petWrites ps) q p e) :
    ∃ i k, p.1 = accCode i true k ∧ PetWritesElem ps q (i, p.2) e := by
  obtain ⟨i, k, s, a, h1, h2, h3, h4, h5⟩ := touches_petWrites.mp h
  exact ⟨i, k, h1, s, h2, a, List.mem_of_getElem? h3, h4, h5⟩

theorem named_before {ps : List PetStmt} {q : List Int} {a b : Pt} {wa wb : Bool} {ka kb : Nat} (h : PetBefore ps q a b)
    {s t : PetStmt} (hs : ps[a.1]? = some s) (ht : ps[b.1]? = some t) (hka : ka < (if wa then s.writes else s.reads).length)
    (hkb : kb < (if wb then t.writes else t.reads).length) :
    Earlier (petTimes ps) q (accCode a.1 wa ka, a.2) (accCode b.1 wb kb, b.2) := by
  obtain ⟨s', t', u, v, h1, h2, h3, h4, h5⟩ := h
  rw [hs] at h1
  rw [ht] at h2
  cases h1
  cases h2
  exact ⟨u, v, atTime_petTimes.mpr ⟨a.1, wa, ka, s, rfl, hs, hka, h3⟩, atTime_petTimes.mpr ⟨b.1, wb, kb, t, rfl, ht, hkb, h4⟩, h5⟩

theorem before_named {ps : List PetStmt} {q : List Int} {i j : Nat} {x y : List Int} {wa wb : Bool} {ka kb : Nat}
    (h : Earlier (petTimes ps) q (accCode i wa ka, x) (accCode j wb kb, y)) : PetBefore ps q (i, x) (j, y) := by
  obtain ⟨u, v, h1, h2, h3⟩ := h
  obtain ⟨i', w, k, s, a1, a2, a3, a4⟩ := atTime_petTimes.mp h1
  obtain ⟨j', w', k', t, b1, b2, b3, b4⟩ := atTime_petTimes.mp h2
  obtain ⟨rfl, -, -⟩ := accCode_inj a1
  obtain ⟨rfl, -, -⟩ := accCode_inj b1
  exact ⟨s, t, u, v, a2, b2, a4, b4, h3⟩

end Pluto
