import Verif.Model.Transforms
import Verif.Lemmas.Band

/-! Lemmas about Verif/Model/Transforms.lean: permuting levels. -/

namespace Pluto

theorem updStmts_spec {f : Stmt → Option Stmt} : ∀ {is : List Nat} {p p' : Prog}, is.Nodup → updStmts p is f = some p' →
    p' = { p with stmts := p'.stmts } ∧ p'.stmts.length = p.stmts.length ∧
    ∀ i : Nat, (i ∈ is → ∃ st st', p.stmts[i]? = some st ∧ f st = some st' ∧ p'.stmts[i]? = some st') ∧
      (i ∉ is → p'.stmts[i]? = p.stmts[i]?) := by
  intro is
  induction is with
  | nil =>
    intro p p' _ h
    simp [updStmts] at h
    subst h
    exact ⟨rfl, rfl, fun i => ⟨by simp, fun _ => rfl⟩⟩
  | cons i is ih =>
    intro p p' hnd h
    unfold updStmts at h
    rw [List.foldlM_cons] at h
    simp only [Option.bind_eq_bind, Option.bind_eq_some_iff, pure, Option.some.injEq] at h
    obtain ⟨p1, ⟨st, h1, st', h2, rfl⟩, h3⟩ := h
    have h3 : updStmts { p with stmts := p.stmts.set i st' } is f = some p' := by
      simpa only [updStmts, Option.bind_eq_bind, pure] using h3
    obtain ⟨hi, hnd'⟩ := List.nodup_cons.mp hnd
    obtain ⟨a1, a2, a3⟩ := ih hnd' h3
    refine ⟨by rw [a1], by rw [a2]; simp, fun j => ⟨fun hj => ?_, fun hj => ?_⟩⟩
    · have hlt := (List.getElem?_eq_some_iff.mp h1).1
      by_cases e : j = i
      · subst e
        refine ⟨st, st', h1, h2, ?_⟩
        rw [(a3 j).2 hi]
        simp [hlt]
      · have hj' : j ∈ is := by simpa [e] using hj
        obtain ⟨s1, s2, k1, k2, k3⟩ := (a3 j).1 hj'
        refine ⟨s1, s2, ?_, k2, k3⟩
        simpa [List.getElem?_set_ne (Ne.symm e)] using k1
    · simp only [List.mem_cons, not_or] at hj
      rw [(a3 j).2 hj.2]
      simp [List.getElem?_set_ne (Ne.symm hj.1)]

theorem updStmts_defined {f : Stmt → Option Stmt} : ∀ {is : List Nat} {p : Prog}, is.Nodup →
    (∀ i ∈ is, ∃ st : Stmt, p.stmts[i]? = some st ∧ (f st).isSome) → (updStmts p is f).isSome := by
  intro is
  induction is with
  | nil => intro p _ _; rfl
  | cons i is ih =>
    intro p hnd h
    obtain ⟨hi, hnd'⟩ := List.nodup_cons.mp hnd
    obtain ⟨st, h1, h2⟩ := h i (by simp)
    obtain ⟨st', h3⟩ := Option.isSome_iff_exists.mp h2
    have := ih (p := { p with stmts := p.stmts.set i st' }) hnd' (by
      intro j hj
      obtain ⟨s1, k1, k2⟩ := h j (by simp [hj])
      have e : i ≠ j := fun e => hi (e ▸ hj)
      exact ⟨s1, by simpa [List.getElem?_set_ne e] using k1, k2⟩)
    unfold updStmts
    rw [List.foldlM_cons]
    simp only [Option.bind_eq_bind, h1, h3, Option.bind_some, pure]
    simpa only [updStmts, Option.bind_eq_bind, pure] using this

theorem rotate_spec {st : Stmt} {g : Nat} : ∀ {n : Nat} {st' : Stmt}, g + n < st.trans.length → rotate st g n = some st' →
    st' = { st with trans := st'.trans } ∧ st'.trans.length = st.trans.length ∧
    ∀ l, st'.trans[l]? = if l < g then st.trans[l]? else if l < g + n then st.trans[l + 1]? else
      if l = g + n then st.trans[g]? else st.trans[l]? := by
  intro n
  induction n with
  | zero =>
    intro st' _ h
    simp [rotate] at h
    subst h
    refine ⟨rfl, rfl, fun l => ?_⟩
    split_ifs <;> first | rfl | omega | (subst_vars; rfl)
  | succ n ih =>
    intro st' hg h
    simp only [rotate, Option.bind_eq_bind, Option.bind_eq_some_iff] at h
    obtain ⟨st1, h1, h2⟩ := h
    obtain ⟨a1, a2, a3⟩ := ih (by omega) h1
    simp only [stmtInterchange, Option.bind_eq_bind, Option.bind_eq_some_iff, pure, Option.some.injEq] at h2
    obtain ⟨r1, e1, r2, e2, rfl⟩ := h2
    refine ⟨by simp only; rw [a1], by simp [a2], fun l => ?_⟩
    rw [a3] at e1 e2
    rw [if_neg (by omega), if_neg (by omega), if_pos rfl] at e1
    rw [if_neg (by omega), if_neg (by omega), if_neg (by omega)] at e2
    simp only [List.getElem?_set, List.length_set, a2]
    by_cases h1 : g + n + 1 = l
    · subst h1
      rw [if_pos rfl, if_pos (by omega), if_neg (by omega), if_neg (by omega), if_pos (by omega), e1]
    · rw [if_neg h1]
      by_cases h2 : g + n = l
      · subst h2
        rw [if_pos rfl, if_pos (by omega), if_neg (by omega), if_pos (by omega), e2]
      · rw [if_neg h2, a3]
        split_ifs <;> first | rfl | omega

theorem rotate_defined {st : Stmt} {g : Nat} : ∀ {n : Nat}, g + n < st.trans.length → (rotate st g n).isSome := by
  intro n
  induction n with
  | zero => intro _; rfl
  | succ n ih =>
    intro hg
    obtain ⟨st1, h1⟩ := Option.isSome_iff_exists.mp (ih (by omega))
    obtain ⟨_, a2, _⟩ := rotate_spec (by omega) h1
    have l1 : g + n < st1.trans.length := by omega
    have l2 : g + n + 1 < st1.trans.length := by omega
    simp [rotate, h1, stmtInterchange, l1, l2]

/-- The rearrangement made by `rotate`. -/
def rotation (n : Nat) : List Nat := (List.range n).map (· + 1) ++ [0]

theorem rotation_perm (n : Nat) : (rotation n).Perm (List.range (n + 1)) := by
  have : List.range (n + 1) = 0 :: (List.range n).map Nat.succ := List.range_succ_eq_map
  rw [this]
  exact List.perm_append_comm

theorem rotation_get (n m : Nat) : (rotation n)[m]? = if m < n then some (m + 1) else if m = n then some 0 else none := by
  unfold rotation
  by_cases h : m < n
  · rw [if_pos h, List.getElem?_append_left (by simpa using h)]
    simp [h]
  · rw [if_neg h, List.getElem?_append_right (by simp; omega)]
    by_cases e : m = n
    · subst e; simp
    · rw [if_neg e]; simp; omega

theorem rotation_length (n : Nat) : (rotation n).length = n + 1 := by simp [rotation]

theorem permuteTime_get {f w : Nat} {perm : List Nat} (hl : perm.length = w) {ts : List Int} (ht : f + w ≤ ts.length) (l : Nat) :
    (permuteTime f w perm ts)[l]? = if l < f then ts[l]? else if l < f + w then (perm[l - f]?).map (fun m => ts.getD (f + m) 0)
      else ts[l]? := by
  unfold permuteTime
  rw [List.append_assoc]
  by_cases h1 : l < f
  · rw [if_pos h1, List.getElem?_append_left (by simp; omega), List.getElem?_take_of_lt h1]
  · rw [if_neg h1, List.getElem?_append_right (by simp; omega)]
    have e : (ts.take f).length = f := by simp; omega
    rw [e]
    by_cases h2 : l < f + w
    · rw [if_pos h2, List.getElem?_append_left (by simp; omega), List.getElem?_map]
    · rw [if_neg h2, List.getElem?_append_right (by simp; omega), List.getElem?_drop]
      congr 1; simp; omega

theorem rotate_time {st st' : Stmt} {g n : Nat} (hg : g + n < st.trans.length) (h : rotate st g n = some st') (x q : List Int) :
    st'.time x q = permuteTime g (n + 1) (rotation n) (st.time x q) := by
  obtain ⟨_, a2, a3⟩ := rotate_spec hg h
  apply List.ext_getElem?
  intro l
  rw [permuteTime_get (rotation_length n) (by simp [Stmt.time]; omega), rotation_get]
  simp only [Stmt.time, List.getElem?_map, a3, List.getD_eq_getElem?_getD]
  by_cases h1 : l < g
  · simp [h1]
  · by_cases h2 : l < g + n
    · have e : g + (l - g + 1) = l + 1 := by omega
      rw [if_neg h1, if_pos h2, if_neg h1, if_pos (by omega), if_pos (by omega)]
      simp only [Option.map_some, e]
      rw [List.getElem?_eq_getElem (by omega)]; simp
    · by_cases h3 : l = g + n
      · rw [if_neg h1, if_neg h2, if_pos h3, if_neg h1, if_pos (by omega), if_neg (by omega), if_pos (by omega)]
        simp only [Option.map_some, Nat.add_zero]
        rw [List.getElem?_eq_getElem (by omega)]; simp
      · rw [if_neg h1, if_neg h2, if_neg h3, if_neg h1, if_neg (by omega)]

theorem timestamp_eq {p : Prog} {i : Nat} {st : Stmt} (h : p.stmts[i]? = some st) (x q : List Int) :
    p.timestamp i x q = st.time x q := by
  simp [Prog.timestamp, Stmt.time, h]

theorem comp_get {p : Prog} {d : Dep} {ss st : Stmt} (hs : p.stmts[d.src]? = some ss) (ht : p.stmts[d.dest]? = some st)
    {l : Nat} (h1 : l < ss.trans.length) (h2 : l < st.trans.length) (s t q : List Int) :
    p.comp d l s t q = (p.timestamp d.dest t q).getD l 0 - (p.timestamp d.src s q).getD l 0 := by
  unfold Prog.comp
  rw [List.getD_eq_getElem?_getD, List.getD_eq_getElem?_getD, timestamp_get hs h1, timestamp_get ht h2]
  rfl

theorem tied_of_take {p : Prog} {d : Dep} {ss st : Stmt} (hs : p.stmts[d.src]? = some ss) (ht : p.stmts[d.dest]? = some st)
    {g : Nat} (h1 : g ≤ ss.trans.length) (h2 : g ≤ st.trans.length) {s t q : List Int}
    (h : (p.timestamp d.src s q).take g = (p.timestamp d.dest t q).take g) : p.TiedBelow d g s t q := by
  intro l hl
  have := congrArg (fun x : List Int => x[l]?) h
  simp only [List.getElem?_take_of_lt hl] at this
  rw [comp_get hs ht (by omega) (by omega), List.getD_eq_getElem?_getD, List.getD_eq_getElem?_getD, this]
  omega

theorem take_permuteTime {f w : Nat} {perm : List Nat} {ts : List Int} (h : f ≤ ts.length) :
    (permuteTime f w perm ts).take f = ts.take f := by
  unfold permuteTime
  rw [List.append_assoc, List.take_append_of_le_length (by simp; omega), List.take_take, Nat.min_self]

theorem lex_of_take {a b a' b' : List Int} {f : Nat} (h : LexBefore (a.take f) (b.take f)) (ha : a'.take f = a.take f)
    (hb : b'.take f = b.take f) : LexBefore a' b' := by
  rw [← List.take_append_drop f a', ← List.take_append_drop f b', ha, hb]
  exact lex_append h _ _

/-- Rearranging levels of some statements keeps a schedule legal if no dependence between them goes
backwards at a level when it is zero at all levels put before it. -/
theorem permuted_legal {p p' : Prog} (hok : p.OK) (hleg : p.Legal) {S : List Nat} {g w : Nat} {perm : List Nat}
    (hp : perm.Perm (List.range w)) (hgw : g + w ≤ p.hProps.length)
    (hdeps : p'.deps = p.deps) (hnpar : p'.npar = p.npar) (hdim : ∀ i, p'.dim i = p.dim i)
    (hin : ∀ i ∈ S, ∀ x q, p'.timestamp i x q = permuteTime g w perm (p.timestamp i x q))
    (hout : ∀ i, i ∉ S → ∀ x q, p'.timestamp i x q = p.timestamp i x q)
    (hcomp : ∀ d ∈ p.deps, d.rar = false → d.src ∈ S → d.dest ∈ S → ∀ s t q, p.Inst d s t q → p.TiedBelow d g s t q →
      ∀ A m B, perm = A ++ m :: B → (∀ m0 ∈ A, p.comp d (g + m0) s t q = 0) → 0 ≤ p.comp d (g + m) s t q)
    (hsep : Separated p ⟨⟨g, S⟩, w⟩) : p'.Legal := by
  intro d hd hr s t q hs ht hq hsat
  rw [hdeps] at hd
  rw [hdim] at hs ht
  rw [hnpar] at hq
  obtain ⟨d1, d2, _⟩ := hok.deps d hd
  have gs := List.getElem?_eq_getElem d1
  have gt := List.getElem?_eq_getElem d2
  have ls := hok.levels _ (List.mem_of_getElem? gs)
  have lt := hok.levels _ (List.mem_of_getElem? gt)
  have hL := hleg d hd hr s t q hs ht hq hsat
  have l1 : (p.timestamp d.src s q).length = p.hProps.length := by rw [timestamp_eq gs]; simp [Stmt.time, ls]
  have l2 : (p.timestamp d.dest t q).length = p.hProps.length := by rw [timestamp_eq gt]; simp [Stmt.time, lt]
  by_cases c1 : d.src ∈ S <;> by_cases c2 : d.dest ∈ S
  · rw [hin _ c1, hin _ c2]
    refine lex_permute hp (by omega) (by omega) hL (fun he A m B hperm hA => ?_)
    have hlt : ∀ m ∈ perm, m < w := fun m hm => by simpa using hp.mem_iff.mp hm
    have := hcomp d hd hr c1 c2 s t q ⟨hs, ht, hq, hsat⟩ (tied_of_take gs gt (by omega) (by omega) he) A m B hperm (by
      intro m0 hm0
      have := hlt m0 (by rw [hperm]; simp [hm0])
      rw [comp_get gs gt (by omega) (by omega), hA m0 hm0]
      omega)
    have hm := hlt m (by rw [hperm]; simp)
    rw [comp_get gs gt (by omega) (by omega)] at this
    omega
  · refine lex_of_take (hsep d hd hr (by simp [c1, c2]) s t q hs ht hq hsat) ?_ ?_
    · rw [hin _ c1, take_permuteTime (by show g ≤ _; omega)]
    · rw [hout _ c2]
  · refine lex_of_take (hsep d hd hr (by simp [c1, c2]) s t q hs ht hq hsat) ?_ ?_
    · rw [hout _ c1]
    · rw [hin _ c2, take_permuteTime (by show g ≤ _; omega)]
  · rw [hout _ c1, hout _ c2]
    exact hL

end Pluto
