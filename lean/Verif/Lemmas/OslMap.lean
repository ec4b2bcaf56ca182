import Verif.Lemmas.Osl
import Mathlib.Data.List.Forall2

/-! The isl maps made from the relations of OpenScop. -/

namespace Pluto

theorem aff_const (n : Nat) (c : Int) (y : List Int) (hy : y.length = n) : aff (List.replicate n 0 ++ [c]) y = c := by
  unfold aff
  rw [dot_append _ _ _ _ (by simp [hy]), dot_zero]
  simp

theorem aff_mid_zero (n k : Nat) (r x z q : List Int) (hr : n ≤ r.length) (hx : x.length = n) (hz : z.length = k) :
    aff (r.take n ++ List.replicate k 0 ++ r.drop n) (x ++ z ++ q) = aff r (x ++ q) := by
  unfold aff
  rw [List.append_assoc, List.append_assoc, List.append_assoc, dot_append _ _ _ _ (by simp [hr, hx]), dot_append _ _ _ _ (by simp [hz]), dot_zero]
  conv_rhs => rw [← List.take_append_drop n r, List.append_assoc, dot_append _ _ _ _ (by simp [hr, hx])]
  ring

/-- Subscripts of the element in isl: a scalar is an array with one element. -/
def islIdx (y : List Int) : List Int := if y = [] then [0] else y

theorem OslRel.IsAcc.has {r : OslRel} {id : Nat} {f : List (List Int)} (h : r.IsAcc id f) (h0 : r.nloc = 0) (i : Nat) (y x q : List Int) :
    r.Has ((i : Int) :: y) x q ↔ x.length = r.nin ∧ q.length = r.npar ∧ i = id ∧ y = f.map (fun g => aff g (x ++ q)) := by
  rw [h.2.has h0]
  constructor
  · rintro ⟨hx, hq, e⟩
    rw [List.map_cons, aff_const _ _ _ (by simp [hx, hq]), List.cons.injEq] at e
    exact ⟨hx, hq, by exact_mod_cast e.1, e.2⟩
  · rintro ⟨hx, hq, rfl, rfl⟩
    exact ⟨hx, hq, by rw [List.map_cons, aff_const _ _ _ (by simp [hx, hq])]⟩

theorem OslRel.IsAcc.arrayId {r : OslRel} {id : Nat} {f : List (List Int)} (h : r.IsAcc id f) : oslArrayId r = id := by
  have := h.2.rowOf 0 (by simp)
  unfold OslRel.rowOf at this
  rw [if_neg (by rw [h.2.nrows]; simp)] at this
  unfold oslArrayId
  rw [← List.head?_filter]
  split at this
  · rename_i w hw
    cases this
    simp only [Nat.zero_add] at hw
    rw [hw]
    simp [funRow, List.getLastD]
  · cases this

/-- The isl map made from an access. -/
theorem OslRel.IsAcc.accMap {r : OslRel} {id : Nat} {f : List (List Int)} (h : r.IsAcc id f) (hw : r.WF) :
    ∃ b, oslAccMap r = some b ∧ b.nin = r.nin ∧ b.npar = r.npar ∧ b.ndiv = 0 ∧
      ∀ x z q, b.Has x z q ↔ x.length = r.nin ∧ q.length = r.npar ∧ z = islIdx (f.map (fun g => aff g (x ++ q))) := by
  have hn := h.2.nrows
  have ho := h.2.out
  simp only [List.length_cons] at hn ho
  unfold oslAccMap
  rw [if_neg (by simp [hw.noLocal, hn, ho])]
  by_cases h1 : r.rows.length = 1
  · rw [if_pos h1]
    obtain rfl : f = [] := List.length_eq_zero_iff.mp (by omega)
    refine ⟨_, rfl, rfl, rfl, rfl, fun x z q => ?_⟩
    have := solved_has r.nin r.npar [List.replicate (r.nin + r.npar + 1) 0] (by simp) x z q
    simp only [List.length_singleton, List.mapIdx_cons, List.mapIdx_nil, List.map_cons, List.map_nil, List.replicate_one, List.set_cons_zero, List.cons_append, List.nil_append] at this
    rw [this]
    have e : aff (List.replicate (r.nin + r.npar + 1) 0) (x ++ q) = 0 := by unfold aff; exact dot_zero _ _
    rw [e]
    simp [islIdx]
  · rw [if_neg h1]
    have e : (List.range (r.rows.length - 1)).mapM (fun i => (r.rowOf (i + 2)).map (fun w => (w.drop 2).map putSi)) =
        some (f.mapIdx (fun i g => (List.replicate f.length 0).set i (-1) ++ g)) := by
      refine mapM_range_some _ _ (by simp [hn]) (fun i g hg => ?_)
      rw [List.getElem?_mapIdx] at hg
      obtain ⟨g', hg', rfl⟩ := Option.map_eq_some_iff.mp hg
      obtain ⟨hi, rfl⟩ := List.getElem?_eq_some_iff.mp hg'
      have hi' : i + 1 < (((List.replicate (r.nin + r.npar) 0 ++ [(id : Int)])) :: f).length := by simp [hi]
      rw [h.2.rowOf (i + 1) hi']
      have := h.2.small hw (i + 1) hi'
      simp only [funRow, List.length_cons, List.replicate_succ, List.set_cons_succ, List.cons_append, List.getElem_cons_succ] at this
      simp only [Option.map_some, funRow, List.length_cons, List.replicate_succ, List.set_cons_succ, List.cons_append, List.drop_succ_cons, List.drop_zero, List.getElem_cons_succ, Option.some.injEq]
      exact map_putSi (fun v hv => this v (List.mem_cons_of_mem _ (List.mem_cons_of_mem _ hv)))
    rw [e]
    simp only [hn, Nat.add_sub_cancel]
    refine ⟨_, rfl, rfl, rfl, rfl, fun x z q => ?_⟩
    have hne : f ≠ [] := by rintro rfl; simp at hn; exact h1 hn
    rw [show islIdx (f.map (fun g => aff g (x ++ q))) = f.map (fun g => aff g (x ++ q)) by simp [islIdx, hne]]
    exact solved_has r.nin r.npar f (fun g hg => h.2.cols g (List.mem_cons_of_mem _ hg)) x z q

/-- The access matrix of a statement. -/
theorem OslRel.IsAcc.accMat {r : OslRel} {id : Nat} {f : List (List Int)} (h : r.IsAcc id f) (h0 : r.nloc = 0) :
    oslAccMat r = some (if f = [] then [List.replicate (r.nin + r.npar + 1) 0] else f) := by
  have hn := h.2.nrows
  have ho := h.2.out
  simp only [List.length_cons] at hn ho
  unfold oslAccMat
  rw [if_neg (by simp [h0]), hn]
  by_cases h1 : f = []
  · subst h1
    simp [h0]
  · rw [if_neg (by simp [h1]), if_neg h1, Nat.add_sub_cancel]
    refine mapM_range_some _ f rfl (fun i g hg => ?_)
    obtain ⟨hi, rfl⟩ := List.getElem?_eq_some_iff.mp hg
    rw [h.2.rowOf (i + 1) (by simp [hi]), ho]
    simp [funRow]

theorem oslSet_has {d : OslRel} (hw : d.WF) (hn : d.nin = 0) (x q : List Int) : (oslSet d).Has [] x q ↔ d.Has x [] q := by
  unfold BMap.Has OslRel.Has oslSet
  simp only [List.length_nil, true_and, hn, hw.noLocal, List.nil_append, List.append_nil, List.mem_map, List.mem_filter, forall_exists_index, and_imp]
  refine and_congr_right fun _ => and_congr_right fun _ => ⟨?_, ?_⟩
  · rintro ⟨z, hz, h1, h2⟩
    refine ⟨z, hz, fun w hw' => ?_⟩
    have e : (w.drop 1).map putSi = w.drop 1 := map_putSi (fun v hv => hw.small w hw' v (List.mem_of_mem_drop hv))
    split
    · rename_i h0
      rw [← e]
      exact h1 _ w hw' (by simpa using h0) rfl
    · rename_i h0
      rw [← e]
      exact h2 _ w hw' (by simpa using h0) rfl
  · rintro ⟨z, hz, h⟩
    refine ⟨z, hz, fun r w hw' h0 e => ?_, fun r w hw' h0 e => ?_⟩
    · have e' : (w.drop 1).map putSi = w.drop 1 := map_putSi (fun v hv => hw.small w hw' v (List.mem_of_mem_drop hv))
      have := h w hw'
      rw [if_pos (by simpa using h0)] at this
      rw [← e, e']
      exact this
    · have e' : (w.drop 1).map putSi = w.drop 1 := map_putSi (fun v hv => hw.small w hw' v (List.mem_of_mem_drop hv))
      have := h w hw'
      rw [if_neg (by simpa using h0)] at this
      rw [← e, e']
      exact this

theorem oslSet_rows {d : OslRel} (hw : d.WF) (hn : d.nin = 0) : ∀ r ∈ (oslSet d).eqs ++ (oslSet d).ineqs, r.length = d.nout + d.npar + 1 := by
  intro r hr
  have : ∀ w ∈ d.rows, ((w.drop 1).map putSi).length = d.nout + d.npar + 1 := fun w h => by
    have := hw.rows w h
    simp; omega
  rcases List.mem_append.mp hr with hr | hr <;>
  · obtain ⟨w, h1, rfl⟩ := List.mem_map.mp hr
    exact this w (List.mem_of_mem_filter h1)

theorem withParams_has (ctx b : BMap) (h1 : ctx.nin = 0) (h2 : ctx.nout = 0) (h3 : ctx.ndiv = 0) (h4 : b.nin = 0) (h5 : b.ndiv = 0) (hp : ctx.npar = b.npar) (x q : List Int) :
    (withParams ctx b).Has [] x q ↔ b.Has [] x q ∧ ctx.Has [] [] q := by
  have row : ∀ r : List Int, x.length = b.nout → aff (List.replicate b.nout 0 ++ r) (x ++ q) = aff r q := by
    intro r hx
    have := aff_mid_zero 0 b.nout r [] x q (Nat.zero_le _) rfl hx
    simpa using this
  unfold BMap.Has withParams
  simp only [List.length_nil, h1, h2, h3, h4, h5, hp, true_and, List.nil_append, List.mem_append, List.mem_map]
  constructor
  · rintro ⟨hx, hq, z, hz, he, hi⟩
    obtain rfl := List.length_eq_zero_iff.mp hz
    simp only [List.append_nil] at he hi
    refine ⟨⟨hx, hq, [], rfl, fun r hr => ?_, fun r hr => ?_⟩, hq, [], rfl, fun r hr => ?_, fun r hr => ?_⟩
    · simpa using he r (.inl hr)
    · simpa using hi r (.inl hr)
    · simpa [row r hx] using he _ (.inr ⟨r, hr, rfl⟩)
    · simpa [row r hx] using hi _ (.inr ⟨r, hr, rfl⟩)
  · rintro ⟨⟨hx, hq, z, hz, he, hi⟩, -, z', hz', he', hi'⟩
    obtain rfl := List.length_eq_zero_iff.mp hz
    obtain rfl := List.length_eq_zero_iff.mp hz'
    refine ⟨hx, hq, [], rfl, ?_, ?_⟩
    · rintro r (hr | ⟨r, hr, rfl⟩)
      · exact he r hr
      · simpa [row r hx] using he' r hr
    · rintro r (hr | ⟨r, hr, rfl⟩)
      · exact hi r hr
      · simpa [row r hx] using hi' r hr

theorem withDomain_has (dom m : BMap) (h1 : dom.nin = 0) (h2 : dom.nout = m.nin) (h3 : dom.ndiv = 0) (h5 : m.ndiv = 0) (hp : dom.npar = m.npar)
    (hl : ∀ r ∈ dom.eqs ++ dom.ineqs, m.nin ≤ r.length) (x z q : List Int) :
    (withDomain dom m).Has x z q ↔ m.Has x z q ∧ dom.Has [] x q := by
  have row : ∀ r : List Int, r ∈ dom.eqs ++ dom.ineqs → x.length = m.nin → z.length = m.nout →
      aff (r.take m.nin ++ List.replicate m.nout 0 ++ r.drop m.nin) (x ++ z ++ q) = aff r (x ++ q) :=
    fun r hr hx hz => aff_mid_zero _ _ r x z q (hl r hr) hx hz
  unfold BMap.Has withDomain
  simp only [List.length_nil, h1, h2, h3, h5, hp, true_and, List.nil_append, List.mem_append, List.mem_map]
  constructor
  · rintro ⟨hx, hz, hq, v, hv, he, hi⟩
    obtain rfl := List.length_eq_zero_iff.mp hv
    simp only [List.append_nil] at he hi
    refine ⟨⟨hx, hz, hq, [], rfl, fun r hr => ?_, fun r hr => ?_⟩, hx, hq, [], rfl, fun r hr => ?_, fun r hr => ?_⟩
    · simpa using he r (.inl hr)
    · simpa using hi r (.inl hr)
    · have := he _ (.inr ⟨r, hr, rfl⟩)
      rw [row r (List.mem_append_left _ hr) hx hz] at this
      simpa using this
    · have := hi _ (.inr ⟨r, hr, rfl⟩)
      rw [row r (List.mem_append_right _ hr) hx hz] at this
      simpa using this
  · rintro ⟨⟨hx, hz, hq, v, hv, he, hi⟩, -, -, v', hv', he', hi'⟩
    obtain rfl := List.length_eq_zero_iff.mp hv
    obtain rfl := List.length_eq_zero_iff.mp hv'
    simp only [List.append_nil] at he hi he' hi' ⊢
    refine ⟨hx, hz, hq, [], rfl, ?_, ?_⟩
    · rintro r (hr | ⟨r, hr, rfl⟩)
      · simpa using he r hr
      · rw [List.append_nil, row r (List.mem_append_left _ hr) hx hz]
        exact he' r hr
    · rintro r (hr | ⟨r, hr, rfl⟩)
      · simpa using hi r hr
      · rw [List.append_nil, row r (List.mem_append_right _ hr) hx hz]
        exact hi' r hr

/-- The isl object for an access of a statement. -/
def AccRight (ctx d r : OslRel) (a : PetAcc) : Prop :=
  a.arr + 1 = oslArrayId r ∧ ∃ b, a.parts = [b] ∧ ∀ x z q, b.Has x z q ↔ (ctx.Has [] [] q ∧ d.Has x [] q) ∧ ∃ y, z = islIdx y ∧ r.Has ((oslArrayId r : Int) :: y) x q

theorem oslIslAcc_ok {ctx d r : OslRel} {s : OslStmt} (hc : ctx.WF ∧ ctx.nout = 0 ∧ ctx.nin = 0) (hs : s.domain = [d]) (hd : d.WF) (hdn : d.nin = 0) (hdp : d.npar = ctx.npar)
    (hr : r.WF) (hrp : r.npar = ctx.npar) (hrn : r.nin = d.nout) {id : Nat} {f : List (List Int)} (h : r.IsAcc id f) :
    ∃ a, oslIslAcc (oslSet ctx) s r = some a ∧ AccRight ctx d r a := by
  obtain ⟨b, hb, b1, b2, b3, b4⟩ := h.accMap hr
  unfold oslIslAcc
  rw [hb, hs]
  refine ⟨_, rfl, ?_, _, rfl, fun x z q => ?_⟩
  · have := h.1
    simp only [h.arrayId]; omega
  · rw [withDomain_has _ _ rfl (by rw [b1, hrn]; rfl) rfl b3 (by rw [b2, hrp, ← hdp]; rfl), withParams_has _ _ rfl (by exact hc.2.1) rfl rfl rfl (by exact hdp.symm),
      oslSet_has hd hdn, oslSet_has hc.1 hc.2.2, b4, h.arrayId]
    · have e : (x.length = r.nin ∧ q.length = r.npar ∧ z = islIdx (f.map (fun g => aff g (x ++ q)))) ↔ ∃ y, z = islIdx y ∧ r.Has ((id : Int) :: y) x q := by
        constructor
        · rintro ⟨h1, h2, h3⟩
          exact ⟨_, h3, (h.has hr.noLocal id _ x q).mpr ⟨h1, h2, rfl, rfl⟩⟩
        · rintro ⟨y, h1, h2⟩
          obtain ⟨h3, h4, -, rfl⟩ := (h.has hr.noLocal id _ x q).mp h2
          exact ⟨h3, h4, h1⟩
      rw [e]
      tauto
    · intro w hw
      have key : ∀ w ∈ (oslSet d).eqs ++ (oslSet d).ineqs, b.nin ≤ w.length := fun w hw => by
        rw [oslSet_rows hd hdn w hw, b1, hrn]; omega
      have key2 : ∀ w ∈ (oslSet ctx).eqs ++ (oslSet ctx).ineqs, b.nin ≤ (List.replicate (oslSet d).nout 0 ++ w).length := fun w hw => by
        rw [b1, hrn]; simp [oslSet]
      simp only [withParams, List.mem_append, List.mem_map] at hw key key2
      rcases hw with (hw | ⟨w, hw, rfl⟩) | (hw | ⟨w, hw, rfl⟩)
      · exact key w (.inl hw)
      · exact key2 w (.inl hw)
      · exact key w (.inr hw)
      · exact key2 w (.inr hw)

theorem mapM_forall2_of {α β : Type*} {f : α → Option β} {P : α → β → Prop} (l : List α) (h : ∀ a ∈ l, ∃ b, f a = some b ∧ P a b) :
    ∃ r, l.mapM f = some r ∧ List.Forall₂ P l r := by
  induction l with
  | nil => exact ⟨[], rfl, .nil⟩
  | cons a l ih =>
    obtain ⟨b, h1, h2⟩ := h a List.mem_cons_self
    obtain ⟨r, h3, h4⟩ := ih (fun c hc => h c (List.mem_cons_of_mem _ hc))
    exact ⟨b :: r, by simp [List.mapM_cons, h1, h3], .cons h2 h4⟩

/-- The isl objects for a statement. -/
structure StmtRight (ctx : OslRel) (s : OslStmt) (i : OslIsl) : Prop where
  sched : ∀ x t q, i.sched.Has x t q ↔ s.scat.Has t x q
  accs : ∃ d, s.domain = [d] ∧ List.Forall₂ (AccRight ctx d) s.reads i.reads ∧ List.Forall₂ (AccRight ctx d) s.writes i.writes

theorem OslStmt.reads_mem {s : OslStmt} {r : OslRel} : r ∈ s.reads ↔ (OslType.read, r) ∈ s.accs := by
  unfold OslStmt.reads
  simp only [List.mem_map, List.mem_filter, Prod.exists, beq_iff_eq]
  constructor
  · rintro ⟨a, b, ⟨h1, rfl⟩, rfl⟩; exact h1
  · intro h; exact ⟨_, _, ⟨h, rfl⟩, rfl⟩

theorem OslStmt.writes_mem {s : OslStmt} {r : OslRel} : r ∈ s.writes ↔ ∃ a ∈ s.accs, (a.1 = .write ∨ a.1 = .mayWrite) ∧ a.2 = r := by
  unfold OslStmt.writes
  simp only [List.mem_map, List.mem_filter, Bool.or_eq_true, beq_iff_eq]
  constructor
  · rintro ⟨a, ⟨h1, h2⟩, h3⟩; exact ⟨a, h1, h2, h3⟩
  · rintro ⟨a, h1, h2, h3⟩; exact ⟨a, ⟨h1, h2⟩, h3⟩

theorem oslIslStmt_ok {ctx : OslRel} {s : OslStmt} (hc : ctx.WF ∧ ctx.nout = 0 ∧ ctx.nin = 0) (hs : s.OK ctx.npar) :
    ∃ i, oslIslStmt (oslSet ctx) s = some i ∧ StmtRight ctx s i := by
  obtain ⟨d, h1, h2, h3, h4, h5, h6⟩ := hs.domain
  obtain ⟨h7, h8, f, h9⟩ := hs.scat
  obtain ⟨b, hb, -, -, -, -, b1⟩ := h9.scatMap h7
  have acc : ∀ a ∈ s.accs, ∃ i, oslIslAcc (oslSet ctx) s a.2 = some i ∧ AccRight ctx d a.2 i := by
    intro a ha
    obtain ⟨k1, k2, id, g, k3⟩ := hs.accs a ha
    exact oslIslAcc_ok hc h1 h2 h3 h4 k1 k2 (h6 a ha) k3
  obtain ⟨rs, r1, r2⟩ := mapM_forall2_of s.reads (fun r hr => acc _ (OslStmt.reads_mem.mp hr))
  obtain ⟨ws, w1, w2⟩ := mapM_forall2_of s.writes (f := oslIslAcc (oslSet ctx) s) (P := AccRight ctx d) (fun r hr => by
    obtain ⟨a, ha, -, rfl⟩ := OslStmt.writes_mem.mp hr
    exact acc a ha)
  refine ⟨⟨b, rs, ws⟩, ?_, ⟨b1, d, h1, r2, w2⟩⟩
  unfold oslIslStmt
  simp only [hb, r1, w1, Option.bind_eq_bind, Option.bind_some]
  rfl

end Pluto
