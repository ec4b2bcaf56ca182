import Verif.Lemmas.DfpClusterRun

/-! The clustered search when all statements have the same number of loops. -/

namespace Pluto

/-- The colour of loop `j` of the component of statement `i`. -/
def Cl.col (n : Nat) (d : Cl) (i j : Nat) : Nat := colourOf d.colour (n * (d.a.scc i).toNat + j)

/-- All statements have all loops, and no component is empty. -/
structure Uni (k : Prog) (a : Auto) : Prop where
  inv : CInv True k a
  full : ∀ st ∈ k.stmts, st.dimOrig = k.nvar
  surj : ∀ s < a.num, ∃ i < k.stmts.length, a.scc i = (s : Int)

theorem Uni.grow {k : Prog} {a a' : Auto} (h : Uni k a) (hg : Grow k a a') : Uni k a' := by
  refine ⟨hg.inv, h.full, ?_⟩
  rw [hg.scc, hg.num]
  exact h.surj

theorem Uni.toNat {k : Prog} {a : Auto} (h : Uni k a) {i : Nat} (hi : i < k.stmts.length) :
    (a.scc i).toNat < a.num ∧ ((a.scc i).toNat : Int) = a.scc i := by
  have := h.inv.range i (by rw [← sk_len h.inv.inv.sk]; exact hi)
  omega

theorem maxDim_fold (s : Int) (n : Int) : ∀ (l : List (Int × Nat)) (m : Int), (∀ x ∈ l, (x.2 : Int) = n) → m ≤ n →
    l.foldl (fun m x => if x.1 = s then max m (x.2 : Int) else m) m = if ∃ x ∈ l, x.1 = s then n else m := by
  intro l
  induction l with
  | nil => intro m _ _; simp
  | cons x l ih =>
    intro m hx hm
    rw [List.foldl_cons]
    have hx0 := hx x List.mem_cons_self
    by_cases e : x.1 = s
    · rw [if_pos e, hx0, max_eq_right hm, ih n (fun y hy => hx y (List.mem_cons_of_mem _ hy)) (le_refl _)]
      simp [e]
    · rw [if_neg e, ih m (fun y hy => hx y (List.mem_cons_of_mem _ hy)) hm]
      have : (∃ y ∈ x :: l, y.1 = s) ↔ ∃ y ∈ l, y.1 = s := by
        rw [List.exists_mem_cons_iff]
        exact ⟨fun h => h.resolve_left e, .inr⟩
      by_cases e2 : ∃ y ∈ l, y.1 = s
      · rw [if_pos e2, if_pos (this.mpr e2)]
      · rw [if_neg e2, if_neg (fun h => e2 (this.mp h))]

theorem Uni.maxDim {k : Prog} {a : Auto} (h : Uni k a) {s : Nat} (hs : s < a.num) : a.maxDim s = (k.nvar : Int) := by
  obtain ⟨i, hi, e⟩ := h.surj s hs
  have hsk := h.inv.inv.sk
  have hi' : i < a.p.stmts.length := by rw [← sk_len hsk]; exact hi
  have hd : ∀ st ∈ a.p.stmts, st.dimOrig = k.nvar := by
    intro st hst
    have : skelStmt st ∈ k.stmts := by rw [← hsk]; exact List.mem_map_of_mem hst
    have := h.full _ this
    exact this
  unfold Auto.maxDim
  rw [maxDim_fold (s : Int) (k.nvar : Int)]
  · rw [if_pos]
    refine ⟨(a.scc i, (a.p.stmts[i]).dimOrig), ?_, e⟩
    rw [List.mem_mapIdx]
    exact ⟨i, hi', rfl⟩
  · intro x hx
    rw [List.mem_mapIdx] at hx
    obtain ⟨j, hj, rfl⟩ := hx
    simp only
    rw [hd _ (List.getElem_mem hj)]
  · omega

theorem Uni.width {k : Prog} {a : Auto} (h : Uni k a) {s : Nat} (hs : s < a.num) : a.width s = k.nvar := by
  unfold Auto.width
  rw [h.maxDim hs]
  omega

theorem Uni.offset {k : Prog} {a : Auto} (h : Uni k a) {s : Nat} (hs : s ≤ a.num) : a.sccOffset s = k.nvar * s := by
  unfold Auto.sccOffset
  induction s with
  | zero => simp
  | succ s ih =>
    rw [List.range_succ, List.map_append, List.sum_append, ih (by omega)]
    simp [h.width (show s < a.num by omega), Nat.mul_succ]

theorem Uni.size {k : Prog} {a : Auto} (h : Uni k a) : a.clSize = k.nvar * a.num := h.offset (le_refl _)

/-- Different loops of a component are adjacent. -/
structure FcgIn (k : Prog) (a : Auto) (f : ClFcg) : Prop where
  size : f.g.n = k.nvar * a.num
  intra : ∀ s < a.num, ∀ j < k.nvar, ∀ j' < k.nvar, j ≠ j' → f.g.adj (k.nvar * s + j) (k.nvar * s + j') = 1

/-- The colours at level `c`: earlier colours are used once in every component. -/
structure CC (k : Prog) (c : Nat) (d : Cl) : Prop where
  uni : Uni k d.a
  coloured : d.coloured + 1 = c
  fcg : FcgIn k d.a d.f
  len : d.colour.length = k.nvar * d.a.num
  le : ∀ i < k.stmts.length, ∀ j < k.nvar, d.col k.nvar i j ≤ c
  inj : ∀ i < k.stmts.length, ∀ j < k.nvar, ∀ j' < k.nvar, d.col k.nvar i j = d.col k.nvar i j' → d.col k.nvar i j ≠ 0 → j = j'
  old : ∀ i < k.stmts.length, ∀ c', 1 ≤ c' → c' < c → ∃ j < k.nvar, d.col k.nvar i j = c'
  cur : ∀ i < k.stmts.length, d.done (d.a.scc i).toNat = true → ∃ j < k.nvar, d.col k.nvar i j = c

/-- A step that leaves colours and components as they are. -/
structure Quiet (k : Prog) (d d' : Cl) : Prop where
  grow : Grow k d.a d'.a
  colour : d'.colour = d.colour
  coloured : d'.coloured = d.coloured
  done : d'.done = d.done
  fcg : Uni k d.a → FcgIn k d.a d.f → FcgIn k d'.a d'.f

theorem Quiet.refl {k : Prog} {d : Cl} (h : CInv True k d.a) : Quiet k d d := ⟨.refl h, rfl, rfl, rfl, fun _ h => h⟩

theorem Quiet.trans {k : Prog} {d e f : Cl} (h1 : Quiet k d e) (h2 : Quiet k e f) : Quiet k d f :=
  ⟨h1.grow.trans h2.grow, h2.colour.trans h1.colour, h2.coloured.trans h1.coloured, h2.done.trans h1.done,
    fun u hf => h2.fcg (u.grow h1.grow) (h1.fcg u hf)⟩

theorem Quiet.col {k : Prog} {d d' : Cl} (h : Quiet k d d') (i j : Nat) : d'.col k.nvar i j = d.col k.nvar i j := by
  unfold Cl.col
  rw [h.colour, h.grow.scc]

theorem CC.quiet {k : Prog} {c : Nat} {d d' : Cl} (h : CC k c d) (q : Quiet k d d') : CC k c d' := by
  refine ⟨h.uni.grow q.grow, ?_, q.fcg h.uni h.fcg, ?_, ?_, ?_, ?_, ?_⟩
  · rw [q.coloured]; exact h.coloured
  · rw [q.colour, q.grow.num]; exact h.len
  · intro i hi j hj
    rw [q.col]; exact h.le i hi j hj
  · intro i hi j hj j' hj'
    rw [q.col, q.col]
    exact h.inj i hi j hj j' hj'
  · intro i hi c' h1 h2
    obtain ⟨j, hj, e⟩ := h.old i hi c' h1 h2
    exact ⟨j, hj, by rw [q.col]; exact e⟩
  · intro i hi hd
    rw [q.done, q.grow.scc] at hd
    obtain ⟨j, hj, e⟩ := h.cur i hi hd
    exact ⟨j, hj, by rw [q.col]; exact e⟩

/-- A step that may give loops colour `c`. -/
structure Ext (k : Prog) (c : Nat) (d d' : Cl) : Prop where
  grow : Grow k d.a d'.a
  keep : ∀ i < k.stmts.length, ∀ j < k.nvar, d'.col k.nvar i j = d.col k.nvar i j ∨ d'.col k.nvar i j = c
  done : ∀ t, d.done t = true → d'.done t = true

theorem Ext.refl {k : Prog} {c : Nat} {d : Cl} (h : CInv True k d.a) : Ext k c d d := ⟨.refl h, fun _ _ _ _ => .inl rfl, fun _ h => h⟩

theorem Ext.trans {k : Prog} {c : Nat} {d e f : Cl} (h1 : Ext k c d e) (h2 : Ext k c e f) : Ext k c d f := by
  refine ⟨h1.grow.trans h2.grow, ?_, fun t h => h2.done t (h1.done t h)⟩
  intro i hi j hj
  rcases h2.keep i hi j hj with e | e
  · rw [e]; exact h1.keep i hi j hj
  · exact .inr e

theorem Quiet.ext {k : Prog} {c : Nat} {d d' : Cl} (h : Quiet k d d') : Ext k c d d' :=
  ⟨h.grow, fun i _ j _ => .inl (h.col i j), fun t ht => by rw [h.done]; exact ht⟩

section
variable {k : Prog} {c : Nat} {d d' : Cl} {s : Nat}

theorem block_inj {n s s' j j' : Nat} (hj : j < n) (hj' : j' < n) (h : n * s + j = n * s' + j') : s = s' ∧ j = j' := by
  have h1 : (n * s + j) / n = (n * s' + j') / n := by rw [h]
  have h2 : (n * s + j) % n = (n * s' + j') % n := by rw [h]
  have hn : 0 < n := by omega
  rw [Nat.mul_add_div hn, Nat.mul_add_div hn, Nat.div_eq_of_lt hj, Nat.div_eq_of_lt hj'] at h1
  rw [Nat.mul_add_mod, Nat.mul_add_mod, Nat.mod_eq_of_lt hj, Nat.mod_eq_of_lt hj'] at h2
  exact ⟨by omega, h2⟩

theorem block_lt {n s m j : Nat} (hs : s < m) (hj : j < n) : n * s + j < n * m := by
  calc n * s + j < n * s + n := by omega
    _ = n * (s + 1) := by rw [Nat.mul_succ]
    _ ≤ n * m := Nat.mul_le_mul_left n hs

/-- Loop `j` of component `s` is given colour `c`. -/
theorem CC.paint (h : CC k c d) (hc : 1 ≤ c) {j : Nat} (hs : s < d.a.num) (hj : j < k.nvar)
    (h0 : colourOf d.colour (k.nvar * s + j) = 0 ∨ colourOf d.colour (k.nvar * s + j) = c)
    (hv : ∀ j' < k.nvar, j' ≠ j → colourOf d.colour (k.nvar * s + j') ≠ c)
    (e : d' = { d with colour := d.colour.set (k.nvar * s + j) c, done := d'.done, hasPar := d'.hasPar })
    (hd1 : ∀ t, d.done t = true → d'.done t = true) (hd2 : ∀ t, d'.done t = true → d.done t = true ∨ t = s) :
    CC k c d' ∧ Ext k c d d' ∧ ∀ i < k.stmts.length, d'.a.scc i = (s : Int) → ∃ j < k.nvar, d'.col k.nvar i j = c := by
  have ea : d'.a = d.a := by rw [e]
  have ef : d'.f = d.f := by rw [e]
  have ec : d'.colour = d.colour.set (k.nvar * s + j) c := by rw [e]
  have hlt : k.nvar * s + j < d.colour.length := by rw [h.len]; exact block_lt hs hj
  have hcol : ∀ i < k.stmts.length, ∀ j' < k.nvar, d'.col k.nvar i j' = if (d.a.scc i).toNat = s ∧ j' = j then c else d.col k.nvar i j' := by
    intro i hi j' hj'
    unfold Cl.col
    rw [ec, ea, colourOf_set _ _ _ _ hlt]
    by_cases e1 : (d.a.scc i).toNat = s ∧ j' = j
    · rw [if_pos e1, if_pos (by rw [e1.1, e1.2])]
    · rw [if_neg e1, if_neg]
      intro e2
      exact e1 (block_inj hj' hj e2)
  refine ⟨⟨?_, ?_, ?_, ?_, ?_, ?_, ?_, ?_⟩, ⟨?_, ?_, hd1⟩, ?_⟩
  · rw [ea]; exact h.uni
  · rw [show d'.coloured = d.coloured by rw [e]]; exact h.coloured
  · rw [ea, ef]; exact h.fcg
  · rw [ec, ea, List.length_set]; exact h.len
  · intro i hi j' hj'
    rw [hcol i hi j' hj']
    split_ifs
    · exact le_refl _
    · exact h.le i hi j' hj'
  · intro i hi j1 hj1 j2 hj2
    rw [hcol i hi j1 hj1, hcol i hi j2 hj2]
    split_ifs with e1 e2 e2
    · intro _ _
      rw [e1.2, e2.2]
    · intro e3 _
      exfalso
      refine hv j2 hj2 (fun e4 => e2 ⟨e1.1, e4⟩) ?_
      rw [← e1.1]
      exact e3.symm
    · intro e3 _
      exfalso
      refine hv j1 hj1 (fun e4 => e1 ⟨e2.1, e4⟩) ?_
      rw [← e2.1]
      exact e3
    · exact h.inj i hi j1 hj1 j2 hj2
  · intro i hi c' g1 g2
    obtain ⟨j', hj', e1⟩ := h.old i hi c' g1 g2
    refine ⟨j', hj', ?_⟩
    rw [hcol i hi j' hj', if_neg, e1]
    rintro ⟨e2, e3⟩
    unfold Cl.col at e1
    rw [e2, e3] at e1
    omega
  · intro i hi hd
    rw [ea] at hd
    rcases hd2 _ hd with h1 | h1
    · obtain ⟨j', hj', e1⟩ := h.cur i hi h1
      refine ⟨j', hj', ?_⟩
      rw [hcol i hi j' hj']
      split_ifs
      · rfl
      · exact e1
    · exact ⟨j, hj, by rw [hcol i hi j hj, if_pos ⟨h1, rfl⟩]⟩
  · rw [ea]; exact .refl h.uni.inv
  · intro i hi j' hj'
    rw [hcol i hi j' hj']
    split_ifs
    · exact .inr rfl
    · exact .inl rfl
  · intro i hi hsc
    have e1 : (d.a.scc i).toNat = s := by
      rw [← ea, hsc]
      rfl
    exact ⟨j, hj, by rw [hcol i hi j hj, if_pos ⟨e1, rfl⟩]⟩

/-- A valid colour is not used in the same component. -/
theorem valid_free {b : Bool} (h : CC k c d) {j : Nat} (hs : s < d.a.num) (hj : j < k.nvar)
    (hv : isValidColour d.f.g d.f.par (k.nvar * s + j) c d.colour b = true) :
    ∀ j' < k.nvar, j' ≠ j → colourOf d.colour (k.nvar * s + j') ≠ c := by
  intro j' hj' hne e
  unfold isValidColour at hv
  rw [List.all_eq_true] at hv
  have := hv (k.nvar * s + j') (by rw [List.mem_range, h.fcg.size]; exact block_lt hs hj')
  have hadj := h.fcg.intra s hs j' hj' j hj hne
  simp [hadj, e] at this

/-- What is known after component `s` was coloured. -/
def Painted (k : Prog) (c s : Nat) (d d' : Cl) : Prop :=
  CC k c d' ∧ Ext k c d d' ∧ ∀ i < k.stmts.length, d'.a.scc i = (s : Int) → ∃ j < k.nvar, d'.col k.nvar i j = c

theorem paintPar_painted (h : CC k c d) (hc : 1 ≤ c) {j : Nat} (hs : s < d.a.num) (hj : j < k.nvar)
    (hf : d.parFree c (k.nvar * s + j) = true) : Painted k c s d (d.paintPar c s (k.nvar * s + j)) := by
  unfold Cl.parFree at hf
  simp only [Bool.and_eq_true, beq_iff_eq] at hf
  refine h.paint hc hs hj (.inl hf.1.1.1) (valid_free h hs hj hf.2) rfl ?_ ?_
  · intro t ht
    show (if t = s then true else d.done t) = true
    split_ifs
    · rfl
    · exact ht
  · intro t ht
    have ht : (if t = s then true else d.done t) = true := ht
    by_cases e : t = s
    · exact .inr e
    · rw [if_neg e] at ht
      exact .inl ht

theorem paintSucc_cc (hc : 1 ≤ c) (v : Nat) (l : List Nat) : ∀ d : Cl, CC k c d → (∀ t ∈ l, t < d.a.num) →
    CC k c (Cl.paintSucc c v l d) ∧ Ext k c d (Cl.paintSucc c v l d) := by
  induction l with
  | nil => intro d h _; exact ⟨h, .refl h.uni.inv⟩
  | cons t ts ih =>
    intro d h hl
    have ht := hl t List.mem_cons_self
    simp only [Cl.paintSucc]
    split
    · rename_i j hj
      have h1 := List.find?_some hj
      have h2 := List.mem_of_find?_eq_some hj
      rw [List.mem_range, h.uni.width ht] at h2
      rw [h.uni.offset (le_of_lt ht)] at h1 ⊢
      simp only [Bool.and_eq_true] at h1
      obtain ⟨p1, p2, _⟩ := paintPar_painted h hc ht h2 h1.1
      obtain ⟨q1, q2⟩ := ih _ p1 (fun t ht => by
        show t < d.a.num
        exact hl t (List.mem_cons_of_mem _ ht))
      exact ⟨q1, p2.trans q2⟩
    · exact ih d h (fun t ht => hl t (List.mem_cons_of_mem _ ht))

theorem colouringDim_some (count : Nat → Nat) (n : Nat) {i : Nat} (h : colouringDim count n = some i) : i < n ∧ 0 < count i := by
  induction n generalizing i with
  | zero => cases h
  | succ n ih =>
    rw [colouringDim] at h
    split at h
    · split_ifs at h with h1
      cases h
      exact ⟨by omega, h1⟩
    · rename_i i0 h0
      obtain ⟨g1, g2⟩ := ih h0
      split_ifs at h with h1
      · cases h
        exact ⟨by omega, by omega⟩
      · cases h
        exact ⟨by omega, g2⟩

theorem convexParSucc_lt (d : Cl) (s t : Nat) (ht : t ∈ d.convexParSucc s) : t < d.a.num := by
  unfold Cl.convexParSucc Cl.convexSucc at ht
  have h1 := (List.mem_filter.mp ht).1
  have h2 := (List.mem_filter.mp h1).1
  have h3 := List.takeWhile_subset _ h2
  rw [List.mem_range'_1] at h3
  omega

theorem greedy_painted (h : CC k c d) (hc : 1 ≤ c) (hs : s < d.a.num) :
    CC k c (d.greedy c s).1 ∧ Ext k c d (d.greedy c s).1 ∧ ((d.greedy c s).2 = true → Painted k c s d (d.greedy c s).1) := by
  have all : ∀ e : Cl, Painted k c s d e → CC k c e ∧ Ext k c d e ∧ (true = true → Painted k c s d e) := fun e he => ⟨he.1, he.2.1, fun _ => he⟩
  unfold Cl.greedy
  simp only [h.uni.offset (le_of_lt hs), h.uni.width hs]
  split
  · exact ⟨h, .refl h.uni.inv, by simp⟩
  · rename_i i0 is hpars
    have hmem : ∀ i, i ∈ i0 :: is → i < k.nvar ∧ d.parFree c (k.nvar * s + i) = true := by
      intro i hi
      rw [← hpars, List.mem_filter, List.mem_range] at hi
      exact hi
    obtain ⟨m1, m2⟩ := hmem i0 List.mem_cons_self
    have p0 := paintPar_painted h hc hs m1 m2
    split_ifs
    · exact all _ p0
    · split
      · exact all _ p0
      · rename_i j hj
        obtain ⟨g1, g2⟩ := colouringDim_some _ _ hj
        have hin : j ∈ i0 :: is := by
          by_contra hn
          rw [hpars, if_neg hn] at g2
          omega
        obtain ⟨m3, m4⟩ := hmem j hin
        have p1 := paintPar_painted h hc hs m3 m4
        obtain ⟨q1, q2⟩ := paintSucc_cc hc (k.nvar * s + j) (d.convexParSucc s) _ p1.1 (fun t ht => convexParSucc_lt d s t ht)
        refine all _ ⟨q1, p1.2.1.trans q2, ?_⟩
        intro i hi hsc
        rw [q2.grow.scc] at hsc
        obtain ⟨j', hj', e⟩ := p1.2.2 i hi hsc
        refine ⟨j', hj', ?_⟩
        rcases q2.keep i hi j' hj' with e1 | e1
        · rw [e1]; exact e
        · exact e1

theorem nextLoop_lt {lp : Bool} {disc : List Nat} {i : Nat} (h : d.nextLoop lp c s disc = some i) : i < d.a.width s := by
  unfold Cl.nextLoop at h
  split_ifs at h
  · split at h
    · cases h
    · rename_i i0 is hcol
      have hmem : ∀ i, i ∈ i0 :: is → i < d.a.width s := by
        intro i hi
        rw [← hcol] at hi
        unfold Cl.colourable at hi
        exact List.mem_range.mp (List.mem_filter.mp hi).1
      simp only at h
      split_ifs at h
      · cases h
        exact hmem _ List.mem_cons_self
      · split at h
        · cases h
          exact hmem _ List.mem_cons_self
        · simp only [Option.some.injEq] at h
          rename_i j _
          cases e : (i0 :: is).find? (fun i => !d.f.g.isAdjacent (d.a.sccOffset s + i) (d.a.sccOffset (d.minConvex s) + j)) with
          | none =>
            rw [e] at h
            rw [← h]
            exact hmem _ List.mem_cons_self
          | some x =>
            rw [e] at h
            rw [← h]
            exact hmem _ (List.mem_of_find?_eq_some e)
  · exact List.mem_range.mp (List.mem_of_find?_eq_some h)

theorem tryLoops_painted (o : ClOpts) (h : CC k c d) (hc : 1 ≤ c) (hs : s < d.a.num) (n : Nat) : ∀ disc : List Nat,
    CC k c (Cl.tryLoops o c s n disc d).1 ∧ Ext k c d (Cl.tryLoops o c s n disc d).1 ∧
      ((Cl.tryLoops o c s n disc d).2 = true → Painted k c s d (Cl.tryLoops o c s n disc d).1) := by
  have no : CC k c (d, false).1 ∧ Ext k c d (d, false).1 ∧ ((d, false).2 = true → Painted k c s d (d, false).1) :=
    ⟨h, .refl h.uni.inv, by simp⟩
  induction n with
  | zero => intro disc; exact no
  | succ n ih =>
    intro disc
    rw [Cl.tryLoops]
    split
    · exact no
    · rename_i i hi
      have hlt := nextLoop_lt hi
      rw [h.uni.width hs] at hlt
      rw [h.uni.offset (le_of_lt hs)]
      dsimp only
      split_ifs with h1 h2 h3 h4
      · exact ih _
      · exact ih _
      · exact ih _
      · have p : Painted k c s d { d with colour := d.colour.set (k.nvar * s + i) c } := by
          refine h.paint hc hs hlt ?_ (valid_free h hs hlt h3) rfl (fun _ h => h) (fun _ h => .inl h)
          simp only [Bool.and_eq_true, decide_eq_true_eq, bne_iff_ne, ne_eq, not_and, not_not] at h1
          by_cases e : colourOf d.colour (k.nvar * s + i) = 0
          · exact .inl e
          · exact .inr (h1 (by omega))
        exact ⟨p.1, p.2.1, fun _ => p⟩
      · exact ih _

end

section
variable {k : Prog} {L : Libs} {o : ClOpts} {fcgOf : ClBuild} {fuse : Fuse} {d d' : Cl} {c s : Nat}
  (hE : EmptyOracle L.isEmpty) (hk : SkelOK k)

theorem clUpdateFcg_quiet {a : Auto} (hs : s ≤ a.num) (hg : Grow k d.a a) (h : Cl.updateFcg o fuse s { d with a := a } = some d') : Quiet k d d' := by
  obtain ⟨e, hf⟩ := clUpdateFcg_spec h
  refine ⟨by rw [e]; exact hg, by rw [e], by rw [e], by rw [e], ?_⟩
  intro u hin
  have u' := u.grow hg
  have hin' : FcgIn k a d.f := by
    refine ⟨by rw [hg.num]; exact hin.size, ?_⟩
    rw [hg.num]
    exact hin.intra
  have ea : d'.a = a := by rw [e]
  rw [ea]
  rcases hf with hf | hf
  · rw [hf]; exact hin'
  · rw [hf]
    refine ⟨hin'.size, ?_⟩
    intro t ht j hj j' hj' hne
    simp only [clearAcross, u'.offset hs]
    rw [if_neg, hin'.intra t ht j hj j' hj' hne]
    rintro ⟨_, _, h1 | h1⟩
    · by_cases e1 : t < s
      · have := block_lt e1 hj'
        omega
      · have : k.nvar * s ≤ k.nvar * t := Nat.mul_le_mul_left _ (by omega)
        omega
    · by_cases e1 : t < s
      · have := block_lt e1 hj
        omega
      · have : k.nvar * s ≤ k.nvar * t := Nat.mul_le_mul_left _ (by omega)
        omega

theorem quiet_a {a : Auto} (hg : Grow k d.a a) : Quiet k d { d with a := a } := by
  refine ⟨hg, rfl, rfl, rfl, fun _ hin => ⟨?_, ?_⟩⟩
  · show d.f.g.n = k.nvar * a.num
    rw [hg.num]; exact hin.size
  · show ∀ s < a.num, _
    rw [hg.num]; exact hin.intra

include hE hk

theorem clDistribute_quiet (hs : s ≤ d.a.num) (hc : CInv True k d.a) (h : Cl.distribute L.isEmpty o fuse s d = some d') : Quiet k d d' := by
  unfold Cl.distribute at h
  split_ifs at h
  · rw [Option.bind_eq_bind, Option.bind_eq_some_iff] at h
    obtain ⟨d1, h1, h⟩ := h
    rw [Option.bind_eq_bind, Option.bind_eq_some_iff] at h
    obtain ⟨⟨p2, n⟩, h2, h⟩ := h
    simp only [Option.pure_def, Option.some.injEq] at h
    have q1 := clUpdateFcg_quiet (d := d) (a := { d.a with p := addScalarBetween d.a s }) hs (scalar_plain hk hc s) h1
    have e1 := (clUpdateFcg_spec h1).1
    rw [e1] at h2
    have g := scalar_grow hE hk hc (fun i => if d.a.scc i < (s : Int) then 0 else 1) (by
      intro dd hd
      have := hc.mono trivial dd hd
      split_ifs <;> omega) h2
    have ea : d1.a = { d.a with p := d1.a.p } := by rw [e1]
    subst h
    refine ⟨by rw [ea]; exact g, q1.colour, q1.coloured, q1.done, fun u hin => ?_⟩
    have := q1.fcg u hin
    exact ⟨this.size, this.intra⟩
  · simp only [Option.some.injEq] at h
    rw [← h]; exact .refl hc

theorem separate_quiet {t : Nat} (hs : s ≤ d.a.num) (hc : CInv True k d.a) (h : Cl.separate L.isEmpty o fuse t s d = some d') : Quiet k d d' := by
  unfold Cl.separate at h
  split_ifs at h
  · rw [Option.bind_eq_bind, Option.bind_eq_some_iff] at h
    obtain ⟨⟨a1, n⟩, h1, h2⟩ := h
    have g := cutBetween_grow hE hk hc h1
    exact clUpdateFcg_quiet (by rw [g.num]; exact hs) g h2
  · simp only [Option.some.injEq] at h
    rw [← h]
    exact quiet_a (scalar_plain hk hc s)
  · simp only [Option.some.injEq] at h
    rw [← h]; exact .refl hc

theorem typedCut_quiet {pc : Bool} {prev : Option Nat} (hs : s ≤ d.a.num) (hc : CInv True k d.a)
    (h : Cl.typedCut L.isEmpty o fuse pc prev s d = some d') : Quiet k d d' := by
  unfold Cl.typedCut at h
  split at h
  · simp only [Option.some.injEq] at h
    rw [← h]; exact .refl hc
  · split_ifs at h
    · exact separate_quiet hE hk hs hc h
    · simp only [Option.some.injEq] at h
      rw [← h]; exact .refl hc

theorem clCutIfNoFuse_quiet (hc : CInv True k d.a) (h : Cl.cutIfNoFuse L.isEmpty fuse d = some d') : Quiet k d d' := by
  obtain ⟨h1, h2⟩ := clCutIfNoFuse_step hE hk hc h
  rw [h2]
  exact quiet_a h1.grow

theorem clCutAndUpdate_quiet {prev : Option Nat} (hs : s ≤ d.a.num) (hc : CInv True k d.a)
    (h : Cl.cutAndUpdate L.isEmpty o fuse prev s d = some d') : Quiet k d d' := by
  unfold Cl.cutAndUpdate at h
  split_ifs at h
  · rw [Option.bind_eq_bind, Option.bind_eq_some_iff] at h
    obtain ⟨⟨a1, n⟩, h1, h⟩ := h
    exact clUpdateFcg_quiet (Nat.zero_le _) (cutAll_grow hE hk hc h1) h
  · split at h
    · simp only [Option.bind_eq_bind, Option.bind_eq_some_iff] at h
      obtain ⟨⟨a1, n⟩, h1, h⟩ := h
      have g := cutBetween_grow hE hk hc h1
      exact clUpdateFcg_quiet (by rw [g.num]; exact hs) g h
    · exact clUpdateFcg_quiet (d := d) hs (.refl hc) h

theorem clColourScc_painted (h0 : CC k c d) (hc : 1 ≤ c) (hcn : c ≤ k.nvar) (hs : s < d.a.num) {ok : Bool}
    (h : Cl.colourScc L.isEmpty o fuse c s d = some (d', ok)) :
    CC k c d' ∧ Ext k c d d' ∧ (ok = true → Painted k c s d d') := by
  have hm := h0.uni.maxDim hs
  have hcol := h0.coloured
  unfold Cl.colourScc at h
  rw [if_neg (by rw [hm]; omega), if_neg (by rw [hm]; omega)] at h
  simp only [Option.bind_eq_bind] at h
  split_ifs at h with h1 h2
  · rw [Option.some.injEq] at h
    have := greedy_painted h0 hc hs
    rw [h] at this
    exact this
  · obtain ⟨a1, h1, h2⟩ := Option.bind_eq_some_iff.mp h
    obtain ⟨d2, h3, h4⟩ := Option.bind_eq_some_iff.mp h2
    have g := cutFromPred_grow hE hk _ _ _ _ h0.uni.inv h1
    have q := clUpdateFcg_quiet (d := d) (by rw [g.num]; exact le_of_lt hs) g h3
    simp only [Option.pure_def, Option.some.injEq] at h4
    have := greedy_painted (h0.quiet q) hc (by rw [q.grow.num]; exact hs)
    rw [h4] at this
    refine ⟨this.1, q.ext.trans this.2.1, fun hok => ?_⟩
    obtain ⟨p1, p2, p3⟩ := this.2.2 hok
    exact ⟨p1, q.ext.trans p2, p3⟩
  · rw [Option.some.injEq] at h
    have := tryLoops_painted o h0 hc hs (d.a.width s) []
    rw [h] at this
    exact this

end

end Pluto
