import Verif.Lemmas.AutoAll

/-! C10, C11, C15, C41: the automatic transformation (`autoTransform` is `pluto_auto_transform`). `LexBefore`,
`Prog.timestamp`, `Prog.InputOK`, the oracles: Verif/Spec. -/

namespace Pluto

/-- C10 (without diamond tiling). If the automatic transformation reports success, then for every
dependence of the input except read-after-read ones, and every dependent pair of instances, the
timestamp of the source under the computed schedules comes lexicographically before that of the
target; whatever points of its systems the ILP solver returned, whatever the null space routine
returned, for all options and fusion heuristics and any number of loop iterations. All schedules have
one row per hyperplane, and the right number of columns.
Missing for the full C10: `pluto_diamond_tile` (`--nodiamond-tile` assumed) and `--dfp`. -/
theorem C10_legal_partial (o : AutoOpts) (L : Libs) (hE : EmptyOracle L.isEmpty) (hL : FeasibleOracle L.solve)
    (fuel : Nat) (d0 : DfsState) (p0 p : Prog) (hp : p0.InputOK)
    (h : autoTransform o L noDiamond fuel d0 p0 = some (.success p)) :
    (∀ d ∈ p0.deps, d.rar = false → ∀ s t q, p0.Inst d s t q →
      LexBefore (p.timestamp d.src s q) (p.timestamp d.dest t q)) ∧
    (p0.stmts ≠ [] → ∀ st ∈ p.stmts, st.trans.length = p.hProps.length ∧
      ∀ r ∈ st.trans, r.length = st.dim + p0.npar + 1) ∧
    List.Forall₂ (StmtRestored p0.npar) p0.stmts p.stmts ∧ List.Forall₂ DepRestored p0.deps p.deps :=
  auto_legal noDiamond o L hE hL fuel d0 p0 p hp noDiamond_ok h

/-- C11 (without diamond tiling). If the automatic transformation reports failure, the hyperplanes and the schedule and
hyperplane types of every statement are what they were before the call; dimensions, loops, domains
and dependences are those of the input, too. -/
theorem C11_failure_restores (o : AutoOpts) (L : Libs) (hE : EmptyOracle L.isEmpty) (hL : FeasibleOracle L.solve)
    (fuel : Nat) (d0 : DfsState) (p0 p : Prog) (hp : p0.InputOK)
    (h : autoTransform o L noDiamond fuel d0 p0 = some (.failed p)) :
    p.hProps = p0.hProps ∧ p.stmts.map (fun st => (st.trans, st.hypTypes)) = p0.stmts.map (fun st => (st.trans, st.hypTypes)) ∧
    List.Forall₂ (StmtRestored p0.npar) p0.stmts p.stmts ∧ List.Forall₂ DepRestored p0.deps p.deps :=
  auto_restores noDiamond o L hE hL fuel d0 p0 p hp noDiamond_ok h

/-- C11. A program with a dependence no schedule can respect (here: of an instance on itself) is never
reported as successfully transformed. -/
theorem C11_no_false_success (o : AutoOpts) (L : Libs) (hE : EmptyOracle L.isEmpty) (hL : FeasibleOracle L.solve)
    (fuel : Nat) (d0 : DfsState) (p0 : Prog) (hp : p0.InputOK) (d : Dep) (hd : d ∈ p0.deps) (hr : d.rar = false)
    (hself : d.src = d.dest) (s q : List Int) (hi : p0.Inst d s s q) (p : Prog) :
    autoTransform o L noDiamond fuel d0 p0 ≠ some (.success p) := by
  intro h
  obtain ⟨l, x, y, h1, h2, h3, _⟩ := (C10_legal_partial o L hE hL fuel d0 p0 p hp h).1 d hd hr s s q hi
  rw [hself, h2, Option.some.injEq] at h1
  omega

/-- C41. `normalize_domains` on a program without schedules: every statement gets `nvar` dimensions,
its own loops first and the added ones marked as not original; the instances of the statement are the
points of the new domain with zeros in the added dimensions, and likewise for dependences.
`denormalize_domains` on what the search made of it (new schedules and satisfaction data only)
restores dimensions, loops, the points of the domains and the dependence polyhedra; every schedule
keeps its rows, and if the coefficients of added dimensions in a row are zero then its value at an
original iteration is the value of the padded row whatever values `z` the added dimensions have. -/
theorem C41_pad_unpad (p0 : Prog) (hp : p0.InputOK) (hs : ∀ st ∈ p0.stmts, st.trans = [] ∧ st.hypTypes = [])
    (hd : ∀ d ∈ p0.deps, d.satisfied = false) :
    ∃ p1, normalizeDomains p0 = some p1 ∧
      List.Forall₂ (fun st st1 : Stmt => st1.dim = p0.nvar ∧ st1.dimOrig = st.dimOrig ∧
        (∀ j < p0.nvar, st1.isOrig[j]? = some (decide (j < st.dim))) ∧
        ∀ x q : List Int, x.length = st.dim → q.length = p0.npar →
          (st1.domain.Sat (x ++ List.replicate (p0.nvar - st.dim) 0 ++ q) ↔ st.domain.Sat (x ++ q)))
        p0.stmts p1.stmts ∧
      List.Forall₂ (fun d d1 : Dep => d1.src = d.src ∧ d1.dest = d.dest ∧ d1.rar = d.rar ∧
        ∀ s t q : List Int, s.length = p0.dim d.src → t.length = p0.dim d.dest → q.length = p0.npar →
          (d1.dpoly.Sat ((s ++ List.replicate (p0.nvar - s.length) 0) ++ (t ++ List.replicate (p0.nvar - t.length) 0) ++ q) ↔
            d.dpoly.Sat (s ++ t ++ q))) p0.deps p1.deps ∧
      ∀ p', SameShape p1 p' → (∀ st ∈ p'.stmts, ∀ r ∈ st.trans, r.length = p0.nvar + p0.npar + 1) →
        ∃ p2, denormalizeDomains p' = some p2 ∧ p2.hProps = p'.hProps ∧
          List.Forall₂ (StmtRestored p0.npar) p0.stmts p2.stmts ∧ List.Forall₂ DepRestored p0.deps p2.deps ∧
          List.Forall₂ (fun st' st2 : Stmt => st2.trans.length = st'.trans.length ∧ st2.hypTypes = st'.hypTypes ∧
            ∀ (l : Nat) (r r2 : List Int), st'.trans[l]? = some r → st2.trans[l]? = some r2 →
              (∀ j, st2.dim ≤ j → j < p0.nvar → coef r j = 0) →
              ∀ x z q : List Int, x.length = st2.dim → x.length + z.length = p0.nvar → q.length = p0.npar →
                aff r2 (x ++ q) = aff r (x ++ z ++ q)) p'.stmts p2.stmts := by
  have hstr : stripped p0 = p0 := by
    have e1 : p0.stmts.map (fun st => { st with trans := [], hypTypes := [] }) = p0.stmts := by
      conv_rhs => rw [← List.map_id p0.stmts]
      apply List.map_congr_left
      intro st hst
      obtain ⟨h1, h2⟩ := hs st hst
      cases st
      simp_all
    have e2 : p0.deps.map (fun d => { d with satisfied := false }) = p0.deps := by
      conv_rhs => rw [← List.map_id p0.deps]
      apply List.map_congr_left
      intro d hdm
      have := hd d hdm
      cases d
      simp_all
    unfold stripped
    rw [e1, e2]
  obtain ⟨p1, n1, n2, n3, n4⟩ := normalize_spec hp
  rw [hstr] at n1
  refine ⟨p1, n1, ?_, ?_, ?_⟩
  · rw [List.forall₂_iff_get]
    refine ⟨n2.len.symm, fun i h1 h2 => ?_⟩
    simp only [List.get_eq_getElem]
    obtain ⟨st, g1, g2⟩ := n2.get (List.getElem?_eq_getElem h1)
    rw [List.getElem?_eq_getElem h2, Option.some.injEq] at g1
    rw [g1]
    obtain ⟨_, _, i3, i4, i5⟩ := hp.stmts _ (List.getElem_mem h1)
    refine ⟨g2.dim, g2.orig, ?_, ?_⟩
    · intro j hj
      rw [g2.isOrig]
      by_cases hc : j < p0.stmts[i].dim
      · rw [List.getElem?_append_left (by simpa using hc), List.getElem?_replicate, if_pos hc]
        simp [hc]
      · rw [List.getElem?_append_right (by simpa using hc), List.getElem?_replicate,
          if_pos (by simp; omega)]
        simp [hc]
    · intro x q hx _
      refine padDom_sat g2.dom g2.ge ?_ hx
      intro r hr
      rw [i4.2 r hr, i5]
      omega
  · have hf := List.forall₂_iff_get.mp n2.deps
    rw [List.forall₂_iff_get]
    refine ⟨hf.1, fun i h1 h2 => ?_⟩
    have hpd := hf.2 i h1 h2
    have hm := hp.deps _ (List.getElem_mem h1)
    simp only [List.get_eq_getElem] at hpd ⊢
    refine ⟨hpd.src, hpd.dest, hpd.rar, ?_⟩
    intro s t q hsl htl _
    rw [hpd.poly]
    have := sat_padCst (a := p0.nvar) (b := p0.nvar) (c := p0.deps[i].dpoly) (q := q) hsl htl (by
      intro r hr
      rw [hm.2.2.1.1.2 r hr, hm.2.2.1.2]
      omega)
    rw [hsl, htl]
    exact this
  · intro p' hsh hrow
    have hpad : PadRel p0 (fun _ => p0.nvar) p' := n2.skel (sameShape_skel hsh)
    obtain ⟨p2, g1, g2, g3, g4⟩ := denormalize_spec hp hpad hrow
    obtain ⟨r1, r2⟩ := restored_all hp g2
    refine ⟨p2, g1, g3, r1, r2, ?_⟩
    rw [List.forall₂_iff_get]
    refine ⟨by rw [hpad.len, g2.len], fun i h1 h2 => ?_⟩
    have e := g4 i
    rw [List.getElem?_eq_getElem h1, List.getElem?_eq_getElem h2, Option.map_some, Option.map_some,
      Option.some.injEq] at e
    simp only [sched, Prod.mk.injEq] at e
    have hdim : (p2.stmts[i]).dim = p0.dim i := by
      rw [← Prog.dim_of (List.getElem?_eq_getElem h2), g2.dim (by rw [← g2.len]; exact h2)]
    simp only [List.get_eq_getElem]
    rw [e.1, hdim]
    refine ⟨by simp, e.2, ?_⟩
    intro l r r2 hr hr2 hz x z q hx hxz hq
    rw [List.getElem?_map, hr, Option.map_some, Option.some.injEq] at hr2
    rw [← hr2]
    refine aff_cutRow hx (by omega) ?_ hz
    rw [hrow _ (List.getElem_mem h1) r (List.mem_of_getElem? hr), hq]

/-- C15. `cut_all_sccs` after the components have been computed, on a graph that has an edge for every
dependence not satisfied yet: a new scalar level is added unless there is only one component; on it no
such dependence has a negative component and every one between different components (the source
cannot be reached back from the target) has a positive one and is marked satisfied; outer levels and
the other marks do not change. -/
theorem C15_cut_all {isEmpty : Cst → Bool} (hE : EmptyOracle isEmpty) (a0 a a' : Auto) (n : Nat)
    (hp : a0.p.Padded)
    (hd : ∀ d ∈ a0.p.deps, d.src < a0.p.stmts.length ∧ d.dest < a0.p.stmts.length ∧ a0.p.DepFits d)
    (hg : ∀ d ∈ a0.p.deps, d.rar = false → d.satisfied = false → a0.g.Edge d.src d.dest)
    (hs : a0.computeScc = some a) (h : a.cutAll isEmpty = some (a', n)) :
    (∀ d ∈ a0.p.deps, d.rar = false → d.satisfied = false → ∀ s t q, a0.p.Inst d s t q →
      0 ≤ a'.p.comp d a0.p.hProps.length s t q ∧
      (¬ a0.g.Reach d.dest d.src → a'.p.hProps.length = a0.p.hProps.length + 1 ∧
        1 ≤ a'.p.comp d a0.p.hProps.length s t q)) ∧
    (∀ d : Dep, ∀ l < a0.p.hProps.length, ∀ s t q, a'.p.comp d l s t q = a0.p.comp d l s t q) ∧
    List.Forall₂ (fun d d' : Dep => d' = { d with satisfied := d'.satisfied, satLevel := d'.satLevel } ∧
      (d.satisfied = true → d'.satisfied = true) ∧
      (d.rar = false → d.satisfied = false → (∃ s t q, a0.p.Inst d s t q) →
        (d'.satisfied = true ↔ ¬ a0.g.Reach d.dest d.src))) a0.p.deps a'.p.deps ∧
    (∀ (i : Nat) (st : Stmt), a'.p.stmts[i]? = some st → st.trans.length = a'.p.hProps.length) := by
  obtain ⟨e1, e2, s, hsc, e3, e4⟩ := computeScc_eq hs
  obtain ⟨s', hs', c1, c2, c3⟩ := C14_scc a0.g a0.d
  rw [hsc] at hs'
  cases hs'
  have hmono : ∀ d ∈ a0.p.deps, d.rar = false → d.satisfied = false →
      a.scc d.src ≤ a.scc d.dest ∧ (¬ a0.g.Reach d.dest d.src ↔ a.scc d.src < a.scc d.dest) := by
    intro d hdm hr hu
    have he := hg d hdm hr hu
    have hreach : a0.g.Reach d.src d.dest := .tail .refl he
    rw [← e3]
    have hle := C14_order a0.g a0.d s hsc _ _ hreach
    refine ⟨hle, ?_⟩
    have := c1 d.src d.dest he.1 he.2.1
    constructor
    · intro hn
      have hne : s.scc d.src ≠ s.scc d.dest := fun hc => hn (this.mp hc).2
      omega
    · intro hlt hrch
      have := this.mpr ⟨hreach, hrch⟩
      omega
  unfold Auto.cutAll at h
  split_ifs at h with hnum
  · simp only [Option.some.injEq, Prod.mk.injEq] at h
    have ha : a'.p = a0.p := by rw [← h.1]; exact e1
    have hone : ∀ d ∈ a0.p.deps, d.rar = false → d.satisfied = false → ¬ (a.scc d.src < a.scc d.dest) := by
      intro d hdm hr hu
      have he := hg d hdm hr hu
      have b1 := (c3 (s.scc d.src)).mpr ⟨_, he.1, rfl⟩
      have b2 := (c3 (s.scc d.dest)).mpr ⟨_, he.2.1, rfl⟩
      rw [e3, e4, hnum] at b1 b2
      simp only [Nat.cast_one] at b1 b2
      omega
    rw [ha]
    refine ⟨?_, fun _ _ _ _ _ _ => rfl, ?_, ?_⟩
    · intro d hdm hr hu s t q hi
      refine ⟨?_, fun hn => absurd ((hmono d hdm hr hu).2.mp hn) (hone d hdm hr hu)⟩
      have hrow : ∀ i, a0.p.row i a0.p.hProps.length = [] := by
        intro i
        unfold Prog.row
        cases hst : a0.p.stmts[i]? with
        | none => rfl
        | some st =>
          simp only [Option.bind_some]
          rw [List.getElem?_eq_none (by rw [(hp st (List.mem_of_getElem? hst)).2.2.2.2])]
          rfl
      unfold Prog.comp Prog.phi
      rw [hrow, hrow]
      simp [aff, dot]
    · refine List.forall₂_same.mpr (fun d hdm => ⟨rfl, id, fun hr hu _ => ?_⟩)
      rw [hu]
      simp only [Bool.false_eq_true, false_iff]
      exact fun hn => hone d hdm hr hu ((hmono d hdm hr hu).2.mp hn)
    · intro i st hst
      exact (hp st (List.mem_of_getElem? hst)).2.2.2.2
  · rw [Option.bind_eq_bind, Option.bind_eq_some_iff] at h
    obtain ⟨⟨p2, m⟩, h1, h⟩ := h
    simp only [Option.pure_def, Option.some.injEq, Prod.mk.injEq] at h
    rw [e1] at h1
    obtain ⟨b1, b2, b3, b4, _⟩ := scalar_cut hE hp hd (fun i => [a.scc i]) a.scc (fun i _ => rfl) h1
    have ha : a'.p = p2 := by rw [← h.1]
    rw [ha]
    refine ⟨?_, b3, ?_, ?_⟩
    · intro d hdm hr hu s t q hi
      rw [b2 d hdm s t q hi]
      obtain ⟨m1, m2⟩ := hmono d hdm hr hu
      refine ⟨by omega, fun hn => ⟨?_, ?_⟩⟩
      · rw [b1]; simp [addScalarRows]
      · have := m2.mp hn
        omega
    · rw [List.forall₂_iff_get] at b4 ⊢
      refine ⟨b4.1, fun j j1 j2 => ?_⟩
      obtain ⟨a1, a2⟩ := b4.2 j j1 j2
      refine ⟨a1, fun hx => a2.mpr (.inl hx), ?_⟩
      intro hr hu hex
      rw [a2, (hmono _ (List.get_mem _ _) hr hu).2, hu]
      obtain ⟨s, t, q, hi⟩ := hex
      constructor
      · rintro (hx | hx)
        · cases hx
        · have := hx s t q hi
          omega
      · intro hlt
        exact .inr (fun s t q _ => by omega)
    · intro i st hst
      rw [b1] at hst
      have e : (addScalarRows a0.p (fun i => [a.scc i])).stmts[i]? = some st := hst
      simp only [addScalarRows, List.getElem?_mapIdx] at e
      obtain ⟨st0, g1, g2⟩ := Option.map_eq_some_iff.mp e
      rw [← g2, b1]
      simp [addScalarRows, (hp st0 (List.mem_of_getElem? g1)).2.2.2.2]

/-- C15 for `cut_between_sccs` and `cut_scc_dim_based`, the cuts of the other fusion heuristics: if some
dependence gets satisfied (`1 ≤ n`), a scalar level is added on which no dependence that was not
satisfied has a negative component; otherwise schedules and levels are as before. `n` is the number of
dependences (without read-after-read) newly marked, and those marked are strictly satisfied by the new
level. -/
theorem C15_cut_useful {isEmpty : Cst → Bool} (hE : EmptyOracle isEmpty) (a0 a a' : Auto) (n : Nat)
    (hp : a0.p.Padded)
    (hd : ∀ d ∈ a0.p.deps, d.src < a0.p.stmts.length ∧ d.dest < a0.p.stmts.length ∧ a0.p.DepFits d)
    (hn : a0.g.n = a0.p.stmts.length)
    (hg : ∀ d ∈ a0.p.deps, d.rar = false → d.satisfied = false → a0.g.Edge d.src d.dest)
    (hs : a0.computeScc = some a)
    (h : (∃ c1 c2, a.cutBetween isEmpty c1 c2 = some (a', n)) ∨ a.cutDimBased isEmpty = some (a', n)) :
    (n = 0 → a'.p.stmts = a0.p.stmts ∧ a'.p.hProps = a0.p.hProps) ∧
    (1 ≤ n → a'.p.hProps.length = a0.p.hProps.length + 1 ∧
      ∀ d ∈ a0.p.deps, d.rar = false → d.satisfied = false → ∀ s t q, a0.p.Inst d s t q →
        0 ≤ a'.p.comp d a0.p.hProps.length s t q) ∧
    (∀ d : Dep, ∀ l < a0.p.hProps.length, ∀ s t q, a'.p.comp d l s t q = a0.p.comp d l s t q) ∧
    (∀ x ∈ a0.p.deps.zip a'.p.deps, x.1.rar = false → (x.1.satisfied = true → x.2.satisfied = true) ∧
      (x.1.satisfied = false → x.2.satisfied = true → 1 ≤ n ∧
        ∀ s t q, a0.p.Inst x.1 s t q → 1 ≤ a'.p.comp x.1 a0.p.hProps.length s t q)) ∧
    n = ((a0.p.deps.zip a'.p.deps).filter (fun x => !x.1.satisfied && x.2.satisfied && !x.1.rar)).length := by
  obtain ⟨e1, e2, f1, f2⟩ := scc_facts hs
  have fin : ∀ (f : Nat → List Int) (c : Nat → Int), (∀ i < a0.p.stmts.length, f i = [c i]) →
      (∀ d ∈ a0.p.deps, d.rar = false → d.satisfied = false → c d.src ≤ c d.dest) →
      a.keepIfUseful isEmpty (addScalarRows a.p f) = some (a', n) →
      (n = 0 → a'.p.stmts = a0.p.stmts ∧ a'.p.hProps = a0.p.hProps) ∧
      (1 ≤ n → a'.p.hProps.length = a0.p.hProps.length + 1 ∧
        ∀ d ∈ a0.p.deps, d.rar = false → d.satisfied = false → ∀ s t q, a0.p.Inst d s t q →
          0 ≤ a'.p.comp d a0.p.hProps.length s t q) ∧
      (∀ d : Dep, ∀ l < a0.p.hProps.length, ∀ s t q, a'.p.comp d l s t q = a0.p.comp d l s t q) ∧
      (∀ x ∈ a0.p.deps.zip a'.p.deps, x.1.rar = false → (x.1.satisfied = true → x.2.satisfied = true) ∧
        (x.1.satisfied = false → x.2.satisfied = true → 1 ≤ n ∧
          ∀ s t q, a0.p.Inst x.1 s t q → 1 ≤ a'.p.comp x.1 a0.p.hProps.length s t q)) ∧
      n = ((a0.p.deps.zip a'.p.deps).filter (fun x => !x.1.satisfied && x.2.satisfied && !x.1.rar)).length := by
    intro f c hf hm hk
    obtain ⟨b1, b2, b3, b4, b5⟩ := keep_cut hE (by rw [e1]; exact hp) (by rw [e1]; exact hd) f c (by rw [e1]; exact hf) hk
    rw [e1] at b1 b2 b3 b4 b5
    refine ⟨fun h0 => by rw [b1 h0]; exact ⟨rfl, rfl⟩, fun h1 => ⟨?_, ?_⟩, b3, ?_, b5⟩
    · rw [(b2 h1).1]; simp [addScalarRows]
    · intro d hdm hr hu s t q hi
      rw [(b2 h1).2 d hdm s t q hi]
      have := hm d hdm hr hu
      omega
    · intro x hx hr
      have hx' : ∃ j, ∃ (j1 : j < a0.p.deps.length) (j2 : j < a'.p.deps.length), x = (a0.p.deps[j], a'.p.deps[j]) := by
        obtain ⟨j, hj, rfl⟩ := List.getElem_of_mem hx
        rw [List.length_zip] at hj
        exact ⟨j, by omega, by omega, by rw [List.getElem_zip]⟩
      obtain ⟨j, j1, j2, rfl⟩ := hx'
      obtain ⟨_, a2⟩ := (List.forall₂_iff_get.mp b4).2 j j1 j2
      simp only [List.get_eq_getElem] at a2
      refine ⟨fun hx => a2.mpr (.inl hx), fun hu hsat => ?_⟩
      have h1 : 1 ≤ n := by
        rw [b5]
        refine List.length_pos_of_mem (a := (a0.p.deps[j], a'.p.deps[j])) (List.mem_filter.mpr ⟨hx, ?_⟩)
        simp only at hu hsat hr
        simp [hu, hsat, hr]
      refine ⟨h1, fun s t q hi => ?_⟩
      rw [(b2 h1).2 _ (List.getElem_mem j1) s t q hi]
      rcases a2.mp hsat with hx | hx
      · simp only at hu
        rw [hu] at hx; cases hx
      · exact hx s t q hi
  have triv : a' = a → n = 0 → (n = 0 → a'.p.stmts = a0.p.stmts ∧ a'.p.hProps = a0.p.hProps) ∧
      (1 ≤ n → a'.p.hProps.length = a0.p.hProps.length + 1 ∧
        ∀ d ∈ a0.p.deps, d.rar = false → d.satisfied = false → ∀ s t q, a0.p.Inst d s t q →
          0 ≤ a'.p.comp d a0.p.hProps.length s t q) ∧
      (∀ d : Dep, ∀ l < a0.p.hProps.length, ∀ s t q, a'.p.comp d l s t q = a0.p.comp d l s t q) ∧
      (∀ x ∈ a0.p.deps.zip a'.p.deps, x.1.rar = false → (x.1.satisfied = true → x.2.satisfied = true) ∧
        (x.1.satisfied = false → x.2.satisfied = true → 1 ≤ n ∧
          ∀ s t q, a0.p.Inst x.1 s t q → 1 ≤ a'.p.comp x.1 a0.p.hProps.length s t q)) ∧
      n = ((a0.p.deps.zip a'.p.deps).filter (fun x => !x.1.satisfied && x.2.satisfied && !x.1.rar)).length := by
    intro h1 h0
    have ha : a'.p = a0.p := by rw [h1, e1]
    have hz : ∀ x ∈ a0.p.deps.zip a0.p.deps, x.1 = x.2 := by
      intro x hx
      obtain ⟨j, hj, rfl⟩ := List.getElem_of_mem hx
      rw [List.getElem_zip]
    rw [ha]
    refine ⟨fun _ => ⟨rfl, rfl⟩, by omega, fun _ _ _ _ _ _ => rfl, ?_, ?_⟩
    · intro x hx _
      rw [← hz x hx]
      exact ⟨id, fun g1 g2 => by rw [g1] at g2; cases g2⟩
    · rw [h0]
      symm
      rw [List.length_eq_zero_iff, List.filter_eq_nil_iff]
      intro x hx
      rw [← hz x hx]
      cases x.1.satisfied <;> simp
  have hmono : ∀ d ∈ a0.p.deps, d.rar = false → d.satisfied = false → a.scc d.src ≤ a.scc d.dest :=
    fun d hdm hr hu => f2 _ _ (hg d hdm hr hu)
  rcases h with ⟨c1, c2, h⟩ | h
  · unfold Auto.cutBetween at h
    split_ifs at h
    · refine fin _ (fun i => if a.scc i < c2 then 0 else 1) (fun i _ => rfl) ?_ h
      intro d hdm hr hu
      have := hmono d hdm hr hu
      split_ifs <;> omega
    · simp only [Option.some.injEq, Prod.mk.injEq] at h
      exact triv h.1.symm h.2.symm
  · unfold Auto.cutDimBased at h
    split_ifs at h
    · simp only [Option.some.injEq, Prod.mk.injEq] at h
      exact triv h.1.symm h.2.symm
    · refine fin _ (fun i => (a.dimCount (a.scc i).toNat : Int)) ?_ ?_ h
      · intro i hi
        obtain ⟨h0, h1⟩ := f1 i (by rw [hn]; exact hi)
        rw [filter_range_eq _ _ h0 h1]
        rfl
      · intro d hdm hr hu
        have := hmono d hdm hr hu
        have := dimCount_mono a (i := (a.scc d.src).toNat) (j := (a.scc d.dest).toNat) (by omega)
        omega

/-- C39. `pluto_add_hyperplane_from_ilp_solution` adds one level after the existing ones: the schedule
of every statement keeps its rows, and its new last row is the hyperplane described by the
statement's coefficients in the solution; nothing else of the statement changes. -/
theorem C39_append (p : Prog) (sol : List Int) (hl : SolLen p sol) :
    (addHyperplane p sol).hProps = p.hProps ++ [HypType.loop] ∧ (addHyperplane p sol).deps = p.deps ∧
    (addHyperplane p sol).stmts.length = p.stmts.length ∧
    ∀ (j : Nat) (st st' : Stmt), p.stmts[j]? = some st → (addHyperplane p sol).stmts[j]? = some st' →
      st'.dim = st.dim ∧ st'.domain = st.domain ∧ st'.hypTypes.length = st.hypTypes.length + 1 ∧
      ∃ row, st'.trans = st.trans ++ [row] ∧ row.length = p.nvar + p.npar + 1 ∧
        ∀ x q : List Int, x.length = p.nvar → q.length = p.npar → aff row (x ++ q) = hypValue p.nvar p.npar sol j x := by
  refine ⟨rfl, rfl, by simp [addHyperplane], ?_⟩
  intro j st st' h1 h2
  have hj := (List.getElem?_eq_some_iff.mp h1).1
  have h3 : (addHyperplane p sol).stmts[j]? = _ := List.getElem?_mapIdx
  rw [h3, h1, Option.map_some, Option.some.injEq] at h2
  subst h2
  refine ⟨rfl, rfl, by simp, hyperplaneRow p.nvar p.npar sol j, rfl, ?_, ?_⟩
  · exact (C39_row_value p sol hl j hj (List.replicate p.nvar 0) (List.replicate p.npar 0) (by simp) (by simp)).1
  · exact fun x q hx hq => (C39_row_value p sol hl j hj x q hx hq).2

/-- C39: a solution for the padded form of the program below. -/
example : SolLen ⟨2, 0, [⟨2, 2, ⟨3, []⟩, [true, true], [[1, 0, 0]], [.loop]⟩], [], [.loop]⟩ [0, 1, 2, 3] ∧
    (addHyperplane ⟨2, 0, [⟨2, 2, ⟨3, []⟩, [true, true], [[1, 0, 0]], [.loop]⟩], [], [.loop]⟩ [0, 1, 2, 3]).stmts.map (·.trans) =
      [[[1, 0, 0], [1, 2, 3]]] :=
  ⟨rfl, by decide⟩

/-! ### Examples: complete runs, one successful and one failing. -/

instance (r : Row) (x : List Int) : Decidable (r.Sat x) :=
  inferInstanceAs (Decidable (if r.eq then aff r.val x = 0 else 0 ≤ aff r.val x))

instance (c : Cst) (x : List Int) : Decidable (c.Sat x) := inferInstanceAs (Decidable (∀ r ∈ c.rows, r.Sat x))

instance (p : Prog) (d : Dep) : Decidable (p.DepFits d) :=
  decidable_of_iff (d.dpoly.WF ∧ d.dpoly.ncols = p.dim d.src + p.dim d.dest + p.npar + 1)
    ⟨fun h => ⟨h.1, h.2⟩, fun h => ⟨h.1, h.2⟩⟩

/-- An emptiness oracle that answers the questions in `tab` by lookup (so that runs can be evaluated)
and all others by definition. -/
noncomputable def tabOracle (tab : List (Cst × Bool)) (c : Cst) : Bool :=
  match tab.lookup c with
  | some b => b
  | none => @decide (¬ ∃ x : List Int, x.length + 1 = c.ncols ∧ c.Sat x) (Classical.propDecidable _)

theorem tabOracle_ok (tab : List (Cst × Bool))
    (h : ∀ e ∈ tab, e.2 = true ↔ ¬ ∃ x : List Int, x.length + 1 = e.1.ncols ∧ e.1.Sat x) :
    EmptyOracle (tabOracle tab) := by
  intro c _
  unfold tabOracle
  cases hc : tab.lookup c with
  | none => simp
  | some b =>
    obtain ⟨l1, l2, e, _⟩ := List.lookup_eq_some_iff.mp hc
    exact h (c, b) (by rw [e]; simp)

/-- A solver choosing the first point of the system in a given list. -/
def listSolver (cands : List (List Int)) (c : Cst) : Option (List Int) :=
  cands.find? (fun x => x.length + 1 == c.ncols && c.rows.all (fun r => if r.eq then aff r.val x == 0 else 0 ≤ aff r.val x))

theorem listSolver_ok (cands : List (List Int)) : FeasibleOracle (listSolver cands) := by
  intro c _ x h
  have := List.find?_some h
  simp only [Bool.and_eq_true, beq_iff_eq, List.all_eq_true] at this
  refine ⟨this.1, fun r hr => ?_⟩
  have := this.2 r hr
  unfold Row.Sat
  split_ifs at this ⊢ <;> simpa using this

/-- `S0(i,j)` in `0..9 × 0..9` depends on `S0(i-1,j)`, and `S1(j)` in `0..9` on every `S0(i,j)`. -/
def exAuto : Prog :=
  ⟨2, 0, [⟨2, 2, ⟨3, [⟨false, [1, 0, 0]⟩, ⟨false, [-1, 0, 9]⟩, ⟨false, [0, 1, 0]⟩, ⟨false, [0, -1, 9]⟩]⟩, [true, true], [], []⟩,
     ⟨1, 1, ⟨2, [⟨false, [1, 0]⟩, ⟨false, [-1, 9]⟩]⟩, [true], [[1, 0]], [.loop]⟩],
    [⟨0, 0, false, ⟨5, [⟨true, [-1, 0, 1, 0, -1]⟩, ⟨true, [0, -1, 0, 1, 0]⟩, ⟨false, [1, 0, 0, 0, 0]⟩, ⟨false, [0, 0, -1, 0, 9]⟩]⟩,
        ⟨5, []⟩, false, -1, [], []⟩,
     ⟨0, 1, false, ⟨4, [⟨true, [0, 1, -1, 0]⟩, ⟨false, [1, 0, 0, 0]⟩, ⟨false, [-1, 0, 0, 9]⟩, ⟨false, [0, 1, 0, 0]⟩, ⟨false, [0, -1, 0, 9]⟩]⟩,
        ⟨4, []⟩, false, -1, [], []⟩], []⟩

def exTab : List (Cst × Bool) :=
  let d0 : List Row := [⟨true, [-1, 0, 1, 0, -1]⟩, ⟨true, [0, -1, 0, 1, 0]⟩, ⟨false, [1, 0, 0, 0, 0]⟩, ⟨false, [0, 0, -1, 0, 9]⟩]
  let d1 : List Row := [⟨true, [0, 1, -1, 0, 0]⟩, ⟨false, [1, 0, 0, 0, 0]⟩, ⟨false, [-1, 0, 0, 0, 9]⟩, ⟨false, [0, 1, 0, 0, 0]⟩, ⟨false, [0, -1, 0, 0, 9]⟩]
  [(⟨5, ⟨false, [0, 1, 0, -1, 0]⟩ :: d0⟩, false), (⟨5, ⟨false, [0, 1, -1, 0, 0]⟩ :: d1⟩, false),
   (⟨5, ⟨false, [0, 0, 0, 0, 0]⟩ :: d0⟩, false), (⟨5, ⟨false, [0, 0, 0, 0, -1]⟩ :: d1⟩, true),
   (⟨5, ⟨false, [1, 0, -1, 0, 0]⟩ :: d0⟩, true)]

noncomputable def exLibs : Libs :=
  ⟨fun n rows => if rows = [] then ([[1, 0], [0, 1]].map (·.take n)).take n else
      if rows = [[1, 0]] then [[0, 1]] else if rows = [[0, 1]] then [[1, 0]] else [],
    tabOracle exTab, listSolver [[0, 1, 0, 0, 1, 0], [0, 0, 1, 0, 0, 0]]⟩

/-- The trans matrices of a successful (`true`) or failing (`false`) run. -/
def Outcome.view : Option Outcome → Option (Bool × List (List (List Int)))
  | some (.success p) => some (true, p.stmts.map (·.trans))
  | some (.failed p) => some (false, p.stmts.map (·.trans))
  | _ => none

/-- The hypotheses of C10 are met and the run succeeds: loop `j` is fused, a scalar level and `i` follow. -/
example : EmptyOracle exLibs.isEmpty ∧ FeasibleOracle exLibs.solve ∧ exAuto.InputOK ∧
    Outcome.view (autoTransform ⟨⟨true, false, false, true, -1⟩, .max⟩ exLibs noDiamond 10
      ⟨fun _ => 0, fun _ => 0, fun _ => 0, 0⟩ exAuto) =
      some (true, [[[0, 1, 0], [0, 0, 0], [1, 0, 0]], [[1, 0], [0, 1], [0, 0]]]) := by
  refine ⟨tabOracle_ok _ ?_, listSolver_ok _, ⟨by decide, by decide⟩, by decide +kernel⟩
  intro e he
  simp only [exTab, List.mem_cons, List.not_mem_nil, or_false] at he
  rcases he with rfl | rfl | rfl | rfl | rfl
  · simp only [Bool.false_eq_true, false_iff, not_not]
    exact ⟨[0, 0, 1, 0], rfl, by decide⟩
  · simp only [Bool.false_eq_true, false_iff, not_not]
    exact ⟨[0, 0, 0, 0], rfl, by decide⟩
  · simp only [Bool.false_eq_true, false_iff, not_not]
    exact ⟨[0, 0, 1, 0], rfl, by decide⟩
  · simp only [true_iff]
    rintro ⟨x, hx, hs⟩
    match x, hx with
    | [a, b, c, d], _ =>
      have := hs ⟨false, [0, 0, 0, 0, -1]⟩ (by simp)
      simp [Row.Sat, aff, dot] at this
  · simp only [true_iff]
    rintro ⟨x, hx, hs⟩
    match x, hx with
    | [a, b, c, d], _ =>
      have h1 := hs ⟨false, [1, 0, -1, 0, 0]⟩ (by simp)
      have h2 := hs ⟨true, [-1, 0, 1, 0, -1]⟩ (by simp)
      simp [Row.Sat, aff, dot] at h1 h2
      omega

/-- `S(i)` in `0..9` depends on itself; it comes with a schedule of two rows. -/
def exFail : Prog :=
  ⟨1, 0, [⟨1, 1, ⟨2, [⟨false, [1, 0]⟩, ⟨false, [-1, 9]⟩]⟩, [true], [[5, 0], [7, 7]], [.loop, .scalar]⟩],
    [⟨0, 0, false, ⟨3, [⟨true, [-1, 1, 0]⟩, ⟨false, [1, 0, 0]⟩, ⟨false, [0, -1, 9]⟩]⟩, ⟨3, []⟩, false, -1, [], []⟩], [.loop, .scalar]⟩

def exTab2 : List (Cst × Bool) :=
  let d : List Row := [⟨true, [-1, 1, 0]⟩, ⟨false, [1, 0, 0]⟩, ⟨false, [0, -1, 9]⟩]
  [(⟨3, ⟨false, [1, -1, 0]⟩ :: d⟩, false), (⟨3, ⟨false, [-1, 1, -1]⟩ :: d⟩, true)]

noncomputable def exLibs2 : Libs :=
  ⟨fun _ rows => if rows = [] then [[1]] else [], tabOracle exTab2, listSolver [[0, 1, 0]]⟩

/-- The hypotheses of C11 are met and the run fails (with the old schedule restored, as C11 claims). -/
example : EmptyOracle exLibs2.isEmpty ∧ FeasibleOracle exLibs2.solve ∧ exFail.InputOK ∧
    exFail.Inst (exFail.deps[0]) [3] [3] [] ∧
    Outcome.view (autoTransform ⟨⟨true, false, false, true, -1⟩, .max⟩ exLibs2 noDiamond 10
      ⟨fun _ => 0, fun _ => 0, fun _ => 0, 0⟩ exFail) = some (false, [[[5, 0], [7, 7]]]) := by
  refine ⟨tabOracle_ok _ ?_, listSolver_ok _, ⟨by decide, by decide⟩, ⟨rfl, rfl, rfl, by decide⟩, by decide +kernel⟩
  intro e he
  simp only [exTab2, List.mem_cons, List.not_mem_nil, or_false] at he
  rcases he with rfl | rfl
  · simp only [Bool.false_eq_true, false_iff, not_not]
    exact ⟨[0, 0], rfl, by decide⟩
  · simp only [true_iff]
    rintro ⟨x, hx, hs⟩
    match x, hx with
    | [a, b], _ =>
      have h1 := hs ⟨false, [-1, 1, -1]⟩ (by simp)
      have h2 := hs ⟨true, [-1, 1, 0]⟩ (by simp)
      simp [Row.Sat, aff, dot] at h1 h2
      omega

/-- C41: a program whose second statement has to be padded. -/
example : (stripped exAuto).InputOK ∧ (∀ st ∈ (stripped exAuto).stmts, st.trans = [] ∧ st.hypTypes = []) ∧
    (∀ d ∈ (stripped exAuto).deps, d.satisfied = false) ∧
    ((normalizeDomains (stripped exAuto)).map fun p => p.stmts.map (·.dim)) = some [2, 2] ∧
    (((normalizeDomains (stripped exAuto)).bind denormalizeDomains).map fun p => p.stmts.map (·.dim)) = some [2, 1] :=
  ⟨⟨by decide, by decide⟩, by decide, by decide, by decide +kernel, by decide +kernel⟩

/-- `exAuto` after padding. -/
def exPadded : Prog :=
  ⟨2, 0, [⟨2, 2, ⟨3, [⟨false, [1, 0, 0]⟩, ⟨false, [-1, 0, 9]⟩, ⟨false, [0, 1, 0]⟩, ⟨false, [0, -1, 9]⟩]⟩, [true, true], [], []⟩,
     ⟨2, 1, ⟨3, [⟨false, [1, 0, 0]⟩, ⟨false, [-1, 0, 9]⟩]⟩, [true, false], [], []⟩],
    [⟨0, 0, false, ⟨5, [⟨true, [-1, 0, 1, 0, -1]⟩, ⟨true, [0, -1, 0, 1, 0]⟩, ⟨false, [1, 0, 0, 0, 0]⟩, ⟨false, [0, 0, -1, 0, 9]⟩]⟩,
        ⟨5, []⟩, false, -1, [], []⟩,
     ⟨0, 1, false, ⟨5, [⟨true, [0, 1, -1, 0, 0]⟩, ⟨false, [1, 0, 0, 0, 0]⟩, ⟨false, [-1, 0, 0, 0, 9]⟩, ⟨false, [0, 1, 0, 0, 0]⟩, ⟨false, [0, -1, 0, 0, 9]⟩]⟩,
        ⟨5, []⟩, false, -1, [], []⟩], []⟩

/-- C15: in the graph of both dependences statement 0 cannot be reached from statement 1; cutting adds
one level and satisfies the second dependence (`exTab` with the questions asked here). -/
example : exPadded.Padded ∧
    (∀ d ∈ exPadded.deps, d.src < exPadded.stmts.length ∧ d.dest < exPadded.stmts.length ∧ exPadded.DepFits d) ∧
    (ddgCreate exPadded).n = exPadded.stmts.length ∧
    (∀ d ∈ exPadded.deps, (ddgCreate exPadded).Edge d.src d.dest) ∧ ¬ (ddgCreate exPadded).Edge 1 0 ∧
    ((Auto.computeScc ⟨exPadded, ddgCreate exPadded, ⟨fun _ => 0, fun _ => 0, fun _ => 0, 0⟩, fun _ => 0, 0⟩).bind
      (Auto.cutAll exLibs.isEmpty)).map (fun x => (x.1.p.hProps.length, x.1.p.deps.map (·.satisfied), x.2)) =
      some (1, [false, true], 1) := by
  refine ⟨?_, by decide, rfl, ?_, ?_, by decide +kernel⟩
  · unfold Prog.Padded; decide
  · unfold Graph.Edge; decide +kernel
  · unfold Graph.Edge; decide +kernel

end Pluto
