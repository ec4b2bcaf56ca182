import Verif.Lemmas.Diamond

/-! The cone of the tiling hyperplanes around the face with concurrent start. -/

namespace Pluto

theorem evictAll_ev {pos : Nat} {f : Nat → List Int} : ∀ (l : List Nat) (st st' : Prog × List (Option Evicted)),
    evictAll pos st (l.map (fun i => (i, f i))) = some st' →
    (∀ i ∈ l, st.2[i]? = some none ∧ st'.2[i]? = some (some ⟨st.1.row i pos, pos⟩)) ∧
    ∀ i, i ∉ l → st'.2[i]? = st.2[i]? := by
  intro l
  induction l with
  | nil =>
    intro st st' h
    simp only [List.map_nil, evictAll, Option.some.injEq] at h
    subst h
    simp
  | cons i l ih =>
    intro st st' h
    simp only [List.map_cons, evictAll, Option.bind_eq_bind, Option.bind_eq_some_iff] at h
    obtain ⟨st1, h1, h⟩ := h
    have a := evictStmt_spec h1
    obtain ⟨b1, b2⟩ := ih _ _ h
    unfold evictStmt at h1
    simp only [Option.bind_eq_bind, Option.bind_eq_some_iff] at h1
    obtain ⟨s, g1, r, g2, e, g3, h1⟩ := h1
    split_ifs at h1 with hc
    simp only [Option.pure_def, Option.some.injEq] at h1
    have he : e = none := by
      cases e with
      | none => rfl
      | some x => exact absurd (.inl rfl) hc
    have hlt := (List.getElem?_eq_some_iff.mp g3).1
    have hev : st1.2 = st.2.set i (some ⟨r, pos⟩) := by rw [← h1]
    have hin : i ∉ l := by
      intro hil
      have := (b1 i hil).1
      rw [hev, List.getElem?_set_self hlt] at this
      simp at this
    have hrow : st.1.row i pos = r := by
      unfold Prog.row
      rw [g1, Option.bind_some, g2]
      rfl
    constructor
    · intro j hj
      by_cases hji : j = i
      · subst hji
        refine ⟨by rw [g3, he], ?_⟩
        rw [b2 j hin, hev, List.getElem?_set_self hlt, hrow]
      · have hjl : j ∈ l := by
          rcases List.mem_cons.mp hj with rfl | hj
          · exact absurd rfl hji
          · exact hj
        obtain ⟨c1, c2⟩ := b1 j hjl
        rw [hev, List.getElem?_set_ne (by omega)] at c1
        refine ⟨c1, ?_⟩
        rw [c2, a.row, if_neg (by simp [hji])]
    · intro j hj
      rw [List.mem_cons, not_or] at hj
      rw [b2 j hj.2, hev, List.getElem?_set_ne (by omega)]

/-- Same hyperplane types. -/
def HypSame (p q : Prog) : Prop := ∀ i : Nat, q.stmts[i]?.map (·.hypTypes) = p.stmts[i]?.map (·.hypTypes)

theorem evictAll_hyp {pos : Nat} : ∀ (l : List (Nat × List Int)) (st st' : Prog × List (Option Evicted)),
    evictAll pos st l = some st' → HypSame st.1 st'.1 := by
  intro l
  induction l with
  | nil =>
    intro st st' h
    simp only [evictAll, Option.some.injEq] at h
    subst h
    exact fun _ => rfl
  | cons x l ih =>
    intro st st' h
    obtain ⟨i, row⟩ := x
    simp only [evictAll, Option.bind_eq_bind, Option.bind_eq_some_iff] at h
    obtain ⟨st1, h1, h⟩ := h
    have b := ih _ _ h
    unfold evictStmt at h1
    simp only [Option.bind_eq_bind, Option.bind_eq_some_iff] at h1
    obtain ⟨s, g1, r, g2, e, g3, h1⟩ := h1
    split_ifs at h1 with hc
    simp only [Option.pure_def, Option.some.injEq] at h1
    intro j
    rw [b j, ← h1]
    simp only [List.getElem?_set]
    by_cases hj : i = j
    · subst hj
      rw [if_pos rfl, if_pos (List.getElem?_eq_some_iff.mp g1).1, g1]
      rfl
    · rw [if_neg hj]

theorem coneLevels_same {p q : Prog} (h : HypSame p q) (full : Bool) (b : Band) (e i : Nat) :
    coneLevels full q b e i = coneLevels full p b e i := by
  have : ∀ k : Nat, q.stmts[i]?.bind (·.hypTypes[k]?) = p.stmts[i]?.bind (·.hypTypes[k]?) := by
    intro k
    have e : ∀ x : Option Stmt, x.bind (·.hypTypes[k]?) = (x.map (·.hypTypes)).bind (·[k]?) := by
      intro x; cases x <;> rfl
    rw [e, e, h i]
  unfold coneLevels
  simp only [this]

theorem coneHyps_levels {p : Prog} {full : Bool} {b : Band} {evict i j : Nat} {hs : List Int}
    (h : coneHyps full p b evict (conePos b evict) i j = some hs) :
    hs = (coneLevels full p b evict i).map (fun k => coef (p.row i k) j) := by
  unfold coneHyps at h
  unfold coneLevels
  cases full with
  | false =>
    simp only [Bool.false_eq_true, if_false, Option.bind_eq_bind, Option.bind_eq_some_iff, Option.pure_def,
      Option.some.injEq] at h ⊢
    obtain ⟨r, h1, h2⟩ := h
    have : p.row i (conePos b evict) = r := by
      unfold Prog.row
      unfold rowOf at h1
      rw [h1]; rfl
    rw [← h2, ← this]
    rfl
  | true =>
    simp only [if_true, Option.bind_eq_bind, Option.bind_eq_some_iff, Option.pure_def, Option.some.injEq] at h ⊢
    obtain ⟨st, h1, ks, h2, h3⟩ := h
    subst h3
    generalize (List.range b.width).map (b.loop.depth + ·) = l at h2 ⊢
    induction l generalizing ks with
    | nil =>
      simp only [List.mapM_nil, Option.pure_def, Option.some.injEq] at h2
      subst h2; rfl
    | cons a l ih =>
      simp only [List.mapM_cons, Option.bind_eq_bind, Option.bind_eq_some_iff, Option.pure_def, Option.some.injEq] at h2
      obtain ⟨x, g1, xs, g2, rfl⟩ := h2
      have := ih xs g2
      rw [List.filter_cons]
      by_cases c1 : a = evict
      · rw [if_pos c1, Option.some.injEq] at g1
        subst g1
        simpa [c1] using this
      · rw [if_neg c1, Option.bind_eq_some_iff] at g1
        obtain ⟨ty, t1, g1⟩ := g1
        have hty : p.stmts[i]?.bind (·.hypTypes[a]?) = some ty := by rw [h1]; exact t1
        by_cases c2 : ty = HypType.scalar
        · rw [if_pos c2, Option.some.injEq] at g1
          subst g1
          simpa [hty, c2] using this
        · rw [if_neg c2, Option.bind_eq_some_iff] at g1
          obtain ⟨r, t2, g1⟩ := g1
          rw [Option.some.injEq] at g1
          subst g1
          have hr : p.row i a = r := by
            unfold Prog.row
            rw [h1, Option.bind_some, t2]; rfl
          rw [if_pos (by simp [c1, hty, c2])]
          rw [List.map_cons, ← this, hr]
          rfl

/-- Only as many multipliers as there are hyperplanes count. -/
theorem dot_take_comm : ∀ (hs x y : List Int), hs.length ≤ x.length → dot hs (x ++ y) = dot (x.take hs.length) hs := by
  intro hs
  induction hs with
  | nil => intro x y _; simp [dot]
  | cons a hs ih =>
    intro x y h
    match x with
    | [] => simp at h
    | b :: x =>
      simp only [List.cons_append, dot, List.length_cons, List.take_succ_cons]
      rw [ih x y (by simpa using h)]
      simp only [Int.cast_id]
      rw [mul_comm]

section
variable {k p : Prog}

/-- The faces: one for every statement of the band, strictly satisfying all dependences inside it. -/
theorem concStartFaces_face (o : SearchOpts) (L : Libs) (hL : FeasibleOracle L.solve) (hk : SkelOK k)
    (hi : Inv False k p) (stmts : List Nat) (hinc : Inc stmts) (hin : ∀ i ∈ stmts, i < p.stmts.length)
    (faces : List (List Int)) (h : concStartFaces o L p stmts = some (some faces)) :
    ∃ F : Nat → List Int, faces = stmts.map F ∧
      (∀ i ∈ stmts, ((F i).take p.nvar).countP (fun a => decide (a ≠ 0)) = 1) ∧
      ∀ d ∈ p.deps, d.rar = false → d.src ∈ stmts → d.dest ∈ stmts → ∀ s t q : List Int,
        DepInst d.dpoly p.nvar p.nvar p.npar s t q → aff (F d.src) (s ++ q) + 1 ≤ aff (F d.dest) (t ++ q) := by
  unfold concStartFaces at h
  simp only [Option.bind_eq_bind, Option.bind_eq_some_iff] at h
  obtain ⟨r, h1, h⟩ := h
  cases r with
  | none => simp at h
  | some sol =>
    simp only at h
    split_ifs at h with hone
    · simp only [Option.pure_def, Option.some.injEq] at h
      have ho := hk.origOK hi.sk
      have hw := (feautrier_wid o.rar p stmts (fun d hd => ⟨(hk.dep hi.sk hd).src, (hk.dep hi.sk hd).dest⟩)).add
        (coeffBound_wid o p)
      obtain ⟨f1, f2, f3⟩ := progLexmin_feasible o.dfp L.solve hL p ho _ (hw.wf (by unfold cstWidth; omega))
        (fun hn => coeffBound_ne o p (List.append_eq_nil_iff.mp hn).2) sol h1
      rw [filter_range_inc _ _ hinc hin] at h hone
      refine ⟨hyperplaneRow p.nvar p.npar sol, h.symm, fun i hi' => ?_, fun d hd hr hs ht s t q hinst => ?_⟩
      · have := List.all_eq_true.mp hone _ (List.mem_map_of_mem hi')
        simpa using this
      · have hf : (feautrierConstraints o.rar p stmts).Sat sol := fun r hr => f3 r (List.mem_append_left _ hr)
        have := C09_feautrier_strict o.rar p stmts sol (fun d hd => hk.dep hi.sk hd) f1 f2 hf d hd hr hs ht s t q hinst
        rw [(C39_row_value p sol f1 d.src (hk.dep hi.sk hd).src s q hinst.hs hinst.hp).2,
          (C39_row_value p sol f1 d.dest (hk.dep hi.sk hd).dest t q hinst.ht hinst.hp).2]
        omega
    · simp at h

theorem evictedFrom_range {b : Band} {faces : List (List Int)} : ∀ (n d e : Nat),
    evictedFrom p b faces n d = some e → d ≤ e ∧ e ≤ d + n := by
  intro n
  induction n with
  | zero => intro d e h; simp only [evictedFrom, Option.some.injEq] at h; omega
  | succ n ih =>
    intro d e h
    simp only [evictedFrom, Option.bind_eq_bind, Option.bind_eq_some_iff] at h
    obtain ⟨c, _, h⟩ := h
    split_ifs at h
    · simp only [Option.pure_def, Option.some.injEq] at h
      omega
    · have := ih _ _ h
      omega

/-- Rows and evicted hyperplanes of the statements outside a set of bands are untouched. -/
def Outside (p q : Prog) (ev0 ev : List (Option Evicted)) (done : List (Band × Nat)) : Prop :=
  ∀ i, (∀ be ∈ done, i ∉ be.1.loop.stmts) → ev[i]? = ev0[i]? ∧ ∀ l, q.row i l = p.row i l

theorem diamondBand_cone (o : SearchOpts) (full : Bool) (L : Libs) (solve : Cst → Option (List Int))
    (hL : FeasibleOracle L.solve) (hS : FeasibleOracle solve) (hk : SkelOK k) (hp : skel p = k)
    (ev0 : List (Option Evicted)) (s s' : DiaState) (b : Band)
    (hi : Inv False k s.p) (hinc : Inc b.loop.stmts) (hin : ∀ i ∈ b.loop.stmts, i < p.stmts.length)
    (hhyp : HypSame p s.p) (hout : Outside p s.p ev0 s.ev s.done) (hcone : ∀ be ∈ s.done, ConcurrentStart full p be.1 be.2 s.p s.ev)
    (h : diamondBand o full L solve (permutabilityConstraints o.rar o.nodepbound p) s b = some s') :
    Outside p s'.p ev0 s'.ev s'.done ∧ HypSame p s'.p ∧ ∀ be ∈ s'.done, ConcurrentStart full p be.1 be.2 s'.p s'.ev := by
  have hnv : s.p.nvar = p.nvar := by rw [← sk_nvar hi.sk, sk_nvar hp]
  have hnp : s.p.npar = p.npar := by rw [← sk_npar hi.sk, sk_npar hp]
  have hnl : s.p.stmts.length = p.stmts.length := by rw [← sk_len hi.sk, sk_len hp]
  have hin' : ∀ i ∈ b.loop.stmts, i < s.p.stmts.length := by rw [hnl]; exact hin
  have same : some s = some s' → Outside p s'.p ev0 s'.ev s'.done ∧ HypSame p s'.p ∧ ∀ be ∈ s'.done, ConcurrentStart full p be.1 be.2 s'.p s'.ev := by
    intro h; rw [← Option.some.inj h]; exact ⟨hout, hhyp, hcone⟩
  unfold diamondBand at h
  simp only [Option.bind_eq_bind, Option.bind_eq_some_iff] at h
  obtain ⟨w, _, h⟩ := h
  split_ifs at h
  · rw [Option.bind_eq_some_iff] at h
    obtain ⟨fs, hfs, h⟩ := h
    cases fs with
    | none => exact same h
    | some faces =>
      simp only [Option.bind_eq_some_iff] at h
      obtain ⟨nrm, _, h⟩ := h
      split_ifs at h
      · exact same h
      · rw [Option.bind_eq_some_iff] at h
        obtain ⟨evict, hev, h⟩ := h
        rw [Option.bind_eq_some_iff] at h
        obtain ⟨rs, hrs, h⟩ := h
        cases rs with
        | none => exact same h
        | some rows =>
          simp only [Option.bind_eq_some_iff] at h
          obtain ⟨⟨p1, ev1⟩, he, h⟩ := h
          simp only [Option.pure_def, Option.some.injEq] at h
          unfold findConeComplement at hrs
          rw [Option.bind_eq_bind, Option.bind_eq_some_iff] at hrs
          obtain ⟨c, hc, hrs⟩ := hrs
          have hperm := perm_wf o.rar o.nodepbound p (fun d hd => ⟨(hk.dep hp hd).src, (hk.dep hp hd).dest⟩)
          obtain ⟨w1, w2, w3⟩ := coneSystem_sat full s.p _ b faces evict _ c hperm.1 (by rw [hperm.2, hnv, hnp, hnl]) hc
          cases hso : solve c with
          | none => rw [hso] at hrs; simp at hrs
          | some sol =>
            rw [hso] at hrs
            simp only [Option.pure_def, Option.some.injEq] at hrs
            obtain ⟨q1, q2⟩ := hS c w1 sol hso
            obtain ⟨_, _, a3, a4⟩ := w3 sol q1 q2
            have hz : b.loop.stmts.zip rows = b.loop.stmts.map (fun i => (i, hyperplaneRow s.p.nvar s.p.npar sol i)) := by
              rw [← hrs]
              have : ∀ l : List Nat, l.zip (l.map (fun i => hyperplaneRow s.p.nvar s.p.npar sol i)) =
                  l.map (fun i => (i, hyperplaneRow s.p.nvar s.p.npar sol i)) := by
                intro l
                induction l with
                | nil => rfl
                | cons a l ih => simp only [List.map_cons, List.zip_cons_cons, ih]
              exact this _
            rw [hz] at he
            have hrep := evictAll_spec _ _ _ he
            obtain ⟨e1, e2⟩ := evictAll_ev _ _ _ he
            simp only at hrep e1 e2
            -- the statements of this band are not in an earlier one
            have hnew : ∀ i ∈ b.loop.stmts, ∀ be ∈ s.done, i ∉ be.1.loop.stmts := by
              intro i hib be hbe hin2
              obtain ⟨_, _, F, _, hF⟩ := hcone be hbe
              have g1 := (hF i hin2).2.2.1
              rw [(e1 i hib).1] at g1
              simp at g1
            subst h
            simp only
            have hcol : ∀ i ∈ b.loop.stmts, ∀ j < p.nvar,
                coef (hyperplaneRow s.p.nvar s.p.npar sol i) j = sol.getD (stmtOffset p.nvar p.npar i + j) 0 := by
              intro i hib j hj
              have hlb := stmtOffset_lambdaBase p i p.nvar (hin i hib) (le_refl _)
              have hlen : lambdaBase p ≤ sol.length := by
                rw [w2] at q1
                have hlb : lambdaBase s.p = lambdaBase p := by unfold lambdaBase; rw [hnv, hnp, hnl]
                unfold coneWidth at q1
                rw [hlb] at q1
                omega
              have hof := stmtOffset_lambdaBase p i j (hin i hib) (le_of_lt hj)
              rw [hnv, hnp, ← hyperplaneRow_take p sol i (hin i hib)]
              rw [hyperplaneRow_coef (p := p) (sol.take (lambdaBase p)) (by
                show _ = _
                rw [List.length_take, Nat.min_eq_left hlen]; rfl) i (hin i hib) j hj]
              rw [List.getD_eq_getElem?_getD, List.getElem?_take_of_lt hof, ← List.getD_eq_getElem?_getD]
            refine ⟨?_, fun i => (evictAll_hyp _ _ _ he i).trans (hhyp i), ?_⟩
            · intro i hib
              have hnb : i ∉ b.loop.stmts := hib (b, evict) (by simp)
              obtain ⟨c1, c2⟩ := hout i (fun be hbe => hib be (List.mem_append_left _ hbe))
              refine ⟨by rw [e2 i hnb, c1], fun l => ?_⟩
              rw [hrep.row, if_neg (by simp [hnb]), c2]
            · intro be hbe
              rcases List.mem_append.mp hbe with hbe | hbe
              · obtain ⟨g1, g2, F, g6, g7⟩ := hcone be hbe
                refine ⟨g1, g2, F, g6, fun i hib => ?_⟩
                have hnb : i ∉ b.loop.stmts := fun hb => hnew i hb be hbe hib
                have hrow : ∀ l, p1.row i l = s.p.row i l := fun l => by rw [hrep.row, if_neg (by simp [hnb])]
                obtain ⟨k1, k2, k3, k4⟩ := g7 i hib
                refine ⟨k1, ?_, by rw [e2 i hnb]; exact k3, fun l hl => by rw [hrow]; exact k4 l hl⟩
                simp only [hrow]
                exact k2
              · rw [List.mem_singleton] at hbe
                subst hbe
                simp only
                obtain ⟨F, hF, hF1, hF2⟩ := concStartFaces_face o L hL hk hi _ hinc hin' faces hfs
                unfold hyperplaneToBeEvicted at hev
                split_ifs at hev with hw
                have hrange := evictedFrom_range _ _ _ hev
                refine ⟨hrange.1, by omega, F, ?_, ?_⟩
                · intro d hd hr hs ht x y q hinst
                  have hdm : ∃ d' ∈ s.p.deps, skelDep d' = skelDep d := by
                    have e : s.p.deps.map skelDep = p.deps.map skelDep := by
                      have := congrArg Prog.deps (hi.sk.trans hp.symm); exact this
                    have : skelDep d ∈ s.p.deps.map skelDep := by rw [e]; exact List.mem_map_of_mem hd
                    exact List.mem_map.mp this
                  obtain ⟨d', hd', hsk⟩ := hdm
                  have k1 : d'.src = d.src := by have := congrArg Dep.src hsk; exact this
                  have k2 : d'.dest = d.dest := by have := congrArg Dep.dest hsk; exact this
                  have k3 : d'.rar = d.rar := by have := congrArg Dep.rar hsk; exact this
                  have k4 : d'.dpoly = d.dpoly := by have := congrArg Dep.dpoly hsk; exact this
                  have := hF2 d' hd' (by rw [k3]; exact hr) (by rw [k1]; exact hs) (by rw [k2]; exact ht) x y q
                    (by rw [k4, hnv, hnp]; exact hinst)
                  rw [k1, k2] at this
                  exact this
                · intro i hib
                  obtain ⟨c1, c2⟩ := hout i (hnew i hib)
                  obtain ⟨si, hsi, hsi2⟩ := List.getElem_of_mem hib
                  have hgb : b.loop.stmts[si]? = some i := by rw [List.getElem?_eq_getElem hsi, hsi2]
                  refine ⟨by rw [← hnv]; exact hF1 i hib, ?_, by rw [(e1 i hib).2, c2], fun l hl => by
                    rw [hrep.row, if_neg (by simp [hl]), c2]⟩
                  intro hlev
                  generalize hC : coneLevels full p b evict i = C at hlev ⊢
                  have hmul : si * p.nvar + p.nvar ≤ p.nvar * b.loop.stmts.length := by
                    have : (si + 1) * p.nvar ≤ b.loop.stmts.length * p.nvar := Nat.mul_le_mul_right _ hsi
                    rw [Nat.add_mul, Nat.one_mul] at this
                    rw [Nat.mul_comm p.nvar]
                    exact this
                  have hsl : sol.length = lambdaBase s.p + p.nvar * b.loop.stmts.length := by
                    rw [w2] at q1
                    unfold coneWidth at q1
                    rw [hnv] at q1
                    omega
                  have hlen : C.length ≤ (sol.drop (lambdaBase s.p + si * p.nvar + 1)).length := by
                    rw [List.length_drop]; omega
                  refine ⟨sol.getD (lambdaBase s.p + si * p.nvar) 0,
                    (sol.drop (lambdaBase s.p + si * p.nvar + 1)).take C.length,
                    a3 _ (by rw [hnv]; omega), by rw [List.length_take, Nat.min_eq_left hlen], ?_, fun j hj => ?_⟩
                  · intro x hx
                    obtain ⟨y, hy, rfl⟩ := List.getElem_of_mem hx
                    rw [List.length_take] at hy
                    rw [List.getElem_take, List.getElem_drop]
                    have := a3 (si * p.nvar + 1 + y) (by rw [hnv]; omega)
                    rw [List.getD_eq_getElem?_getD, List.getElem?_eq_getElem (by omega)] at this
                    have e : lambdaBase s.p + si * p.nvar + 1 + y = lambdaBase s.p + (si * p.nvar + 1 + y) := by omega
                    simp only [e]
                    exact this
                  obtain ⟨r, hr, hrsat⟩ := a4 si hsi j (by rw [hnv]; exact hj)
                  have hr' := hr
                  unfold coneEquality at hr'
                  simp only [Option.bind_eq_bind, Option.bind_eq_some_iff] at hr'
                  obtain ⟨i', hi', f, hf, hs, hhs, _⟩ := hr'
                  rw [hgb, Option.some.injEq] at hi'
                  subst hi'
                  have hfF : f = F i := by
                    rw [hF, List.getElem?_map, hgb, Option.map_some, Option.some.injEq] at hf
                    exact hf.symm
                  have hhs' := coneHyps_levels hhs
                  rw [coneLevels_same hhyp, hC] at hhs'
                  have hhl : hs.length = C.length := by rw [hhs', List.length_map]
                  have hv := coneEquality_value full s.p b faces evict _ si j r sol _ f hs hgb (hin' _ hib)
                    (by rw [hnv]; exact hj) hf hhs (.inl (by rw [hhl, hnv]; omega)) hr (by rw [q1, w2]) hrsat
                  have hCe : ∀ k ∈ C, k ≠ evict := by
                    rw [← hC]
                    intro k hk
                    unfold coneLevels at hk
                    split_ifs at hk
                    · have := (List.mem_filter.mp hk).2
                      rw [Bool.and_eq_true] at this
                      exact of_decide_eq_true this.1
                    · rw [List.mem_singleton] at hk
                      subst hk
                      omega
                    · rw [List.mem_singleton] at hk
                      subst hk
                      omega
                  have hmap : C.map (fun k => coef (p1.row i k) j) = hs := by
                    rw [hhs']
                    apply List.map_congr_left
                    intro k hk
                    rw [hrep.row, if_neg (by simp [hCe k hk])]
                  rw [hmap, hrep.row, if_pos ⟨hib, rfl⟩, hcol i hib j hj]
                  rw [hnv] at hv
                  rw [dot_take_comm hs _ [1] (by rw [hhl]; exact hlen), hhl, hfF, hnp] at hv
                  linarith
  · exact same h

theorem diamondFold_cone (o : SearchOpts) (full : Bool) (L : Libs) (solve : Cst → Option (List Int))
    (hL : FeasibleOracle L.solve) (hS : FeasibleOracle solve) (hk : SkelOK k) (hp : skel p = k)
    (p2 : Prog) (n : Nat) (ev0 : List (Option Evicted)) :
    ∀ (bands : List Band) (s s' : DiaState), DiaInv k p p2 n s →
      Outside p s.p ev0 s.ev s.done → HypSame p s.p → (∀ be ∈ s.done, ConcurrentStart full p be.1 be.2 s.p s.ev) →
      (∀ b ∈ bands, Inc b.loop.stmts ∧ ∀ i ∈ b.loop.stmts, i < p.stmts.length) →
      bands.foldlM (diamondBand o full L solve (permutabilityConstraints o.rar o.nodepbound p)) s = some s' →
      Outside p s'.p ev0 s'.ev s'.done ∧ HypSame p s'.p ∧ ∀ be ∈ s'.done, ConcurrentStart full p be.1 be.2 s'.p s'.ev := by
  intro bands
  induction bands with
  | nil =>
    intro s s' _ ho hh hc _ h
    simp only [List.foldlM_nil, Option.pure_def, Option.some.injEq] at h
    subst h; exact ⟨ho, hh, hc⟩
  | cons b bands ih =>
    intro s s' hi ho hh hc hb h
    rw [List.foldlM_cons, Option.bind_eq_bind, Option.bind_eq_some_iff] at h
    obtain ⟨s1, h1, h⟩ := h
    have hbb := hb b (by simp)
    obtain ⟨ho1, hh1, hc1⟩ := diamondBand_cone o full L solve hL hS hk hp ev0 s s1 b hi.inv hbb.1 hbb.2 hh ho hc h1
    exact ih s1 s' (diamondBand_inv o full L solve hL hS hk hp p2 n s s1 b hi hbb.1 hbb.2 h1) ho1 hh1 hc1
      (fun b hb' => hb b (List.mem_cons_of_mem _ hb')) h

theorem diamondTile_cone (o : SearchOpts) (full : Bool) (L : Libs) (solve : Cst → Option (List Int))
    (hE : EmptyOracle L.isEmpty) (hL : FeasibleOracle L.solve) (hS : FeasibleOracle solve) (hk : SkelOK k)
    (hi : Inv False k p) (ev : List (Option Evicted)) (s : DiaState)
    (h : diamondTile o full L solve p ev = some s) :
    Outside p s.p ev s.ev s.done ∧ ∀ be ∈ s.done, ConcurrentStart full p be.1 be.2 s.p s.ev := by
  unfold diamondTile at h
  simp only [Option.bind_eq_bind, Option.bind_eq_some_iff] at h
  obtain ⟨p1, h1, p2, h2', bands, h3, s1, h4, h⟩ := h
  simp only [Option.pure_def, Option.some.injEq] at h
  obtain ⟨hi2, hH, e2⟩ := diamond_info hE hk hi h1 h2'
  have hb := outermost_inc h3
  have hlen : p2.stmts.length = p.stmts.length := by rw [e2]
  rw [hlen] at hb
  have hrow : ∀ i l, p2.row i l = p.row i l := by intro i l; rw [e2]; rfl
  have hD0 : DiaInv k p p2 0 ⟨p2, ev, []⟩ := diaInv_init hi2 hH e2 0 ev
  obtain ⟨a, _, b⟩ := diamondFold_cone o full L solve hL hS hk hi.sk p2 0 ev bands _ s1 hD0
    (fun i _ => ⟨rfl, hrow i⟩) (fun i => by rw [e2]) (by simp) hb h4
  subst h
  by_cases hd : s1.done = []
  · rw [if_pos hd]; exact ⟨a, b⟩
  · rw [if_neg hd]; exact ⟨a, b⟩

theorem evictAll_deps {pos : Nat} : ∀ (l : List (Nat × List Int)) (st st' : Prog × List (Option Evicted)),
    evictAll pos st l = some st' → st'.1.deps = st.1.deps := by
  intro l
  induction l with
  | nil => intro st st' h; simp only [evictAll, Option.some.injEq] at h; rw [h]
  | cons a l ih =>
    intro st st' h
    simp only [evictAll, Option.bind_eq_bind, Option.bind_eq_some_iff] at h
    obtain ⟨s1, h1, h⟩ := h
    rw [ih _ _ h]
    unfold evictStmt at h1
    simp only [Option.bind_eq_bind, Option.bind_eq_some_iff] at h1
    obtain ⟨_, _, _, _, _, _, h1⟩ := h1
    split_ifs at h1
    simp only [Option.pure_def, Option.some.injEq] at h1
    rw [← h1]

theorem diamondBand_seq (o : SearchOpts) (full : Bool) (L : Libs) (solve : Cst → Option (List Int)) (base : Cst)
    (p2 : Prog) (s s' : DiaState) (b : Band) (hd : s.p.deps = p2.deps)
    (h : diamondBand o full L solve base s b = some s') :
    s'.p.deps = p2.deps ∧ ∀ be ∈ s'.done, be ∈ s.done ∨ (be.1 = b ∧ loopIsParallel p2 b.loop = some false) := by
  have hc : loopIsParallel s.p b.loop = loopIsParallel p2 b.loop := by unfold loopIsParallel; rw [hd]
  unfold diamondBand at h
  simp only [Option.bind_eq_bind, Option.bind_eq_some_iff] at h
  obtain ⟨w, hw, h⟩ := h
  have same : some s = some s' → s'.p.deps = p2.deps ∧ ∀ be ∈ s'.done, be ∈ s.done ∨ (be.1 = b ∧ loopIsParallel p2 b.loop = some false) := by
    intro e
    obtain rfl := Option.some.inj e
    exact ⟨hd, fun be h => .inl h⟩
  cases w with
  | false => rw [if_neg (by simp)] at h; exact same h
  | true =>
    rw [if_pos rfl] at h
    have hseq : loopIsParallel p2 b.loop = some false := by
      unfold bandWanted at hw
      simp only [Option.bind_eq_bind, Option.bind_eq_some_iff] at hw
      obtain ⟨v, hv, hw⟩ := hw
      cases v with
      | true => rw [if_pos rfl] at hw; cases hw
      | false => rw [← hc]; exact hv
    simp only [Option.bind_eq_some_iff] at h
    obtain ⟨F, hF, h⟩ := h
    cases F with
    | none => exact same h
    | some faces =>
      simp only [Option.bind_eq_some_iff] at h
      obtain ⟨nrm, hn, h⟩ := h
      cases nrm with
      | true => rw [if_pos rfl] at h; exact same h
      | false =>
        rw [if_neg (by simp)] at h
        simp only [Option.bind_eq_some_iff] at h
        obtain ⟨e, he, r, hr, h⟩ := h
        cases r with
        | none => exact same h
        | some rows =>
          simp only [Option.bind_eq_some_iff] at h
          obtain ⟨⟨q, ev⟩, hq, h⟩ := h
          simp only [Option.pure_def, Option.some.injEq] at h
          subst h
          refine ⟨(evictAll_deps _ _ _ hq).trans hd, fun be hbe => ?_⟩
          rcases List.mem_append.mp hbe with hbe | hbe
          · exact .inl hbe
          · rw [List.mem_singleton.mp hbe]; exact .inr ⟨rfl, hseq⟩

theorem diamondFold_seq (o : SearchOpts) (full : Bool) (L : Libs) (solve : Cst → Option (List Int)) (base : Cst) (p2 : Prog) (all : List Band) :
    ∀ (bands : List Band) (s s' : DiaState), (∀ b ∈ bands, b ∈ all) → s.p.deps = p2.deps →
      (∀ be ∈ s.done, be.1 ∈ all ∧ loopIsParallel p2 be.1.loop = some false) →
      bands.foldlM (diamondBand o full L solve base) s = some s' →
      ∀ be ∈ s'.done, be.1 ∈ all ∧ loopIsParallel p2 be.1.loop = some false := by
  intro bands
  induction bands with
  | nil =>
    intro s s' _ _ hs h
    simp only [List.foldlM_nil, Option.pure_def, Option.some.injEq] at h
    rw [← h]; exact hs
  | cons b bands ih =>
    intro s s' ha hd hs h
    rw [List.foldlM_cons, Option.bind_eq_bind, Option.bind_eq_some_iff] at h
    obtain ⟨s1, h1, h⟩ := h
    obtain ⟨k1, k2⟩ := diamondBand_seq o full L solve base p2 s s1 b hd h1
    refine ih s1 s' (fun b' hb' => ha b' (List.mem_cons_of_mem _ hb')) k1 (fun be hbe => ?_) h
    rcases k2 be hbe with k | ⟨k, k'⟩
    · exact hs be k
    · rw [k]; exact ⟨ha b (by simp), k'⟩

theorem outermost_depth {p : Prog} {bands : List Band} (h : outermostBands p = some bands) :
    ∀ b ∈ bands, b.loop.depth < p.hProps.length := by
  unfold outermostBands at h
  simp only [Option.bind_eq_bind, Option.bind_eq_some_iff] at h
  obtain ⟨all, ha, bs, h1, h2⟩ := h
  simp only [Option.pure_def, Option.some.injEq] at h2
  obtain ⟨k1, _⟩ := outer_sublist h1
  intro b hb
  have hbc : b ∈ bs.filterMap id := by
    rw [← h2, dominatorBands] at hb
    exact (List.mem_filter.mp hb).1
  have hm := k1.subset (List.mem_map_of_mem hbc)
  unfold getAllLoops getLoopsUnder at ha
  have := (loopsUnder_spec _ _ _ _ List.nodup_range ha).hi _ hm
  omega

/-- Bands that are changed had a sequential outer loop. -/
theorem diamondTile_seq (o : SearchOpts) (full : Bool) (L : Libs) (solve : Cst → Option (List Int))
    (hE : EmptyOracle L.isEmpty) (hk : SkelOK k) (hi : Inv False k p) (ev : List (Option Evicted)) (s : DiaState)
    (h : diamondTile o full L solve p ev = some s) :
    ∀ be ∈ s.done, ∃ d ∈ p.deps, d.rar = false ∧ d.src ∈ be.1.loop.stmts ∧ d.dest ∈ be.1.loop.stmts ∧
      ∃ x y q, p.Inst d x y q ∧ p.phi d.src be.1.loop.depth x q ≠ p.phi d.dest be.1.loop.depth y q := by
  unfold diamondTile at h
  simp only [Option.bind_eq_bind, Option.bind_eq_some_iff] at h
  obtain ⟨p1, h1, p2, h2, bands, h3, s1, h4, h⟩ := h
  simp only [Option.pure_def, Option.some.injEq] at h
  obtain ⟨hinfo, e2, hf⟩ := C21_info hE p p1 p2 (hi.transOK hk) (fun d hd => hk.fits hi.sk hd) h1 h2
  have hd : s.done = s1.done := by rw [← h]; split_ifs <;> rfl
  intro be hbe
  obtain ⟨hmem, hseq⟩ := diamondFold_seq o full L solve _ p2 bands bands _ s1 (fun _ hb => hb) rfl (by simp) h4 be (hd ▸ hbe)
  obtain ⟨d', hd', g1, g2, g3, ⟨x, y, q, g4, g5⟩, _⟩ := rejected_spec hinfo (outermost_depth h3 _ hmem) hseq
  obtain ⟨i, hi', rfl⟩ := List.getElem_of_mem hd'
  have hlen := hf.length_eq
  have hx := List.forall₂_iff_get.mp hf |>.2 i (by omega) (by omega)
  simp only [List.get_eq_getElem] at hx
  refine ⟨p.deps[i], List.getElem_mem _, ?_⟩
  have hphi : ∀ i l x q, p2.phi i l x q = p.phi i l x q := by intro i l x q; rw [e2]; rfl
  rw [hphi, hphi] at g5
  have hin : ∀ d x y q, p2.Inst d x y q → p.Inst d x y q := by intro d x y q; rw [e2]; exact id
  have g4 := hin _ _ _ _ g4
  rw [hx] at g1 g2 g3 g5 g4
  exact ⟨g1, g2, g3, x, y, q, g4, g5⟩

end

end Pluto
