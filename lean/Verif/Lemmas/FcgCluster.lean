import Verif.Lemmas.FcgBuild2
import Verif.Spec.FcgCluster
/-! The systems of the clustered approach: dependence constraints when coefficients of padding dimensions are not 0. -/
namespace Pluto

/-! ### Columns of padding dimensions -/

theorem aff_congr_zero {r : List Int} {x y : List ℚ} (hl : x.length = y.length)
    (h : ∀ j < x.length, r.getD j 0 = 0 ∨ x.getD j 0 = y.getD j 0) : aff r x = aff r y := by
  unfold aff
  induction r generalizing x y with
  | nil => cases x <;> cases y <;> simp [dot]
  | cons a r ih =>
    cases x with
    | nil =>
      cases y with
      | nil => rfl
      | cons => simp at hl
    | cons b x =>
      cases y with
      | nil => simp at hl
      | cons c y =>
        have h0 := h 0 (by simp)
        have := ih (x := x) (y := y) (by simpa using hl) (fun j hj => by
          have := h (j + 1) (by simpa using hj)
          simpa using this)
        simp only [List.cons_append, dot, this]
        simp only [List.getD_cons_zero] at h0
        rcases h0 with h0 | h0 <;> simp [h0]

theorem set_getD_zero {r : List Int} {i j : Nat} (h : r.getD j 0 = 0 ∨ i = j) : (r.set i 0).getD j 0 = 0 := by
  rw [List.getD_eq_getElem?_getD, List.getElem?_set]
  rw [List.getD_eq_getElem?_getD] at h
  by_cases e : i = j
  · rw [if_pos e]; split_ifs <;> rfl
  · rw [if_neg e]; exact h.resolve_right e

/-- The columns of padding dimensions of both statements are 0, unless the number of the source happens to be the first column
of the target. -/
theorem zeroPad_zero {nvar npar src dest : Nat} {o1 o2 : List Bool} {row : List Int} (hc : src ≠ stmtOffset nvar npar dest) {k : Nat}
    (hk : k < nvar) :
    (o1.getD k true = false → (zeroPad nvar npar src dest o1 o2 row).getD (stmtOffset nvar npar src + k) 0 = 0) ∧
    (o2.getD k true = false → (zeroPad nvar npar src dest o1 o2 row).getD (stmtOffset nvar npar dest + k) 0 = 0) := by
  unfold zeroPad
  have key : ∀ (ks : List Nat) (row : List Int),
      (∀ j, row.getD j 0 = 0 → (ks.foldl (fun row k =>
        let row := if o1.getD k true then row else row.set (stmtOffset nvar npar src + k) 0
        if src ≠ stmtOffset nvar npar dest ∧ o2.getD k true = false then
          row.set (stmtOffset nvar npar dest + k) 0
        else row) row).getD j 0 = 0) ∧
      ∀ k ∈ ks, (o1.getD k true = false → (ks.foldl (fun row k =>
        let row := if o1.getD k true then row else row.set (stmtOffset nvar npar src + k) 0
        if src ≠ stmtOffset nvar npar dest ∧ o2.getD k true = false then
          row.set (stmtOffset nvar npar dest + k) 0
        else row) row).getD (stmtOffset nvar npar src + k) 0 = 0) ∧
      (o2.getD k true = false → (ks.foldl (fun row k =>
        let row := if o1.getD k true then row else row.set (stmtOffset nvar npar src + k) 0
        if src ≠ stmtOffset nvar npar dest ∧ o2.getD k true = false then
          row.set (stmtOffset nvar npar dest + k) 0
        else row) row).getD (stmtOffset nvar npar dest + k) 0 = 0) := by
    intro ks
    induction ks with
    | nil => intro row; exact ⟨fun _ h => h, by simp⟩
    | cons k0 ks ih =>
      intro row
      simp only [List.foldl_cons]
      set ra := (if o1.getD k0 true then row else row.set (stmtOffset nvar npar src + k0) 0) with hra
      set rb := (if src ≠ stmtOffset nvar npar dest ∧ o2.getD k0 true = false then
          ra.set (stmtOffset nvar npar dest + k0) 0 else ra) with hrb
      obtain ⟨i1, i2⟩ := ih rb
      have sa : ∀ j, row.getD j 0 = 0 → ra.getD j 0 = 0 := by
        intro j hj
        rw [hra]; split_ifs
        · exact hj
        · exact set_getD_zero (Or.inl hj)
      have sb : ∀ j, ra.getD j 0 = 0 → rb.getD j 0 = 0 := by
        intro j hj
        rw [hrb]; split_ifs
        · exact set_getD_zero (Or.inl hj)
        · exact hj
      refine ⟨fun j hj => i1 j (sb j (sa j hj)), ?_⟩
      intro k hk
      rcases List.mem_cons.mp hk with rfl | hk
      · constructor
        · intro h
          refine i1 _ (sb _ ?_)
          rw [hra, if_neg (by simp only [h]; decide)]
          exact set_getD_zero (Or.inr rfl)
        · intro h
          refine i1 _ ?_
          rw [hrb, if_pos ⟨hc, h⟩]
          exact set_getD_zero (Or.inr rfl)
      · exact i2 k hk
  exact (key _ row).2 k (List.mem_range.mpr hk)

/-- Two coefficient vectors that differ only in padding dimensions of source and target. -/
def PadAgree (p : Prog) (i j : Nat) (x y : List ℚ) : Prop :=
  x.length = y.length ∧ ∀ idx < x.length, x.getD idx 0 = y.getD idx 0 ∨
    ∃ k < p.nvar, (origOf p i).getD k true = false ∧ idx = stmtOffset p.nvar p.npar i + k ∨
      (origOf p j).getD k true = false ∧ idx = stmtOffset p.nvar p.npar j + k

theorem depCst_padAgree {nb : Bool} {p : Prog} {d : Dep} (hc : d.src ≠ stmtOffset p.nvar p.npar d.dest) {x y : List ℚ}
    (h : PadAgree p d.src d.dest x y) : (depCst nb p d).Sat x ↔ (depCst nb p d).Sat y := by
  unfold depCst Cst.Sat mapRows
  simp only [List.forall_mem_map]
  refine forall₂_congr fun r _ => ?_
  have : aff (zeroPad p.nvar p.npar d.src d.dest (origOf p d.src) (origOf p d.dest) r.val) x =
      aff (zeroPad p.nvar p.npar d.src d.dest (origOf p d.src) (origOf p d.dest) r.val) y := by
    refine aff_congr_zero h.1 fun j hj => ?_
    rcases h.2 j hj with h | ⟨k, hk, ⟨h1, rfl⟩ | ⟨h1, rfl⟩⟩
    · exact Or.inr h
    · exact Or.inl ((zeroPad_zero hc hk).1 h1)
    · exact Or.inl ((zeroPad_zero hc hk).2 h1)
  unfold Row.Sat
  rw [this]

/-- `C07_dep_exact` with zero columns only for the two statements of the dependence. -/
theorem dep_exact_at (nodepbound : Bool) (p : Prog) (d : Dep) (sol : List ℚ) (hd : DepOK p d)
    (hl : SolLen p sol) (hz1 : PadZeroAt p sol d.src) (hz2 : PadZeroAt p sol d.dest)
    (hne : ∃ s t q : List ℚ, DepInst d.dpoly p.nvar p.nvar p.npar s t q)
    (hneb : ∃ s t q : List ℚ, DepInst d.bpoly p.nvar p.nvar p.npar s t q) :
    (depCst nodepbound p d).Sat sol ↔
      (d.rar = false → ∀ s t q : List ℚ, DepInst d.dpoly p.nvar p.nvar p.npar s t q →
        0 ≤ hypValue p.nvar p.npar sol d.dest t - hypValue p.nvar p.npar sol d.src s) ∧
      (nodepbound = false → ∀ s t q : List ℚ, DepInst d.bpoly p.nvar p.nvar p.npar s t q →
        hypValue p.nvar p.npar sol d.dest t - hypValue p.nvar p.npar sol d.src s ≤
          boundValue p.npar sol q) := by
  have hw := solLen_width hl
  rw [depCst_sat_iff' nodepbound p d sol hd.src hd.dest hw hz1 hz2, validLocal_eq, boundLocal_eq]
  have hshv := phiValid_shape p d 0
  have hshb := phiBound_shape p d
  have hne' : ∃ x : List ℚ, x.length + 1 = d.dpoly.ncols ∧ d.dpoly.Sat x := by
    obtain ⟨s, t, q, hi⟩ := hne
    exact ⟨_, by simp [hi.hs, hi.ht, hi.hp, hd.dcols]; omega, hi.sat⟩
  have hneb' : ∃ x : List ℚ, x.length + 1 = d.bpoly.ncols ∧ d.bpoly.Sat x := by
    obtain ⟨s, t, q, hi⟩ := hneb
    exact ⟨_, by simp [hi.hs, hi.ht, hi.hp, hd.bcols]; omega, hi.sat⟩
  rw [C06_farkas_exact d.dpoly (phiValid p d 0) _ _ hd.dwf (by rw [hshv.1, hd.dcols]) hshv.2
      (localSol_len0 p d sol hd.src hd.dest hw 0 (by omega)) hne',
    C06_farkas_exact d.bpoly (phiBound p d) _ _ hd.bwf (by rw [hshb.1, hd.bcols]) hshb.2
      (localSol_len0 p d sol hd.src hd.dest hw (p.npar + 1) (le_refl _)) hneb']
  refine and_congr (imp_congr_right fun _ => ?_) (imp_congr_right fun _ => ?_)
  · constructor
    · intro h s t q hi
      have := h (s ++ t ++ q) (by simp [hi.hs, hi.ht, hi.hp, hd.dcols]; omega) hi.sat
      unfold phiValid at this
      rw [valid_form p d 0 sol s t q hd.src hd.dest hw hi.hs hi.ht hi.hp] at this
      simpa using this
    · intro h x hx hs
      obtain ⟨s, t, q, h1, h2, h3, rfl⟩ := exists_split3 x p.nvar p.npar (by rw [hd.dcols] at hx; omega)
      unfold phiValid
      rw [valid_form p d 0 sol s t q hd.src hd.dest hw h1 h2 h3]
      simpa using h s t q ⟨h1, h2, h3, hs⟩
  · constructor
    · intro h s t q hi
      have := h (s ++ t ++ q) (by simp [hi.hs, hi.ht, hi.hp, hd.bcols]; omega) hi.sat
      unfold phiBound at this
      rw [bound_form p d sol s t q hd.src hd.dest hw hi.hs hi.ht hi.hp] at this
      linarith
    · intro h x hx hs
      obtain ⟨s, t, q, h1, h2, h3, rfl⟩ := exists_split3 x p.nvar p.npar (by rw [hd.bcols] at hx; omega)
      unfold phiBound
      rw [bound_form p d sol s t q hd.src hd.dest hw h1 h2 h3]
      have := h s t q ⟨h1, h2, h3, hs⟩
      linarith

/-- The system of a dependence says that the level respects it. -/
theorem dep_level_at {o : SearchOpts} {p : Prog} {sol : List ℚ} {v : LoopLevel} {d : Dep} (hd : DepOK p d) (hs : SolLen p sol)
    (hz1 : PadZeroAt p sol d.src) (hz2 : PadZeroAt p sol d.dest)
    (hne : ∃ s t q : List ℚ, DepInst d.dpoly p.nvar p.nvar p.npar s t q)
    (hneb : ∃ s t q : List ℚ, DepInst d.bpoly p.nvar p.nvar p.npar s t q)
    (h1 : ∀ x : List ℚ, x.length = p.nvar → hypValue p.nvar p.npar sol d.src x = v.time d.src x)
    (h2 : ∀ x : List ℚ, x.length = p.nvar → hypValue p.nvar p.npar sol d.dest x = v.time d.dest x) :
    (depCst o.nodepbound p d).Sat sol ↔
      v.Weak p d ∧ (o.nodepbound = false → v.Bounded p (sol.take p.npar) (sol.getD p.npar 0) d) := by
  rw [dep_exact_at o.nodepbound p d sol hd hs hz1 hz2 hne hneb]
  have hlen : p.npar + 1 ≤ sol.length := by rw [hs]; omega
  unfold LoopLevel.Weak LoopLevel.Bounded
  refine and_congr (imp_congr_right fun _ => ?_) (imp_congr_right fun _ => ?_)
  · refine forall_congr' fun s => forall_congr' fun t => forall_congr' fun q => imp_congr_right fun hi => ?_
    rw [h1 s hi.hs, h2 t hi.ht]
    exact sub_nonneg
  · refine forall_congr' fun s => forall_congr' fun t => forall_congr' fun q => imp_congr_right fun hi => ?_
    rw [h1 s hi.hs, h2 t hi.ht, boundValue_split hlen q hi.hp]

end Pluto
