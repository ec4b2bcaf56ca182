import Verif.Lemmas.AutoFind
import Verif.Props.Legality
import Verif.Props.Ddg
import Verif.Spec.Dfp

/-! Hyperplanes that are scaled rational solutions. -/

namespace Pluto

theorem dep_legal_rat (nodepbound : Bool) (p : Prog) (d : Dep) (x : List ℚ) (hd : DepOK p d) (hrar : d.rar = false)
    (hl : SolLen p x) (hz : PadZero p x) (hsat : (depCst nodepbound p d).Sat x) (s t q : List ℚ)
    (hi : DepInst d.dpoly p.nvar p.nvar p.npar s t q) :
    0 ≤ hypValue p.nvar p.npar x d.dest t - hypValue p.nvar p.npar x d.src s := by
  have hw := solLen_width hl
  have h := ((depCst_sat_iff nodepbound p d x hd.src hd.dest hw hz).mp hsat).1 hrar
  rw [validLocal_eq] at h
  have hsh := phiValid_shape p d 0
  have := C06_farkas_sound d.dpoly (phiValid p d 0) _ _ hd.dwf (by rw [hsh.1, hd.dcols]) hsh.2
    (localSol_len0 p d x hd.src hd.dest hw 0 (by omega)) h (s ++ t ++ q)
    (by simp [hi.hs, hi.ht, hi.hp, hd.dcols]; omega) hi.sat
  have e := valid_form p d 0 x s t q hd.src hd.dest hw hi.hs hi.ht hi.hp
  unfold phiValid at this
  rw [e] at this
  simpa using this

theorem ldot_scale_int (c : ℚ) (a : List Int) (b : List ℚ) (t : List Int) (hl : a.length = b.length)
    (h : ∀ k < a.length, (a.getD k 0 : ℚ) = c * b.getD k 0) :
    ((ldot a t : Int) : ℚ) = c * ldot b (t.map (fun v : Int => (v : ℚ))) := by
  induction a generalizing b t with
  | nil =>
    cases b with
    | nil => simp [ldot]
    | cons y b => simp at hl
  | cons x a ih =>
    cases b with
    | nil => simp at hl
    | cons y b =>
      cases t with
      | nil => simp [ldot]
      | cons v t =>
        have h0 := h 0 (by simp)
        have := ih b t (by simpa using hl) (fun k hk => by simpa using h (k + 1) (by simpa using hk))
        simp only [ldot, List.map_cons]
        push_cast
        rw [this]
        simp only [List.getD_cons_zero] at h0
        rw [h0]
        ring

theorem hypValue_scale {p : Prog} {sol : List Int} {x : List ℚ} {c : ℚ} (hs : SolLen p sol) (hx : SolLen p x) {i : Nat} (hi : i < p.stmts.length)
    (h : ∀ k ≤ p.nvar, (sol.getD (p.npar + 1 + i * (p.nvar + 1) + k) 0 : ℚ) = c * x.getD (p.npar + 1 + i * (p.nvar + 1) + k) 0)
    (t : List Int) : ((hypValue p.nvar p.npar sol i t : Int) : ℚ) = c * hypValue p.nvar p.npar x i (t.map (fun v : Int => (v : ℚ))) := by
  have l1 : (solSlice p.nvar p.npar sol i).length = p.nvar + 1 := solSlice_length _ _ _ _ _ hi (solLen_width hs)
  have l2 : (solSlice p.nvar p.npar x i).length = p.nvar + 1 := solSlice_length _ _ _ _ _ hi (solLen_width hx)
  have e : t.map (fun v : Int => (v : ℚ)) ++ [1] = (t ++ [1]).map (fun v : Int => (v : ℚ)) := by simp
  unfold hypValue
  rw [e]
  refine ldot_scale_int c _ _ _ (l1.trans l2.symm) (fun k hk => ?_)
  have hk' : k ≤ p.nvar := by
    have : k < (solSlice p.nvar p.npar sol i).length := hk
    omega
  have := h k hk'
  rw [List.getD_eq_getElem?_getD, List.getD_eq_getElem?_getD, List.getElem?_take, List.getElem?_take, if_pos (by omega),
    if_pos (by omega), List.getElem?_drop, List.getElem?_drop]
  rw [List.getD_eq_getElem?_getD, List.getD_eq_getElem?_getD] at this
  exact this

/-- Components are not interrupted when every edge joins neighbouring statements. -/
theorem consecutive_of_neighbours (g : Graph) (h : ∀ i j, g.Edge i j → i ≤ j + 1 ∧ j ≤ i + 1) :
    ∀ i j k, i ≤ j → j ≤ k → k < g.n → g.Connected i k → g.Connected i j := by
  have key : ∀ i k, g.Connected i k → ∀ j, (i ≤ j ∧ j ≤ k) ∨ (k ≤ j ∧ j ≤ i) → g.Connected i j := by
    intro i k hk
    induction hk with
    | refl =>
      intro j hj
      have : j = i := by omega
      rw [this]
      exact Relation.ReflTransGen.refl
    | @tail b c hb hbc ih =>
      intro j hj
      have hn : b ≤ c + 1 ∧ c ≤ b + 1 := by
        rcases hbc with hbc | hbc
        · exact h _ _ hbc
        · exact (h _ _ hbc).symm
      by_cases hjc : j = c
      · subst hjc
        exact Relation.ReflTransGen.tail hb hbc
      · exact ih j (by omega)
  intro i j k h1 h2 _ hc
  exact key i k hc j (Or.inl ⟨h1, h2⟩)

theorem aff_unitRow_rat (n v : Nat) (k c : Int) (x : List ℚ) (hv : v + 1 < n) (hx : x.length + 1 = n) :
    aff (unitRow n v k c) x = (k : ℚ) * x.getD v 0 + c := by
  unfold unitRow
  obtain ⟨m, rfl⟩ : ∃ m, n = m + 1 := ⟨n - 1, by omega⟩
  have e : ((List.replicate (m + 1) (0 : Int)).set v k).set (m + 1 - 1) c = (zrow m).set v k ++ [c] := by
    rw [List.replicate_succ', List.set_append_left _ _ (by simp; omega), List.set_append_right _ _ (by simp)]
    simp [zrow]
  rw [e]
  unfold aff
  rw [dot_append _ _ _ _ (by simp [zrow]; omega), dot_set_zrow _ _ _ _ (by omega)]
  simp [dot]

/-- A dependence between statements that are scaled alike is kept. -/
theorem scaled_legal {nodepbound : Bool} {p : Prog} {d : Dep} {sol : List Int} {x : List ℚ} {f : Nat → ℚ} (hd : DepOK p d) (hrar : d.rar = false)
    (hs : SolLen p sol) (hx : SolLen p x) (hz : PadZero p x) (hsat : (depCst nodepbound p d).Sat x)
    (hf : ∀ i < p.stmts.length, 1 ≤ f i ∧ ∀ j ≤ p.nvar,
      (sol.getD (p.npar + 1 + i * (p.nvar + 1) + j) 0 : ℚ) = f i * x.getD (p.npar + 1 + i * (p.nvar + 1) + j) 0)
    (he : f d.src = f d.dest) (s t q : List Int) (hi : DepInst d.dpoly p.nvar p.nvar p.npar s t q) :
    0 ≤ hypValue p.nvar p.npar sol d.dest t - hypValue p.nvar p.npar sol d.src s := by
  have hi' : DepInst d.dpoly p.nvar p.nvar p.npar (s.map (fun v : Int => (v : ℚ))) (t.map (fun v : Int => (v : ℚ)))
      (q.map (fun v : Int => (v : ℚ))) := by
    refine ⟨by simp [hi.hs], by simp [hi.ht], by simp [hi.hp], ?_⟩
    have := (Cst.sat_castInt d.dpoly (s ++ t ++ q)).mpr hi.sat
    simpa using this
  have hl := dep_legal_rat nodepbound p d x hd hrar hx hz hsat _ _ _ hi'
  have h1 := hypValue_scale hs hx hd.dest (hf _ hd.dest).2 t
  have h2 := hypValue_scale hs hx hd.src (hf _ hd.src).2 s
  rw [he] at h2
  have hpos := (hf _ hd.dest).1
  have : (0 : ℚ) ≤ ((hypValue p.nvar p.npar sol d.dest t - hypValue p.nvar p.npar sol d.src s : Int) : ℚ) := by
    push_cast
    rw [h1, h2, ← mul_sub]
    exact mul_nonneg (by linarith) hl
  exact_mod_cast this

/-- An integer solver. -/
theorem lexIlp_scales {o : SearchOpts} {L : Libs} (hL : FeasibleOracle L.solve) (p : Prog) : LexScales p (lexIlp o L) := by
  intro a cst sol _ _ _ ho hw hne _ h
  obtain ⟨h1, h2, h3⟩ := progLexmin_feasible o.dfp L.solve hL a.p ho cst hw hne sol h
  have hg : ∀ i, (sol.map (Int.cast : Int → ℚ)).getD i 0 = ((sol.getD i 0 : Int) : ℚ) := by
    intro i
    simp only [List.getD_eq_getElem?_getD, List.getElem?_map]
    cases sol[i]? <;> simp
  refine ⟨h1, h2, sol.map (Int.cast : Int → ℚ), fun _ => 1, ?_, ?_, (Cst.sat_castInt cst sol).mpr h3, ?_, fun _ _ _ _ _ => rfl⟩
  · unfold SolLen at h1 ⊢
    rw [List.length_map]; exact h1
  · intro i st hst j hj hor
    have := h2 i st hst j hj hor
    rw [hg, this]; rfl
  · intro i _
    exact ⟨le_refl _, fun j _ => by rw [hg, one_mul]⟩

/-- Only the edges matter. -/
theorem LexScales.mono {p p' : Prog} {lex : Lex} (h : LexScales p lex)
    (he : ∀ d ∈ p'.deps, ∃ d0 ∈ p.deps, d0.src = d.src ∧ d0.dest = d.dest) : LexScales p' lex := by
  intro a cst sol hg
  refine h a cst sol ?_
  intro i j hij
  obtain ⟨d, hd, rfl, rfl⟩ := hg i j hij
  exact he d hd

end Pluto
