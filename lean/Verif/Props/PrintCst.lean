import Verif.Lemmas.PrintCst2

/-! C82: printed constraint systems mean the same as the system. -/

namespace Pluto

theorem mapM_lines {α : Type*} {f : α → Option (List Char)} {P : α → List Char → Prop} : ∀ {rows : List α},
    (∀ r ∈ rows, ∃ L, f r = some (L ++ ['\n']) ∧ P r L) →
    ∃ Ls, rows.mapM f = some (Ls.map (fun L => L ++ ['\n'])) ∧ List.Forall₂ P rows Ls
  | [], _ => ⟨[], rfl, .nil⟩
  | r :: rows, h => by
    obtain ⟨L, h1, h2⟩ := h r (by simp)
    obtain ⟨Ls, h3, h4⟩ := mapM_lines (rows := rows) (fun r hr => h r (by simp [hr]))
    exact ⟨L :: Ls, by simp [h1, h3], .cons h2 h4⟩

theorem textLines_one {A : List Char} (h : '\n' ∉ A) : textLines (A ++ ['\n']) = [A, []] := by
  rw [textLines_append [] h]; rfl

theorem natDec_not {c : Char} (hc : isDec c = false) (n : Nat) : c ∉ natDec n := by
  intro h
  rw [natDec_isDec n c h] at hc
  cases hc

theorem intDec_not {c : Char} (hc : isDec c = false) (hm : c ≠ '-') (z : Int) : c ∉ intDec z := by
  unfold intDec
  split
  · rw [List.mem_cons, not_or]; exact ⟨hm, natDec_not hc _⟩
  · exact natDec_not hc _

/-- The line with the numbers of dimensions and constraints. -/
theorem dimsLine_eq (c : Cst) : ∃ L, dimsLine c = L ++ ['\n'] ∧ '\n' ∉ L ∧ '=' ∉ L ∧ L.take 5 ≠ ['S', 'e', 't', ' ', '#'] := by
  have a : ∀ d : Char, isDec d = false → d ≠ '-' → d ∉ "[".toList → d ∉ " dims; ".toList → d ∉ " constraints]".toList →
      d ∉ '[' :: intDec ((c.ncols : Int) - 1) ++ " dims; ".toList ++ natDec c.rows.length ++ " constraints]".toList := by
    intro d h1 h2 h3 h4 h5
    simp only [List.mem_append, List.mem_cons, not_or, List.cons_append]
    refine ⟨by simpa using h3, ⟨⟨intDec_not h1 h2 _, h4⟩, natDec_not h1 _⟩, h5⟩
  refine ⟨'[' :: intDec ((c.ncols : Int) - 1) ++ " dims; ".toList ++ natDec c.rows.length ++ " constraints]".toList, ?_, ?_, ?_, ?_⟩
  · have e : " constraints]\n".toList = " constraints]".toList ++ ['\n'] := by decide
    simp only [dimsLine, e, List.append_assoc, List.cons_append]
  · exact a _ (by decide) (by decide) (by decide) (by decide) (by decide)
  · exact a _ (by decide) (by decide) (by decide) (by decide) (by decide)
  · simp

/-- A system as printed by `pluto_constraints_pretty_print`, with the given names of at most five characters or without names for at most 18
variables, holds for just the points of the system. -/
theorem C82_pretty_partial (c : Cst) (hc : c.WF) (names : Option (List (List Char))) (hn : NamesFit 5 18 (c.ncols - 1) names) :
    ∃ text, prettyPrint names c = some text ∧ ∀ (σ : List Char → Int) (x : List Int), x.length + 1 = c.ncols →
      Reads σ (knownAs names) x → ∃ b, systemHolds σ text = some b ∧ (b = true ↔ c.Sat x) := by
  obtain ⟨n, hn1⟩ : ∃ n, c.ncols = n + 1 := ⟨c.ncols - 1, by have := hc.1; omega⟩
  unfold prettyPrint
  by_cases hr : c.rows = []
  · rw [if_pos hr]
    refine ⟨_, rfl, fun σ x hx hσ => ⟨true, ?_, by simp [Cst.Sat, hr]⟩⟩
    have e : " dims)!\n".toList = " dims)!".toList ++ ['\n'] := by decide
    have a : ∀ d : Char, isDec d = false → d ≠ '-' → d ∉ "Universal polyhedron -- no constraints (".toList → d ∉ " dims)!".toList →
        d ∉ "Universal polyhedron -- no constraints (".toList ++ intDec ((c.ncols : Int) - 1) ++ " dims)!".toList := by
      intro d h1 h2 h3 h4
      simp only [List.mem_append, not_or]
      exact ⟨⟨h3, intDec_not h1 h2 _⟩, h4⟩
    rw [e, ← List.append_assoc, systemHolds, textLines_one (a _ (by decide) (by decide) (by decide) (by decide)),
      linesHold_skip (a _ (by decide) (by decide) (by decide) (by decide))]
    rfl
  · rw [if_neg hr, hn1]
    obtain ⟨Ls, h1, h2⟩ := mapM_lines (f := prettyRow names (n + 1)) (rows := c.rows)
      (fun r hr => prettyRow_line (by rw [hn1] at hn; exact hn) r (by rw [← hn1]; exact hc.2 r hr))
    rw [h1]
    refine ⟨_, rfl, fun σ x hx hσ => ?_⟩
    have h3 := h2.imp (fun r L h => h σ x (by omega) hσ)
    obtain ⟨D, hD, hD1, hD2, -⟩ := dimsLine_eq c
    have hnl : ∀ L ∈ Ls, '\n' ∉ L := by
      intro L hL
      obtain ⟨r, -, h⟩ := forall₂_mem_right h3 hL
      exact h.nl
    have hl : textLines (dimsLine c ++ (Ls.map (fun L => L ++ ['\n'])).flatten ++ ['\n']) = D :: (Ls ++ [[], []]) := by
      rw [hD, List.append_assoc, List.append_assoc, List.singleton_append, textLines_append _ hD1, textLines_rows _ hnl]
      rfl
    unfold systemHolds
    rw [hl, linesHold_skip hD2]
    obtain ⟨b, hb, hP⟩ := linesHold_rows (fun r : Row => r.Sat x) True (ls := [[], []]) ⟨true, rfl, by simp⟩ h3
    exact ⟨b, hb, by rw [hP, and_true]; rfl⟩

theorem setHead (num : Nat) : ∃ L, "Set #".toList ++ natDec (num + 1) ++ ['\n'] = L ++ ['\n'] ∧ '\n' ∉ L ∧
    L.take 5 = ['S', 'e', 't', ' ', '#'] := by
  refine ⟨_, rfl, ?_, by simp⟩
  simp only [List.mem_append, not_or]
  exact ⟨by decide, natDec_not (by decide) _⟩

/-- A list of systems as printed by `pluto_constraints_compact_print`, each with its names of at most five characters or without names for at
most 18 variables: one of the printed sets holds for just the points of the union. -/
theorem C82_compact_partial (l : List (Cst × Option (List (List Char)))) (m : Nat)
    (hl : ∀ p ∈ l, p.1.WF ∧ p.1.ncols = m + 1 ∧ NamesFit 5 18 m p.2) (num : Nat) :
    ∃ text, compactPrint num l = some text ∧ ∀ (σ : List Char → Int) (x : List Int), x.length = m →
      (∀ p ∈ l, Reads σ (knownAs p.2) x) → ∃ b, unionHolds σ text = some b ∧ (b = true ↔ SatUnion (l.map Prod.fst) x) := by
  suffices H : ∀ (l : List (Cst × Option (List (List Char)))) (num : Nat), (∀ p ∈ l, p.1.WF ∧ p.1.ncols = m + 1 ∧ NamesFit 5 18 m p.2) →
      ∃ text, compactPrint num l = some text ∧ ∀ (σ : List Char → Int) (x : List Int), x.length = m →
        (∀ p ∈ l, Reads σ (knownAs p.2) x) → (∃ P S, setsOf (textLines text) = (P, S) ∧ linesHold σ P = some true ∧
          ∃ bs, S.mapM (linesHold σ) = some bs ∧ (bs.any id = true ↔ SatUnion (l.map Prod.fst) x)) by
    obtain ⟨text, h1, h2⟩ := H l num hl
    refine ⟨text, h1, fun σ x hx hσ => ?_⟩
    obtain ⟨P, S, h3, -, bs, h4, h5⟩ := h2 σ x hx hσ
    exact ⟨_, by unfold unionHolds; rw [h3]; simp only [h4]; rfl, h5⟩
  clear hl l num
  intro l
  induction l with
  | nil =>
    intro num _
    refine ⟨[], rfl, fun σ x _ _ => ⟨_, [], rfl, rfl, [], rfl, by simp [SatUnion]⟩⟩
  | cons p l ih =>
    obtain ⟨c, names⟩ := p
    intro num hl
    obtain ⟨hwf, hcols, hnames⟩ := hl (c, names) (by simp)
    simp only at hwf hcols hnames
    obtain ⟨H, hH, hH1, hH2⟩ := setHead num
    unfold compactPrint
    simp only
    by_cases hr : c.rows = []
    · rw [if_pos hr]
      refine ⟨_, rfl, fun σ x hx hσ => ?_⟩
      have e : " dims)!\n".toList = " dims)!".toList ++ ['\n'] := by decide
      have a : ∀ d : Char, isDec d = false → d ≠ '-' → d ∉ "Universal polyhedron -- No constraints (".toList → d ∉ " dims)!".toList →
          d ∉ "Universal polyhedron -- No constraints (".toList ++ intDec ((c.ncols : Int) - 1) ++ " dims)!".toList := by
        intro d h1 h2 h3 h4
        simp only [List.mem_append, not_or]
        exact ⟨⟨h3, intDec_not h1 h2 _⟩, h4⟩
      have hl : textLines ("Set #".toList ++ natDec (num + 1) ++ ['\n'] ++ "Universal polyhedron -- No constraints (".toList ++
          intDec ((c.ncols : Int) - 1) ++ " dims)!\n".toList) =
          [H, "Universal polyhedron -- No constraints (".toList ++ intDec ((c.ncols : Int) - 1) ++ " dims)!".toList, []] := by
        rw [hH, e]
        have := textLines_append (("Universal polyhedron -- No constraints (".toList ++ intDec ((c.ncols : Int) - 1) ++ " dims)!".toList) ++
          ['\n']) hH1
        rw [textLines_one (a _ (by decide) (by decide) (by decide) (by decide))] at this
        rw [← this]
        simp only [List.append_assoc, List.cons_append, List.nil_append]
      rw [hl]
      have e2 : ("Universal polyhedron -- No constraints (".toList ++ intDec ((c.ncols : Int) - 1) ++ " dims)!".toList).take 5 ≠
          ['S', 'e', 't', ' ', '#'] := by simp
      refine ⟨_, _, by rw [setsOf_head hH2, setsOf_skip e2, setsOf_skip (by simp)], rfl, [true], ?_, ?_⟩
      · simp only [setsOf, List.mapM_cons, List.mapM_nil]
        rw [linesHold_skip (a _ (by decide) (by decide) (by decide) (by decide))]
        rfl
      · simp [SatUnion, Cst.Sat, hr]
    · rw [if_neg hr, hcols]
      obtain ⟨Ls, h1, h2⟩ := mapM_lines (f := compactRow names (m + 1)) (rows := c.rows)
        (fun r hr => compactRow_line hnames r (by rw [← hcols]; exact hwf.2 r hr))
      obtain ⟨rest, h3, h4⟩ := ih (num + 1) (fun p hp => hl p (by simp [hp]))
      simp only [h1, h3, Option.bind_eq_bind, Option.bind_some]
      refine ⟨_, rfl, fun σ x hx hσ => ?_⟩
      have h5 := h2.imp (fun r L h => h σ x (by omega) (hσ (c, names) (by simp)))
      obtain ⟨P, S, h6, h7, bs, h8, h9⟩ := h4 σ x hx (fun p hp => hσ p (by simp [hp]))
      obtain ⟨D, hD, hD1, hD2, hD3⟩ := dimsLine_eq c
      have hnl : ∀ L ∈ Ls, '\n' ∉ L := fun L hL => by obtain ⟨r, -, h⟩ := forall₂_mem_right h5 hL; exact h.nl
      have hhash : ∀ L ∈ Ls, '#' ∉ L := fun L hL => by obtain ⟨r, -, h⟩ := forall₂_mem_right h5 hL; exact h.hash
      have hlines : textLines ("Set #".toList ++ natDec (num + 1) ++ ['\n'] ++ dimsLine c ++ (Ls.map (fun L => L ++ ['\n'])).flatten ++ ['\n'] ++
          rest) = H :: D :: (Ls ++ [] :: textLines rest) := by
        rw [hH, hD]
        simp only [List.append_assoc, List.cons_append, List.nil_append]
        rw [textLines_append _ hH1, textLines_append _ hD1, textLines_rows _ hnl]
        rfl
      obtain ⟨b, hb, hP⟩ := linesHold_rows (fun r : Row => r.Sat x) True (ls := [] :: P)
        ⟨true, by rw [linesHold_skip (by simp)]; exact h7, by simp⟩ h5
      have hsets : setsOf (H :: D :: (Ls ++ [] :: textLines rest)) = ([], (D :: (Ls ++ [] :: P)) :: S) := by
        rw [setsOf_head hH2, setsOf_skip hD3, setsOf_rows _ hhash, setsOf_skip (by simp), h6]
      refine ⟨_, _, by rw [hlines, hsets], rfl, b :: bs, ?_, ?_⟩
      · rw [List.mapM_cons, linesHold_skip hD2, hb, h8]; rfl
      · simp only [List.any_cons, id_eq, Bool.or_eq_true, h9, hP, and_true, SatUnion, List.map_cons, List.mem_cons, exists_eq_or_imp]
        rfl


/-- A system as printed by `pluto_constraints_cplex_print` holds for just the points of the system, if it has at most 255 columns, names of at
most four characters (or none), and rows without coefficients are true. -/
theorem C82_cplex_partial (c : Cst) (hc : c.WF) (h255 : c.ncols ≤ 255) (names : Option (List (List Char)))
    (hn : NamesFit 4 254 (c.ncols - 1) names)
    (hz : ∀ r ∈ c.rows, (∀ j < c.ncols - 1, r.val.getD j 0 = 0) →
      0 ≤ r.val.getD (c.ncols - 1) 0 ∧ (r.eq = true → r.val.getD (c.ncols - 1) 0 = 0))
    (fuel : Nat) (hf : c.ncols < fuel) :
    ∃ text, cplexPrint fuel names c = some text ∧ ∀ (σ : List Char → Int) (x : List Int), x.length + 1 = c.ncols →
      Reads σ (numberedAs names) x → ∃ b, systemHolds σ text = some b ∧ (b = true ↔ c.Sat x) := by
  obtain ⟨n, hn1⟩ : ∃ n, c.ncols = n + 1 := ⟨c.ncols - 1, by have := hc.1; omega⟩
  have hrows : ∀ r ∈ c.rows, r.val.length = n + 1 := fun r hr => by rw [← hn1]; exact hc.2 r hr
  rw [hn1, Nat.add_sub_cancel] at hn hz
  rw [hn1] at hf
  have H : ∀ rows : List Row, (∀ r ∈ rows, r ∈ c.rows) → ∃ ts, rows.mapM (cplexRow fuel names (n + 1)) = some ts ∧
      ∀ (σ : List Char → Int) (x : List Int), x.length = n → Reads σ (numberedAs names) x → ∀ sp : List Char, noSpace sp = [] →
        ∃ b, linesHold σ (textLines (sp ++ ts.flatten ++ ['\n'])) = some b ∧ (b = true ↔ ∀ r ∈ rows, r.Sat x) := by
    intro rows
    induction rows with
    | nil =>
      intro _
      refine ⟨[], rfl, fun σ x _ _ sp hsp => ⟨true, ?_, by simp⟩⟩
      have hs : ∀ d ∈ sp, d = ' ' := by
        intro d hd
        by_contra hne
        have : d ∈ noSpace sp := by simp [noSpace, hd, hne]
        rw [hsp] at this; cases this
      rw [List.flatten_nil, List.append_nil, textLines_one (fun h => by have := hs _ h; revert this; decide),
        linesHold_skip (fun h => by have := hs _ h; revert this; decide)]
      rfl
    | cons r rows ih =>
      intro hsub
      obtain ⟨ts, h1, h2⟩ := ih (fun r hr => hsub r (by simp [hr]))
      have hr := hsub r (by simp)
      rcases cplexRow_text hn (by omega) hf r (hrows r hr) (hz r hr) with ⟨s, h3, h4, h5⟩ | ⟨L, h3, h4⟩
      · refine ⟨s :: ts, by simp [h3, h1], fun σ x hx hσ sp hsp => ?_⟩
        obtain ⟨b, h6, h7⟩ := h2 σ x hx hσ (sp ++ s) (by rw [noSpace_append, hsp, h4]; rfl)
        refine ⟨b, by simpa [List.append_assoc] using h6, ?_⟩
        rw [h7, List.forall_mem_cons]
        exact ⟨fun h => ⟨h5 x hx, h⟩, fun h => h.2⟩
      · refine ⟨(L ++ ['\n']) :: ts, by simp [h3, h1], fun σ x hx hσ sp hsp => ?_⟩
        have h5 := h4 sp hsp σ x hx hσ
        obtain ⟨b, h6, h7⟩ := linesHold_rel h5 (h2 σ x hx hσ [] rfl)
        refine ⟨b, ?_, by rw [h7, List.forall_mem_cons]⟩
        rw [← h6]
        have := textLines_append (ts.flatten ++ ['\n']) h5.nl
        rw [List.nil_append, ← this]
        simp [List.append_assoc]
  obtain ⟨ts, h1, h2⟩ := H c.rows (fun _ h => h)
  unfold cplexPrint
  rw [hn1, h1]
  refine ⟨_, rfl, fun σ x hx hσ => ?_⟩
  obtain ⟨b, h3, h4⟩ := h2 σ x (by omega) hσ [] rfl
  refine ⟨b, ?_, h4⟩
  unfold systemHolds
  by_cases hr : c.rows = []
  · have e : "No constraints!\n".toList = "No constraints!".toList ++ ['\n'] := by decide
    rw [if_pos hr, e]
    simp only [List.append_assoc, List.cons_append, List.nil_append] at h3 ⊢
    rw [textLines_append _ (by decide), linesHold_skip (by decide)]
    exact h3
  · rw [if_neg hr]; exact h3

/-- For example systems of two variables, with and without names, with equalities, rows without coefficients and negative entries. -/
example : NamesFit 5 18 2 (some ["i".toList, "N_1".toList]) ∧ NamesFit 5 18 2 none ∧ NamesFit 4 254 2 (some ["i".toList, "N_1".toList]) ∧
    (⟨3, [⟨false, [1, -1, 3]⟩, ⟨true, [-2, 12, 0]⟩, ⟨false, [0, 0, 5]⟩]⟩ : Cst).WF ∧
    compactPrint 0 [(⟨3, [⟨false, [1, -1, 3]⟩, ⟨true, [-2, 12, 0]⟩, ⟨false, [0, 0, 5]⟩]⟩, some ["i".toList, "N_1".toList])] =
      some "Set #1\n[2 dims; 3 constraints]\ni-N_1+3 >= 0\n-2i+12N_1 = 0\n5 >= 0\n\n".toList ∧
    prettyPrint none ⟨3, [⟨false, [1, -1, 3]⟩, ⟨true, [-2, 0, 0]⟩]⟩ =
      some "[2 dims; 2 constraints]\n+c_i -c_j +3 >= 0\n-2c_i            = 0\n\n".toList ∧
    cplexPrint 4 none ⟨3, [⟨false, [1, -1, 3]⟩, ⟨false, [0, 0, 5]⟩, ⟨true, [-2, 0, 0]⟩]⟩ =
      some "+c_0 -c_1 >= -3\n        -2c_0     = 0\n\n".toList := by
  refine ⟨by decide, by decide, by decide, by decide, by decide +kernel, by decide +kernel, by decide +kernel⟩

/-- Names are cut after five characters: different systems over distinct names are printed as the same text, so that no reader can tell them
apart. -/
theorem C82_violated_names : ∃ (names : List (List Char)) (c c' : Cst) (x : List Int), names.Nodup ∧ (∀ v ∈ names, IsName v) ∧ c.WF ∧ c'.WF ∧
    names.length + 1 = c.ncols ∧ names.length + 1 = c'.ncols ∧ x.length + 1 = c.ncols ∧ c.Sat x ∧ ¬ c'.Sat x ∧
    compactPrint 0 [(c, some names)] = compactPrint 0 [(c', some names)] ∧ (compactPrint 0 [(c, some names)]).isSome = true := by
  refine ⟨["width_in".toList, "width_out".toList], ⟨3, [⟨false, [1, 0, -1]⟩]⟩, ⟨3, [⟨false, [0, 1, -1]⟩]⟩, [1, 0], by decide, by decide, by decide,
    by decide, rfl, rfl, rfl, by simp [Cst.Sat, Row.Sat, aff, dot], by simp [Cst.Sat, Row.Sat, aff, dot], by decide +kernel, by decide +kernel⟩

/-- Without names the variables 0 and 256 have the same name: systems that bound the one or the other from below are printed as the same text. -/
theorem C82_violated_many : ∃ (c c' : Cst) (x : List Int), c.WF ∧ c'.WF ∧ x.length + 1 = c.ncols ∧ x.length + 1 = c'.ncols ∧ c.Sat x ∧ ¬ c'.Sat x ∧
    compactPrint 0 [(c, none)] = compactPrint 0 [(c', none)] ∧ (compactPrint 0 [(c, none)]).isSome = true := by
  refine ⟨⟨258, [⟨false, 1 :: List.replicate 256 0 ++ [-1]⟩]⟩, ⟨258, [⟨false, List.replicate 256 0 ++ [1, -1]⟩]⟩, 1 :: List.replicate 256 0,
    by decide +kernel, by decide +kernel, by decide +kernel, by decide +kernel, ?_, ?_, by decide +kernel, by decide +kernel⟩
  · intro r hr
    rw [List.mem_singleton] at hr
    subst hr
    show 0 ≤ aff _ _
    decide +kernel
  · intro h
    have : 0 ≤ aff (List.replicate 256 0 ++ [1, -1]) ((1 : Int) :: List.replicate 256 0) := h _ (List.mem_singleton.mpr rfl)
    revert this
    decide +kernel

/-- In the format for CPLEX an equality without coefficients is left out, even if it is false: a system without points is printed as one that
holds everywhere. -/
theorem C82_violated_cplex : ∃ (c : Cst) (text : List Char), c.WF ∧ (¬ ∃ x : List Int, x.length + 1 = c.ncols ∧ c.Sat x) ∧
    (∀ fuel, c.ncols < fuel → cplexPrint fuel none c = some text) ∧ ∀ σ, systemHolds σ text = some true := by
  refine ⟨⟨2, [⟨true, [0, 5]⟩]⟩, "    \n".toList, by decide, ?_, ?_, fun σ => rfl⟩
  · rintro ⟨x, hl, hx⟩
    have := hx ⟨true, [0, 5]⟩ (by simp)
    obtain ⟨a, rfl⟩ := List.length_eq_one_iff.mp (show x.length = 1 by simpa using hl)
    simp [Row.Sat, aff, dot] at this
  · intro fuel hf
    unfold cplexPrint
    simp only [List.mapM_cons, List.mapM_nil, cplexRow, cplexCols_range fuel 2 0 (by omega) (by omega) hf]
    decide +kernel

/-- With more than 255 columns the loop over the columns never ends, since its index is an `unsigned char`. -/
theorem C82_violated_columns (c : Cst) (hr : c.rows ≠ []) (hc : 256 ≤ c.ncols) (names : Option (List (List Char))) (fuel : Nat) :
    cplexPrint fuel names c = none := by
  unfold cplexPrint
  cases h : c.rows with
  | nil => exact absurd h hr
  | cons r rows =>
    have : cplexRow fuel names c.ncols r = none := by
      unfold cplexRow
      rw [cplexCols_forever fuel c.ncols 0 hc (by omega)]
      rfl
    rw [List.mapM_cons, this]
    rfl

end Pluto
