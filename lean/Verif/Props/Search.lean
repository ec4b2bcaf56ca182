import Verif.Lemmas.Lexmin

/-! C28: the ILP wrapper `pluto_prog_constraints_lexmin`. -/

namespace Pluto

theorem C28_lexmin (dfp : Bool) (solve : Cst → Option (List Int)) (hs : LexminOracle solve) (p : Prog)
    (ho : p.OrigOK) (cst : Cst) (hw : cst.WF) (hne : cst.rows ≠ [])
    (hc : cst.ncols = p.npar + 1 + p.stmts.length * (p.nvar + 1) + 1) :
    ∃ r, progLexmin dfp solve p cst = some r ∧
      (∀ sol, r = some sol → Candidate p cst sol ∧
        ∀ z, Candidate p cst z → LexLe (searchOrder dfp p sol) (searchOrder dfp p z)) ∧
      (r = none → ¬ ∃ z, Candidate p cst z) := by
  have hc' : cst.ncols = cstWidth p.nvar p.npar p.stmts.length := hc
  have hcount := keepCols_count ho
  have hwf := inner_WF dfp ho cst hw hne hc'
  have hcols : (innerCst dfp p cst).ncols = (keepCols p).countP id + 1 := by simp [innerCst, hne]
  obtain ⟨h1, h2⟩ := hs _ hwf
  -- every candidate is the image of a point of the inner system
  have back : ∀ z, Candidate p cst z →
      let y := permuteB dfp p (keepMask (keepCols p) z)
      y.length + 1 = (innerCst dfp p cst).ncols ∧ NonNeg y ∧ (innerCst dfp p cst).Sat y := by
    intro z hz
    obtain ⟨hl, hp, hn, hsat⟩ := hz
    have hl' : (keepCols p).length = z.length := by rw [keepCols_length]; exact hl.symm
    have hk : (keepMask (keepCols p) z).length = (keepCols p).countP id := keepMask_length _ _ hl'
    have hyl : (permuteB dfp p (keepMask (keepCols p) z)).length = (keepCols p).countP id := by
      rw [permuteB_length, hk]
    refine ⟨by rw [hyl, hcols], ?_, ?_⟩
    · intro a ha
      exact hn a (keep_mem _ _ _ ((permuteB_mem _ _ _).mp ha))
    · rw [sat_inner dfp ho cst hw hc' _ hyl, permuteB_permuteB _ _ (by omega),
        spread_keep _ _ hl' ((padZero_iff ho z).mp hp)]
      exact hsat
  refine ⟨_, progLexmin_eq dfp solve cst hc', ?_, ?_⟩
  · intro sol hsol
    obtain ⟨x, hx, rfl⟩ := Option.map_eq_some_iff.mp hsol
    obtain ⟨hxl, hxn, hxs, hmin⟩ := h1 x hx
    rw [hcols] at hxl
    have hxl' : x.length = (keepCols p).countP id := by omega
    rw [permute_eq _ _ (by omega)]
    have hlen : SolLen p (spreadMask (keepCols p) (permuteB dfp p x)) := by
      show _ = _
      rw [spreadMask_length, keepCols_length]
    refine ⟨⟨hlen, (padZero_iff ho _).mpr (fun j hj => spread_zero _ _ _ hj), ?_,
      (sat_inner dfp ho cst hw hc' x hxl').mp hxs⟩, ?_⟩
    · exact spread_nonneg _ _ (fun a ha => hxn a ((permuteB_mem _ _ _).mp ha))
    · intro z hz
      obtain ⟨hb1, hb2, hb3⟩ := back z hz
      rw [searchOrder_eq dfp ho _ hlen, searchOrder_eq dfp ho _ hz.1,
        keep_spread _ _ (by rw [permuteB_length, hxl']), permuteB_permuteB _ _ (by omega)]
      exact hmin _ hb1 hb2 hb3
  · intro hr ⟨z, hz⟩
    rw [Option.map_eq_none_iff] at hr
    exact h2 hr ⟨_, back z hz⟩

/-- Two statements, one with two original loops and a padding dimension, one with a single loop. -/
def searchProg : Prog :=
  ⟨3, 1, [⟨3, 2, ⟨5, []⟩, [true, true, false], [], []⟩, ⟨3, 1, ⟨5, []⟩, [false, true, false], [], []⟩],
    [], []⟩

/-- `c_1 >= 1` for the first statement and `c_1 + c_2 >= 1` for the second. -/
def searchCst : Cst :=
  ⟨11, [⟨false, [0, 0, 1, 0, 0, 0, 0, 0, 0, 0, -1]⟩, ⟨false, [0, 0, 0, 0, 0, 0, 1, 1, 0, 0, -1]⟩]⟩

example : (∃ solve, LexminOracle solve) ∧ searchProg.OrigOK ∧ searchCst.WF ∧ searchCst.rows ≠ [] ∧
    searchCst.ncols = searchProg.npar + 1 + searchProg.stmts.length * (searchProg.nvar + 1) + 1 := by
  refine ⟨exists_lexminOracle, ?_, by decide, by decide, by decide⟩
  unfold Prog.OrigOK
  decide

/-- The order compared for a two loop statement is innermost coefficient first. -/
example : searchOrder false searchProg [1, 2, 10, 11, 0, 12, 0, 20, 0, 21] = [1, 2, 11, 10, 12, 20, 21] ∧
    searchOrder true searchProg [1, 2, 10, 11, 0, 12, 0, 20, 0, 21] = [1, 2, 10, 11, 12, 20, 21] := by
  decide

/-- With a solver that answers `u = w = 0`, the vector goes back to the right columns. -/
example : progLexmin false (fun c => if c.rows = [⟨false, [0, 0, 0, 1, 0, 0, 0, -1]⟩,
      ⟨false, [0, 0, 0, 0, 0, 1, 0, -1]⟩] then some [0, 0, 0, 1, 0, 1, 0] else none) searchProg searchCst =
    some (some [0, 0, 1, 0, 0, 0, 0, 1, 0, 0]) := by decide

/-- A system with the wrong number of columns fails the assertion. -/
theorem C28_ncols (dfp : Bool) (solve : Cst → Option (List Int)) (p : Prog) (cst : Cst)
    (hc : cst.ncols ≠ p.npar + 1 + p.stmts.length * (p.nvar + 1) + 1) :
    progLexmin dfp solve p cst = none := by
  unfold progLexmin
  rw [if_pos]
  exact hc

end Pluto
