import Verif.Props.IslAffExamples

/-! C74: rows made from expressions with integer divisions. -/

namespace Pluto

theorem dot_zrow_left : ∀ (n : Nat) (v : List Int), dot (zrow n) v = 0
  | 0, _ => by simp [zrow, dot]
  | n + 1, [] => by simp [zrow, List.replicate_succ, dot]
  | n + 1, b :: v => by
    have := dot_zrow_left n v
    unfold zrow at this ⊢
    rw [List.replicate_succ]
    simp only [dot]
    simpa using this

/-- C74. The row made from the last piece of an expression that may have integer divisions, at every point: the value without
the divisions, if there is no division or the first one divides by 1 (and the coefficients are integers); 0 if the first
one divides by something else. -/
theorem C74_divs (l : List IslPiece) (pc : IslPiece) (hl : l.getLast? = some pc) (r : List Int) (hr : pwRow l = some r) (x q : List Int) :
    ((∀ d, pc.aff.divs.head? = some d → d.den = 1) → (∀ c ∈ pc.aff.coef, c.den = 1) →
      (((dot r (x ++ q ++ [1]) : Int)) : Rat) = ldot pc.aff.coef ((x ++ q ++ [1]).map (fun i => (i : Rat)))) ∧
    (∀ d, pc.aff.divs.head? = some d → d.den ≠ 1 → dot r (x ++ q ++ [1]) = 0) := by
  unfold pwRow at hr
  rw [hl, Option.map_some, Option.some.injEq] at hr
  subst hr
  unfold affRow
  constructor
  · intro h1 h2
    cases hd : pc.aff.divs with
    | nil => exact dot_num _ _ h2
    | cons d ds =>
      rw [hd] at h1
      simp only []
      rw [if_neg (by simpa using h1 d rfl)]
      exact dot_num _ _ h2
  · intro d h1 h2
    cases hd : pc.aff.divs with
    | nil => rw [hd] at h1; cases h1
    | cons d' ds =>
      rw [hd] at h1
      cases h1
      simp only []
      rw [if_pos h2]
      exact dot_zrow_left _ _

/-- C74. An expression with divisions that are not used (coefficient 0), the first of which divides by 1, is exact. -/
theorem C74_unused_divs (P : PwOps) (b : BMap) (hP : P.OKFor b) (i : Nat) (hi : i < b.nout) (hs : P.single b i = true) (pc : IslPiece)
    (hp : P.pieces b i = [pc]) (h1 : ∀ d, pc.aff.divs.head? = some d → d.den = 1) (h2 : ∀ c ∈ pc.aff.coef, c.den = 1)
    (h3 : ∀ c ∈ pc.aff.dcoef, c = 0) : ∃ r, pwRow (P.pieces b i) = some r ∧
      ∀ x y q, b.Has x y q → y[i]? = some (dot r (x ++ q ++ [1])) := by
  refine ⟨affRow pc.aff, by rw [hp]; rfl, fun x y q h => ?_⟩
  obtain ⟨pc', hm, hc⟩ := hP.cover i hi hs x y q h
  rw [hp, List.mem_singleton] at hm
  subst hm
  obtain ⟨v, e1, e2⟩ := hP.value i hi hs pc' (by rw [hp]; simp) x y q h hc
  have e3 := (C74_divs (P.pieces b i) pc' (by rw [hp]; rfl) (affRow pc'.aff) (by rw [hp]; rfl) x q).1 h1 h2
  have hz : ∀ (c : List Rat) (w : List Rat), (∀ a ∈ c, a = 0) → ldot c w = 0 := by
    intro c
    induction c with
    | nil => intro w _; simp [ldot]
    | cons a c ih =>
      intro w hc
      cases w with
      | nil => simp [ldot]
      | cons b w =>
        have := ih w (fun a ha => hc a (List.mem_cons_of_mem _ ha))
        simp only [ldot] at this ⊢
        simp [hc a (by simp), this]
  unfold IslAff.value at e2
  rw [hz _ _ h3, add_zero, ← e3] at e2
  rw [e1]
  congr 1
  exact_mod_cast e2

/-- C74. An expression whose first division divides by more than 1 becomes a zero row, whatever else it consists of. -/
theorem C74_violated_mixed_div : ∃ (a : IslAff) (r : List Int), pwRow [⟨[], a⟩] = some r ∧ (∀ i : Int, a.value [i] [] = 5 * i + (i / 2 : Int)) ∧
    ∀ i : Int, dot r ([i] ++ [1]) = 0 := by
  refine ⟨⟨1, 0, [5, 0], [⟨[1, 0], 2⟩], [1]⟩, _, rfl, fun i => ?_, fun i => ?_⟩
  · simp [IslAff.value, ldot, divValues, dot]
  · simpa using (C74_divs [⟨[], ⟨1, 0, [5, 0], [⟨[1, 0], 2⟩], [1]⟩⟩] _ rfl _ rfl [i] []).2 ⟨[1, 0], 2⟩ rfl (by decide)

/-- The expression `2 i + 1` with an unused division by 1. -/
def oneDivOps : PwOps := ⟨fun _ _ => true, fun _ i => if i = 0 then [⟨[anyPoint], ⟨1, 0, [2, 1], [⟨[1, 0], 1⟩], [0]⟩⟩] else [⟨[anyPoint], ⟨1, 0, [1, 0], [], []⟩⟩]⟩

/-- The hypotheses of `C74_unused_divs` on the shape of the piece. -/
example : pwRow (oneDivOps.pieces affMap 0) = some [2, 1] ∧ (oneDivOps.pieces affMap 0).length = 1 ∧
    ∀ pc ∈ oneDivOps.pieces affMap 0, (∀ d, pc.aff.divs.head? = some d → d.den = 1) ∧ (∀ c ∈ pc.aff.coef, c.den = 1) ∧ (∀ c ∈ pc.aff.dcoef, c = 0) := by
  refine ⟨by decide +kernel, rfl, fun pc hpc => ?_⟩
  have : oneDivOps.pieces affMap 0 = [⟨[anyPoint], ⟨1, 0, [2, 1], [⟨[1, 0], 1⟩], [0]⟩⟩] := rfl
  rw [this, List.mem_singleton] at hpc
  subst hpc
  refine ⟨fun d hd => ?_, by decide +kernel, by decide +kernel⟩
  cases hd
  rfl

end Pluto
