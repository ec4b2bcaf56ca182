import Verif.Lemmas.LpScale
import Verif.Lemmas.Legality

/-! From the columns seen by the solver to the columns of the system: rational points, and factors per statement. -/

namespace Pluto

theorem lexminInput_eq (dfp : Bool) (p : Prog) (cst : Cst) : lexminInput dfp p cst = innerCst dfp p cst := by
  unfold lexminInput innerCst
  have hne : ∀ ij ∈ (if dfp then [] else swapPairs (p.npar + 1) (p.stmts.map (·.dimOrig))), ij.1 ≠ ij.2 := by
    cases dfp with
    | true => simp
    | false => simpa using swapPairs_ne _ _
  simp only
  rw [interchange_fold _ _ hne]
  simp only [List.map_map]
  rfl

theorem revBlocks_map (ds : List Nat) (g : Int → Int) (r : List Int) : revBlocks ds (r.map g) = (revBlocks ds r).map g := by
  induction ds generalizing r with
  | nil => rfl
  | cons d ds ih => simp [revBlocks, ← List.map_take, ← List.map_drop, ih]

theorem dot_reverse_map {R : Type*} [CommRing R] (g : Int → R) (a b : List Int) (h : a.length = b.length) :
    dot a.reverse (b.reverse.map g) = dot a (b.map g) := by
  induction a generalizing b with
  | nil => simp [dot]
  | cons x a ih =>
    cases b with
    | nil => simp at h
    | cons y b =>
      simp only [List.reverse_cons, List.map_append, List.map_cons, List.map_nil]
      rw [dot_append _ _ _ _ (by simpa using h), ih b (by simpa using h)]
      simp [dot]
      ring

theorem dot_revBlocks_map {R : Type*} [CommRing R] (g : Int → R) (ds : List Nat) (a b : List Int) (h : a.length = b.length)
    (hl : blocksLen ds ≤ a.length) : dot (revBlocks ds a) ((revBlocks ds b).map g) = dot a (b.map g) := by
  induction ds generalizing a b with
  | nil => rfl
  | cons d ds ih =>
    have hl' : d + 1 + blocksLen ds ≤ a.length := by simpa [blocksLen] using hl
    simp only [revBlocks, List.map_append]
    rw [dot_append _ _ _ _ (by simp; omega), dot_append _ _ _ _ (by simp; omega),
      dot_reverse_map g _ _ (by simp; omega), ih _ _ (by simp; omega) (by simp; omega)]
    conv_rhs => rw [← List.take_append_drop d a, ← List.take_append_drop d b, List.map_append]
    rw [dot_append _ _ _ _ (by simp; omega)]
    congr 1
    conv_rhs => rw [← List.take_append_drop 1 (a.drop d), ← List.take_append_drop 1 (b.drop d), List.map_append]
    rw [dot_append _ _ _ _ (by simp; omega), List.drop_drop, List.drop_drop]

variable {p : Prog}

theorem dot_permuteB_map {R : Type*} [CommRing R] (g : Int → R) (dfp : Bool) (a b : List Int) (h : a.length = b.length)
    (hl : p.npar + 1 + blocksLen (p.stmts.map (·.dimOrig)) ≤ a.length) :
    dot (permuteB dfp p a) ((permuteB dfp p b).map g) = dot a (b.map g) := by
  unfold permuteB
  cases dfp with
  | true => rfl
  | false =>
    simp only [Bool.false_eq_true, if_false, List.map_append]
    rw [dot_append _ _ _ _ (by simp; omega), dot_revBlocks_map g _ _ _ (by simp; omega) (by simp; omega),
      ← dot_append _ _ _ _ (by simp; omega), ← List.map_append, List.take_append_drop, List.take_append_drop]

/-- The system of the solver at a rational point with common denominator. -/
theorem sat_inner_map {R : Type*} [CommRing R] [LinearOrder R] (g : Int → R) (g0 : g 0 = 0) (k : Int) (gk : g k = 1) (dfp : Bool) (ho : p.OrigOK)
    (cst : Cst) (hw : cst.WF) (hc : cst.ncols = cstWidth p.nvar p.npar p.stmts.length) (x : List Int)
    (hx : x.length = (keepCols p).countP id) :
    (innerCst dfp p cst).Sat (x.map g) ↔ cst.Sat ((spreadMask (keepCols p) (permuteB dfp p x)).map g) := by
  have hcount := keepCols_count ho
  have hrow : ∀ r ∈ cst.rows,
      aff (permute dfp p (keepMask (keepCols p ++ [true]) r.val)) (x.map g) =
        aff r.val ((spreadMask (keepCols p) (permuteB dfp p x)).map g) := by
    intro r hr
    have hl : r.val.length = (keepCols p).length + 1 := by
      rw [hw.2 r hr, hc, keepCols_length]; rfl
    have hml : (keepCols p ++ [true]).length = r.val.length := by simp [hl]
    have hkl : (keepMask (keepCols p ++ [true]) r.val).length = (keepCols p).countP id + 1 := by
      rw [keepMask_length _ _ hml, List.countP_append]; simp
    have hlx : (permuteB dfp p x).length = (keepCols p).countP id := by rw [permuteB_length, hx]
    unfold aff
    rw [permute_eq _ _ (by omega)]
    have e0 : x.map g ++ [1] = (x ++ [k]).map g := by simp [gk]
    have e1 : x ++ [k] = permuteB dfp p (permuteB dfp p x ++ [k]) := by
      rw [permuteB_snoc _ _ _ (by omega), permuteB_permuteB _ _ (by omega)]
    rw [e0, e1, dot_permuteB_map g _ _ _ (by simp [hkl, hlx]) (by omega)]
    rw [dot_keep (keepCols p ++ [true]) r.val (permuteB dfp p x ++ [k]) hml
      (by rw [List.countP_append]; simp [hlx]) g g0]
    congr 1
    have key : ∀ (m : List Bool) (v : List Int), v.length = m.countP id →
        spreadMask (m ++ [true]) (v ++ [k]) = spreadMask m v ++ [k] := by
      intro m
      induction m with
      | nil => intro v hv; simp at hv; subst hv; rfl
      | cons b m ih =>
        intro v hv
        cases b with
        | false =>
          simp only [List.cons_append, spreadMask]
          rw [ih v (by simpa using hv)]
        | true =>
          cases v with
          | nil => simp at hv
          | cons a v =>
            simp only [List.cons_append, spreadMask]
            rw [ih v (by simpa using hv)]
    rw [key _ _ hlx, List.map_append, List.map_cons, List.map_nil, gk]
  unfold Cst.Sat
  constructor
  · intro h r hr
    have := h _ (List.mem_map_of_mem hr)
    unfold Row.Sat at this ⊢
    simp only at this
    rwa [hrow r hr] at this
  · intro h r' hr'
    obtain ⟨r, hr, rfl⟩ := List.mem_map.mp hr'
    have := h r hr
    unfold Row.Sat at this ⊢
    simp only
    rwa [hrow r hr]

/-! ### Blocks -/

theorem spread_append (m1 m2 : List Bool) (v : List Int) :
    spreadMask (m1 ++ m2) v = spreadMask m1 (v.take (m1.countP id)) ++ spreadMask m2 (v.drop (m1.countP id)) := by
  induction m1 generalizing v with
  | nil => simp [spreadMask]
  | cons b m1 ih =>
    cases b with
    | false => simp [spreadMask, ih]
    | true => cases v with
      | nil => simp [spreadMask, ih]
      | cons a v => simp [spreadMask, ih]

theorem spread_forall₂ {R : Int → Int → Prop} (h0 : R 0 0) (m : List Bool) (a b : List Int) (h : List.Forall₂ R a b) :
    List.Forall₂ R (spreadMask m a) (spreadMask m b) := by
  induction m generalizing a b with
  | nil => simp [spreadMask]
  | cons c m ih =>
    cases c with
    | false =>
      simp only [spreadMask]
      exact .cons h0 (ih a b h)
    | true =>
      cases h with
      | nil => simp only [spreadMask]; exact .cons h0 (ih [] [] .nil)
      | cons h1 h2 => simp only [spreadMask]; exact .cons h1 (ih _ _ h2)

/-- Block by block (block `i` has `d + 1` entries), the entries of the lists are related by `R i`. -/
def BlockRel (R : Nat → Int → Int → Prop) : Nat → List Nat → List Int → List Int → Prop
  | _, [], _, _ => True
  | i, d :: ds, X, z => List.Forall₂ (R i) (X.take (d + 1)) (z.take (d + 1)) ∧ BlockRel R (i + 1) ds (X.drop (d + 1)) (z.drop (d + 1))

theorem BlockRel.rev {R : Nat → Int → Int → Prop} (ds : List Nat) : ∀ (i : Nat) (X z : List Int), blocksLen ds ≤ X.length →
    blocksLen ds ≤ z.length → BlockRel R i ds X z → BlockRel R i ds (revBlocks ds X) (revBlocks ds z) := by
  induction ds with
  | nil => intros; trivial
  | cons d ds ih =>
    intro i X z hX hz h
    have hX' : d + 1 + blocksLen ds ≤ X.length := by simpa [blocksLen] using hX
    have hz' : d + 1 + blocksLen ds ≤ z.length := by simpa [blocksLen] using hz
    have form : ∀ r : List Int, d + 1 + blocksLen ds ≤ r.length →
        (revBlocks (d :: ds) r).take (d + 1) = (r.take d).reverse ++ (r.drop d).take 1 ∧
        (revBlocks (d :: ds) r).drop (d + 1) = revBlocks ds (r.drop (d + 1)) := by
      intro r hr
      have hl : ((r.take d).reverse ++ (r.drop d).take 1).length = d + 1 := by simp; omega
      simp only [revBlocks, ← List.append_assoc]
      constructor
      · rw [List.take_append_of_le_length (by omega), List.take_of_length_le (by omega)]
      · rw [← hl, List.drop_left]
    obtain ⟨h1, h2⟩ := h
    refine ⟨?_, ?_⟩
    · rw [(form X hX').1, (form z hz').1]
      have e : ∀ r : List Int, r.take (d + 1) = r.take d ++ (r.drop d).take 1 := fun r => by rw [List.take_add]
      have ha : List.Forall₂ (R i) (X.take d) (z.take d) := by
        have := List.forall₂_take d h1
        rwa [List.take_take, List.take_take, Nat.min_eq_left (by omega)] at this
      have hb : List.Forall₂ (R i) ((X.drop d).take 1) ((z.drop d).take 1) := by
        have := List.forall₂_drop d h1
        rwa [List.drop_take, List.drop_take, Nat.add_sub_cancel_left] at this
      exact List.rel_append (List.rel_reverse ha) hb
    · rw [(form X hX').2, (form z hz').2]
      exact ih (i + 1) _ _ (by simp; omega) (by simp; omega) h2

/-- The mask of one statement. -/
def blockMask (nvar : Nat) (st : Stmt) : List Bool := stMask nvar st ++ [true]

theorem BlockRel.spread {R : Nat → Int → Int → Prop} (h0 : ∀ i, R i 0 0) (nvar : Nat) (sts : List Stmt)
    (hm : ∀ st ∈ sts, (stMask nvar st).countP id = st.dimOrig) : ∀ (i : Nat) (X z : List Int),
    BlockRel R i (sts.map (·.dimOrig)) X z →
    BlockRel R i (sts.map (fun _ => nvar)) (spreadMask (sts.flatMap (blockMask nvar)) X) (spreadMask (sts.flatMap (blockMask nvar)) z) := by
  induction sts with
  | nil => intros; trivial
  | cons st sts ih =>
    intro i X z ⟨h1, h2⟩
    have hc : (blockMask nvar st).countP id = st.dimOrig + 1 := by
      unfold blockMask
      rw [List.countP_append, hm st (by simp)]
      simp
    have hlen : (blockMask nvar st).length = nvar + 1 := by simp [blockMask, stMask]
    have form : ∀ r : List Int, (spreadMask ((st :: sts).flatMap (blockMask nvar)) r).take (nvar + 1) =
          spreadMask (blockMask nvar st) (r.take (st.dimOrig + 1)) ∧
        (spreadMask ((st :: sts).flatMap (blockMask nvar)) r).drop (nvar + 1) =
          spreadMask (sts.flatMap (blockMask nvar)) (r.drop (st.dimOrig + 1)) := by
      intro r
      rw [List.flatMap_cons, spread_append, hc]
      have hl := spreadMask_length (blockMask nvar st) (r.take (st.dimOrig + 1))
      rw [hlen] at hl
      constructor
      · rw [List.take_append_of_le_length (by omega), List.take_of_length_le (by omega)]
      · rw [← hl, List.drop_left]
    refine ⟨?_, ?_⟩
    · rw [(form X).1, (form z).1]
      exact spread_forall₂ (h0 i) _ _ _ h1
    · rw [(form X).2, (form z).2]
      exact ih (fun s hs => hm s (by simp [hs])) (i + 1) _ _ h2

theorem BlockRel.block {R : Nat → Int → Int → Prop} (nvar : Nat) (sts : List Stmt) : ∀ (i j : Nat) (X z : List Int),
    BlockRel R i (sts.map (fun _ => nvar)) X z → j < sts.length →
    List.Forall₂ (R (i + j)) ((X.drop (j * (nvar + 1))).take (nvar + 1)) ((z.drop (j * (nvar + 1))).take (nvar + 1)) := by
  induction sts with
  | nil => intro i j X z _ hj; simp at hj
  | cons st sts ih =>
    intro i j X z ⟨h1, h2⟩ hj
    cases j with
    | zero => simpa using h1
    | succ j =>
      have := ih (i + 1) j _ _ h2 (by simpa using hj)
      rw [List.drop_drop, List.drop_drop] at this
      rw [show (j + 1) * (nvar + 1) = nvar + 1 + j * (nvar + 1) by ring, show i + (j + 1) = i + 1 + j by ring]
      exact this

/-- Factors per statement carry over from the solution of the solver to the returned solution. -/
theorem outer_blocks {R : Nat → Int → Int → Prop} (h0 : ∀ i, R i 0 0) (dfp : Bool) (ho : p.OrigOK) (X z : List Int)
    (hX : X.length = (keepCols p).countP id) (hz : z.length = (keepCols p).countP id)
    (h : BlockRel R 0 (p.stmts.map (·.dimOrig)) (X.drop (p.npar + 1)) (z.drop (p.npar + 1))) (j : Nat) (hj : j < p.stmts.length) :
    List.Forall₂ (R j) (solSlice p.nvar p.npar (spreadMask (keepCols p) (permuteB dfp p X)) j)
      (solSlice p.nvar p.npar (spreadMask (keepCols p) (permuteB dfp p z)) j) := by
  have hcount := keepCols_count ho
  have hdrop : ∀ r : List Int, (spreadMask (keepCols p) r).drop (p.npar + 1) =
      spreadMask (p.stmts.flatMap (blockMask p.nvar)) (r.drop (p.npar + 1)) := by
    intro r
    unfold keepCols
    rw [spread_append]
    have e : (List.replicate (p.npar + 1) true).countP id = p.npar + 1 := by
      rw [List.countP_replicate]; simp
    have hl := spreadMask_length (List.replicate (p.npar + 1) true) (r.take (p.npar + 1))
    rw [List.length_replicate] at hl
    rw [e, List.drop_left' hl]
    rfl
  have hperm : ∀ r : List Int, r.length = (keepCols p).countP id → (permuteB dfp p r).drop (p.npar + 1) =
      if dfp then r.drop (p.npar + 1) else revBlocks (p.stmts.map (·.dimOrig)) (r.drop (p.npar + 1)) := by
    intro r hr
    unfold permuteB
    cases dfp with
    | true => rfl
    | false =>
      simp only [Bool.false_eq_true, if_false]
      have hl : (r.take (p.npar + 1)).length = p.npar + 1 := by simp; omega
      rw [List.drop_left' hl]
  have hb : BlockRel R 0 (p.stmts.map (·.dimOrig)) ((permuteB dfp p X).drop (p.npar + 1)) ((permuteB dfp p z).drop (p.npar + 1)) := by
    rw [hperm X hX, hperm z hz]
    cases dfp with
    | true => exact h
    | false => exact h.rev _ _ _ _ (by simp; omega) (by simp; omega)
  have hm : ∀ st ∈ p.stmts, (stMask p.nvar st).countP id = st.dimOrig := by
    intro st hs
    rw [stMask_eq _ _ (ho st hs).1]
    exact (ho st hs).2
  have := (hb.spread h0 p.nvar p.stmts hm).block p.nvar p.stmts 0 j _ _ hj
  rw [← hdrop, ← hdrop, List.drop_drop, List.drop_drop, Nat.zero_add] at this
  exact this

theorem spread_replicate (n : Nat) (v : List Int) (h : v.length = n) : spreadMask (List.replicate n true) v = v := by
  induction n generalizing v with
  | zero => simp at h; subst h; rfl
  | succ n ih =>
    cases v with
    | nil => simp at h
    | cons a v =>
      rw [List.replicate_succ]
      simp only [spreadMask]
      rw [ih v (by simpa using h)]

/-- The bound coefficients stay in front. -/
theorem outer_lead (dfp : Bool) (ho : p.OrigOK) (z : List Int) (hz : z.length = (keepCols p).countP id) :
    (spreadMask (keepCols p) (permuteB dfp p z)).take (p.npar + 1) = z.take (p.npar + 1) := by
  have hcount := keepCols_count ho
  have ht : (permuteB dfp p z).take (p.npar + 1) = z.take (p.npar + 1) := by
    unfold permuteB
    cases dfp with
    | true => rfl
    | false =>
      simp only [Bool.false_eq_true, if_false]
      rw [List.take_append_of_le_length (by simp; omega), List.take_take, Nat.min_self]
  have hl := permuteB_length (p := p) dfp z
  have e : (List.replicate (p.npar + 1) true).countP id = p.npar + 1 := by
    rw [List.countP_replicate]; simp
  conv_lhs => unfold keepCols
  rw [spread_append, e, spread_replicate _ _ (by simp; omega), ht,
    List.take_append_of_le_length (by simp; omega), List.take_take, Nat.min_self]

end Pluto
