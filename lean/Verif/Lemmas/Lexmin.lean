import Verif.Lemmas.Mask
import Verif.Spec.Search

namespace Pluto

/-- Mask of one statement. -/
def stMask (nvar : Nat) (st : Stmt) : List Bool := (List.range nvar).map (fun j => st.isOrig.getD j false)

theorem stMask_eq (nvar : Nat) (st : Stmt) (h : st.isOrig.length = nvar) : stMask nvar st = st.isOrig := by
  apply List.ext_getElem
  · simp [stMask, h]
  · intro i h1 h2
    simp [stMask, List.getD_eq_getElem?_getD, h2]

theorem flatMap_getElem? {α β : Type} (l : List α) (f : α → List β) (m : Nat)
    (hf : ∀ a ∈ l, (f a).length = m) (i k : Nat) (hk : k < m) :
    (l.flatMap f)[i * m + k]? = (l[i]?).bind (fun a => (f a)[k]?) := by
  induction l generalizing i with
  | nil => simp
  | cons a l ih =>
    have ha := hf a (by simp)
    cases i with
    | zero => simp [List.getElem?_append_left, ha, hk]
    | succ i =>
      rw [List.flatMap_cons, List.getElem?_append_right (by rw [ha, Nat.succ_mul]; omega), ha]
      have : (i + 1) * m + k - m = i * m + k := by rw [Nat.succ_mul]; omega
      rw [this, ih (fun b hb => hf b (List.mem_cons_of_mem _ hb))]
      simp

section
variable {p : Prog}

theorem keepCols_length : (keepCols p).length = p.npar + 1 + p.stmts.length * (p.nvar + 1) := by
  simp only [keepCols, List.length_append, List.length_replicate, List.length_flatMap, List.length_map,
    List.length_range, List.length_cons, List.length_nil]
  simp

theorem keepCols_getElem? (i k : Nat) (st : Stmt) (hi : p.stmts[i]? = some st) (hk : k < p.nvar) :
    (keepCols p)[p.npar + 1 + i * (p.nvar + 1) + k]? = some (st.isOrig.getD k false) := by
  unfold keepCols
  rw [List.getElem?_append_right (by simp; omega), List.length_replicate]
  have : p.npar + 1 + i * (p.nvar + 1) + k - (p.npar + 1) = i * (p.nvar + 1) + k := by omega
  rw [this, flatMap_getElem? _ _ (p.nvar + 1) (by intro a _; simp) _ _ (by omega), hi]
  simp [List.getElem?_append_left, hk]

theorem keepCols_false (j : Nat) (h : (keepCols p)[j]? = some false) :
    ∃ i k st, p.stmts[i]? = some st ∧ k < p.nvar ∧ j = p.npar + 1 + i * (p.nvar + 1) + k ∧
      st.isOrig.getD k false = false := by
  unfold keepCols at h
  by_cases hj : j < p.npar + 1
  · rw [List.getElem?_append_left (by simpa using hj), List.getElem?_replicate, if_pos hj] at h
    simp at h
  · rw [List.getElem?_append_right (by simp; omega), List.length_replicate] at h
    set q := j - (p.npar + 1)
    have e : q / (p.nvar + 1) * (p.nvar + 1) + q % (p.nvar + 1) = q := by
      rw [mul_comm]; exact Nat.div_add_mod _ _
    have hm : q % (p.nvar + 1) < p.nvar + 1 := Nat.mod_lt _ (by omega)
    rw [← e, flatMap_getElem? _ _ (p.nvar + 1) (by intro a _; simp) _ _ hm] at h
    rcases hs : p.stmts[q / (p.nvar + 1)]? with _ | st
    · rw [hs] at h; simp at h
    · rw [hs, Option.bind_some] at h
      by_cases hk : q % (p.nvar + 1) < p.nvar
      · refine ⟨_, _, st, hs, hk, by omega, ?_⟩
        rw [List.getElem?_append_left (by simpa using hk)] at h
        simpa [hk] using h
      · have : q % (p.nvar + 1) = p.nvar := by omega
        rw [this] at h
        simp at h

theorem keepCols_count (ho : p.OrigOK) :
    (keepCols p).countP id = p.npar + 1 + blocksLen (p.stmts.map (·.dimOrig)) := by
  have h : ∀ sts : List Stmt, (∀ st ∈ sts, st.isOrig.length = p.nvar ∧ st.isOrig.countP id = st.dimOrig) →
      (sts.flatMap (fun st => (List.range p.nvar).map (fun j => st.isOrig.getD j false) ++ [true])).countP id =
        blocksLen (sts.map (·.dimOrig)) := by
    intro sts
    induction sts with
    | nil => intro _; rfl
    | cons st sts ih =>
      intro hs
      rw [List.flatMap_cons, List.countP_append, ih (fun s hs' => hs s (List.mem_cons_of_mem _ hs'))]
      have := stMask_eq p.nvar st (hs st (by simp)).1
      unfold stMask at this
      rw [this, List.countP_append, (hs st (by simp)).2]
      simp [blocksLen]
  unfold keepCols
  rw [List.countP_append, h _ ho, List.countP_replicate]
  simp

/-- The permutation applied to rows and solutions. -/
def permute (dfp : Bool) (p : Prog) (l : List Int) : List Int :=
  (if dfp then [] else swapPairs (p.npar + 1) (p.stmts.map (·.dimOrig))).foldl
    (fun l ij => swapAt l ij.1 ij.2) l

/-- Block form of `permute`. -/
def permuteB (dfp : Bool) (p : Prog) (l : List Int) : List Int :=
  if dfp then l else l.take (p.npar + 1) ++ revBlocks (p.stmts.map (·.dimOrig)) (l.drop (p.npar + 1))

theorem permute_eq (dfp : Bool) (l : List Int)
    (h : p.npar + 1 + blocksLen (p.stmts.map (·.dimOrig)) ≤ l.length) :
    permute dfp p l = permuteB dfp p l := by
  unfold permute permuteB
  cases dfp with
  | true => simp
  | false =>
    simp only [Bool.false_eq_true, if_false]
    have hl : (l.take (p.npar + 1)).length = p.npar + 1 := by simp; omega
    have := swapPairs_fold (p.stmts.map (·.dimOrig)) (l.take (p.npar + 1)) (l.drop (p.npar + 1))
      (by simp; omega)
    rw [hl, List.take_append_drop] at this
    exact this

theorem permuteB_length (dfp : Bool) (l : List Int) : (permuteB dfp p l).length = l.length := by
  unfold permuteB
  split
  · rfl
  · simp [revBlocks_length]; omega

theorem permuteB_mem (dfp : Bool) (l : List Int) (a : Int) : a ∈ permuteB dfp p l ↔ a ∈ l := by
  unfold permuteB
  split
  · rfl
  · rw [List.mem_append, revBlocks_mem]
    conv_rhs => rw [← List.take_append_drop (p.npar + 1) l]
    rw [List.mem_append]

theorem permuteB_permuteB (dfp : Bool) (l : List Int)
    (h : p.npar + 1 + blocksLen (p.stmts.map (·.dimOrig)) ≤ l.length) :
    permuteB dfp p (permuteB dfp p l) = l := by
  unfold permuteB
  cases dfp with
  | true => rfl
  | false =>
    have hl : (l.take (p.npar + 1)).length = p.npar + 1 := by simp; omega
    simp only [Bool.false_eq_true, if_false]
    rw [List.take_append_of_le_length (by omega), List.take_of_length_le (by omega),
      List.drop_append_of_le_length (by omega), List.drop_of_length_le (by omega), List.nil_append,
      revBlocks_revBlocks _ _ (by simp; omega), List.take_append_drop]

theorem dot_permuteB (dfp : Bool) (a b : List Int) (h : a.length = b.length)
    (hl : p.npar + 1 + blocksLen (p.stmts.map (·.dimOrig)) ≤ a.length) :
    dot (permuteB dfp p a) (permuteB dfp p b) = dot a b := by
  unfold permuteB
  cases dfp with
  | true => rfl
  | false =>
    simp only [Bool.false_eq_true, if_false]
    rw [dot_append _ _ _ _ (by simp; omega), dot_revBlocks _ _ _ (by simp; omega) (by simp; omega),
      ← dot_take_drop _ _ _ (by omega) (by omega)]

theorem permuteB_snoc (dfp : Bool) (l : List Int) (c : Int)
    (h : p.npar + 1 + blocksLen (p.stmts.map (·.dimOrig)) ≤ l.length) :
    permuteB dfp p (l ++ [c]) = permuteB dfp p l ++ [c] := by
  unfold permuteB
  cases dfp with
  | true => rfl
  | false =>
    simp only [Bool.false_eq_true, if_false]
    rw [List.take_append_of_le_length (by omega), List.drop_append_of_le_length (by omega),
      revBlocks_append _ _ _ (by simp; omega), List.append_assoc]

theorem interchange_fold (pairs : List (Nat × Nat)) (c : Cst) (h : ∀ ij ∈ pairs, ij.1 ≠ ij.2) :
    pairs.foldl (fun c ij => interchangeCols c ij.1 ij.2) c =
      ⟨c.ncols, c.rows.map (fun r => ⟨r.eq, pairs.foldl (fun l ij => swapAt l ij.1 ij.2) r.val⟩)⟩ := by
  induction pairs generalizing c with
  | nil => simp
  | cons ij pairs ih =>
    rw [List.foldl_cons, ih _ (fun x hx => h x (List.mem_cons_of_mem _ hx))]
    simp only [interchangeCols, if_neg (h ij (by simp)), List.map_map, swapIdx_eq_swapAt]
    rfl

theorem swapPairs_ne (j : Nat) (ds : List Nat) : ∀ ij ∈ swapPairs j ds, ij.1 ≠ ij.2 := by
  induction ds generalizing j with
  | nil => simp [swapPairs]
  | cons d ds ih =>
    intro ij hij
    rw [swapPairs, List.mem_append] at hij
    rcases hij with h | h
    · obtain ⟨k, hk, rfl⟩ := List.mem_map.mp h
      rw [List.mem_range'_1] at hk
      simp only; omega
    · exact ih _ _ h

theorem swapIdx_fold (pairs : List (Nat × Nat)) (l : List Int) :
    pairs.foldl (fun s ij => swapIdx s ij.1 ij.2) l = pairs.foldl (fun s ij => swapAt s ij.1 ij.2) l := by
  simp only [swapIdx_eq_swapAt]

theorem loopCoeffs_eq (nvar off : Nat) (st : Stmt) (z : List Int) (h : off + nvar ≤ z.length) :
    loopCoeffs nvar off st z = keepMask (stMask nvar st) ((z.drop off).take nvar) := by
  unfold loopCoeffs stMask
  induction nvar with
  | zero => simp [keepMask]
  | succ n ih =>
    have e : (z.drop off).take (n + 1) = (z.drop off).take n ++ [z.getD (off + n) 0] := by
      have hn : off + n < z.length := by omega
      rw [List.take_add_one]
      congr 1
      simp [List.getElem?_drop, List.getD_eq_getElem?_getD, hn]
    rw [List.range_succ, List.filterMap_append, List.map_append, e, keepMask_append _ _ _ _ (by simp; omega),
      ih (by omega)]
    congr 1
    simp only [List.filterMap_cons, List.filterMap_nil, List.map_cons, List.map_nil]
    cases st.isOrig.getD n false <;> simp [keepMask]

/-- Compressed vector, statement by statement. -/
theorem keep_blocks (sts : List Stmt) (z : List Int) (off : Nat)
    (h : off + sts.length * (p.nvar + 1) = z.length) :
    keepMask (sts.flatMap (fun st => (List.range p.nvar).map (fun j => st.isOrig.getD j false) ++ [true]))
        (z.drop off) =
      (sts.mapIdx (fun i st => loopCoeffs p.nvar (off + i * (p.nvar + 1)) st z ++
        [z.getD (off + i * (p.nvar + 1) + p.nvar) 0])).flatten := by
  induction sts generalizing off with
  | nil => simp [keepMask]
  | cons st sts ih =>
    have hlen : off + (p.nvar + 1) + sts.length * (p.nvar + 1) = z.length := by
      rw [List.length_cons, Nat.succ_mul] at h; omega
    have hpos : off + p.nvar < z.length := by omega
    have e : z.drop off = ((z.drop off).take p.nvar ++ [z.getD (off + p.nvar) 0]) ++
        z.drop (off + (p.nvar + 1)) := by
      have e1 : (z.drop off).take (p.nvar + 1) = (z.drop off).take p.nvar ++ [z.getD (off + p.nvar) 0] := by
        rw [List.take_add_one]
        congr 1
        simp [List.getElem?_drop, List.getD_eq_getElem?_getD, hpos]
      rw [← e1, ← List.drop_drop, List.take_append_drop]
    rw [e, List.flatMap_cons, keepMask_append _ _ _ _ (by simp; omega), ih _ hlen,
      keepMask_append _ _ _ _ (by simp; omega), List.mapIdx_cons, List.flatten_cons]
    congr 1
    · simp only [Nat.zero_mul, Nat.add_zero]
      rw [loopCoeffs_eq _ _ _ _ (by omega)]
      rfl
    · congr 1
      apply List.ext_getElem
      · simp
      · intro i h1 h2
        simp only [List.getElem_mapIdx]
        have : off + (p.nvar + 1) + i * (p.nvar + 1) = off + (i + 1) * (p.nvar + 1) := by
          rw [Nat.succ_mul]; omega
        rw [this]

theorem revBlocks_flatten (sts : List Stmt) (f : Nat → Stmt → List Int) (g : Nat → Int)
    (hf : ∀ i st, sts[i]? = some st → (f i st).length = st.dimOrig) :
    revBlocks (sts.map (·.dimOrig)) (sts.mapIdx (fun i st => f i st ++ [g i])).flatten =
      (sts.mapIdx (fun i st => (f i st).reverse ++ [g i])).flatten := by
  induction sts generalizing f g with
  | nil => rfl
  | cons st sts ih =>
    have h0 := hf 0 st (by simp)
    rw [List.mapIdx_cons, List.flatten_cons, List.map_cons, revBlocks, List.mapIdx_cons,
      List.flatten_cons, List.append_assoc, List.take_append_of_le_length (by omega),
      List.take_of_length_le (by omega), List.drop_append_of_le_length (by omega),
      List.drop_of_length_le (by omega), List.nil_append]
    have ih' := ih (fun i st => f (i + 1) st) (fun i => g (i + 1))
      (fun i s hs => hf (i + 1) s (by simpa using hs))
    have e : (f 0 st ++ ([g 0] ++ (sts.mapIdx (fun i st => f (i + 1) st ++ [g (i + 1)])).flatten)).drop
        (st.dimOrig + 1) = (sts.mapIdx (fun i st => f (i + 1) st ++ [g (i + 1)])).flatten := by
      rw [← List.append_assoc, List.drop_append_of_le_length (by simp; omega),
        List.drop_of_length_le (by simp; omega), List.nil_append]
    rw [e, ih']
    simp [List.append_assoc]

/-- The order in which the solver sees the variables is the documented search order. -/
theorem searchOrder_eq (dfp : Bool) (ho : p.OrigOK) (z : List Int) (hz : SolLen p z) :
    searchOrder dfp p z = permuteB dfp p (keepMask (keepCols p) z) := by
  have hz' : z.length = p.npar + 1 + p.stmts.length * (p.nvar + 1) := hz
  have hk : keepMask (keepCols p) z = z.take (p.npar + 1) ++
      (p.stmts.mapIdx (fun i st => loopCoeffs p.nvar (p.npar + 1 + i * (p.nvar + 1)) st z ++
        [z.getD (p.npar + 1 + i * (p.nvar + 1) + p.nvar) 0])).flatten := by
    unfold keepCols
    conv_lhs => rw [← List.take_append_drop (p.npar + 1) z]
    rw [keepMask_append _ _ _ _ (by simp; omega), keepMask_replicate_true _ _ (by simp; omega),
      keep_blocks _ _ _ hz'.symm]
  rw [hk]
  have hl : (z.take (p.npar + 1)).length = p.npar + 1 := by simp; omega
  unfold searchOrder permuteB
  cases dfp with
  | true => simp
  | false =>
    simp only [Bool.false_eq_true, if_false]
    rw [List.take_left' hl, List.drop_left' hl]
    congr 1
    rw [revBlocks_flatten p.stmts (fun i st => loopCoeffs p.nvar (p.npar + 1 + i * (p.nvar + 1)) st z)
      (fun i => z.getD (p.npar + 1 + i * (p.nvar + 1) + p.nvar) 0)]
    intro i st hi
    have hst := ho st (List.mem_of_getElem? hi)
    have hlt : i < p.stmts.length := (List.getElem?_eq_some_iff.mp hi).1
    have hmul : (i + 1) * (p.nvar + 1) ≤ p.stmts.length * (p.nvar + 1) := Nat.mul_le_mul_right _ hlt
    rw [Nat.succ_mul] at hmul
    rw [loopCoeffs_eq _ _ _ _ (by omega), keepMask_length _ _ (by simp [stMask]; omega), stMask_eq _ _ hst.1, hst.2]

end
end Pluto

namespace Pluto
variable {p : Prog}

theorem padZero_iff (ho : p.OrigOK) (z : List Int) :
    PadZero p z ↔ ∀ j : Nat, (keepCols p)[j]? = some false → z.getD j 0 = 0 := by
  constructor
  · intro h j hj
    obtain ⟨i, k, st, hi, hk, rfl, hf⟩ := keepCols_false j hj
    refine h i st hi k hk ?_
    have hl := (ho st (List.mem_of_getElem? hi)).1
    have hk' : k < st.isOrig.length := by omega
    simpa [List.getD_eq_getElem?_getD, hk'] using hf
  · intro h i st hi k hk hf
    apply h
    rw [keepCols_getElem? i k st hi hk]
    have hl := (ho st (List.mem_of_getElem? hi)).1
    have hk' : k < st.isOrig.length := by omega
    simpa [List.getD_eq_getElem?_getD, hk'] using hf

/-- The system handed to the solver. -/
def innerCst (dfp : Bool) (p : Prog) (cst : Cst) : Cst :=
  ⟨if cst.rows = [] then 0 else (keepCols p).countP id + 1,
    cst.rows.map (fun r => ⟨r.eq, permute dfp p (keepMask (keepCols p ++ [true]) r.val)⟩)⟩

theorem progLexmin_eq (dfp : Bool) (solve : Cst → Option (List Int)) (cst : Cst)
    (hc : cst.ncols = cstWidth p.nvar p.npar p.stmts.length) :
    progLexmin dfp solve p cst =
      some ((solve (innerCst dfp p cst)).map (fun x => spreadMask (keepCols p) (permute dfp p x))) := by
  unfold progLexmin
  rw [if_neg (by simpa using hc)]
  simp only
  have hne : ∀ ij ∈ (if dfp then [] else swapPairs (p.npar + 1) (p.stmts.map (·.dimOrig))), ij.1 ≠ ij.2 := by
    cases dfp with
    | true => simp
    | false => simpa using swapPairs_ne _ _
  rw [interchange_fold _ _ hne]
  simp only [List.map_map, swapIdx_fold]
  rfl

theorem sat_inner (dfp : Bool) (ho : p.OrigOK) (cst : Cst) (hw : cst.WF)
    (hc : cst.ncols = cstWidth p.nvar p.npar p.stmts.length) (x : List Int)
    (hx : x.length = (keepCols p).countP id) :
    (innerCst dfp p cst).Sat x ↔ cst.Sat (spreadMask (keepCols p) (permuteB dfp p x)) := by
  have hcount := keepCols_count ho
  have hrow : ∀ r ∈ cst.rows,
      aff (permute dfp p (keepMask (keepCols p ++ [true]) r.val)) x =
        aff r.val (spreadMask (keepCols p) (permuteB dfp p x)) := by
    intro r hr
    have hl : r.val.length = (keepCols p).length + 1 := by
      rw [hw.2 r hr, hc, keepCols_length]; rfl
    have hml : (keepCols p ++ [true]).length = r.val.length := by simp [hl]
    have hkl : (keepMask (keepCols p ++ [true]) r.val).length = (keepCols p).countP id + 1 := by
      rw [keepMask_length _ _ hml, List.countP_append]; simp
    have hlx : (permuteB dfp p x).length = (keepCols p).countP id := by rw [permuteB_length, hx]
    unfold aff
    rw [permute_eq _ _ (by omega)]
    have e1 : x ++ [1] = permuteB dfp p (permuteB dfp p x ++ [1]) := by
      rw [permuteB_snoc _ _ _ (by omega), permuteB_permuteB _ _ (by omega)]
    rw [e1, dot_permuteB _ _ _ (by simp [hkl, hlx]) (by omega)]
    have e2 := dot_keep (R := Int) (keepCols p ++ [true]) r.val (permuteB dfp p x ++ [1]) hml
      (by rw [List.countP_append]; simp [hlx]) id rfl
    rw [List.map_id, List.map_id] at e2
    rw [e2]
    congr 1
    have key : ∀ (m : List Bool) (v : List Int), v.length = m.countP id →
        spreadMask (m ++ [true]) (v ++ [1]) = spreadMask m v ++ [1] := by
      intro m
      induction m with
      | nil => intro v hv; simp at hv; subst hv; rfl
      | cons b m ih =>
        intro v hv
        cases b with
        | false =>
          simp only [List.cons_append, spreadMask]
          rw [ih v (by simpa using hv)]
        | true =>
          cases v with
          | nil => simp at hv
          | cons a v =>
            simp only [List.cons_append, spreadMask]
            rw [ih v (by simpa using hv)]
    exact key _ _ hlx
  unfold Cst.Sat
  constructor
  · intro h r hr
    have := h _ (List.mem_map_of_mem hr)
    unfold Row.Sat at this ⊢
    simp only at this
    rwa [hrow r hr] at this
  · intro h r' hr'
    obtain ⟨r, hr, rfl⟩ := List.mem_map.mp hr'
    have := h r hr
    unfold Row.Sat at this ⊢
    simp only
    rwa [hrow r hr]

theorem inner_WF (dfp : Bool) (ho : p.OrigOK) (cst : Cst) (hw : cst.WF) (hne : cst.rows ≠ [])
    (hc : cst.ncols = cstWidth p.nvar p.npar p.stmts.length) : (innerCst dfp p cst).WF := by
  refine ⟨by simp [innerCst, hne], ?_⟩
  intro r' hr'
  obtain ⟨r, hr, rfl⟩ := List.mem_map.mp hr'
  have hl : r.val.length = (keepCols p).length + 1 := by
    rw [hw.2 r hr, hc, keepCols_length]; rfl
  have hml : (keepCols p ++ [true]).length = r.val.length := by simp [hl]
  have hkl : (keepMask (keepCols p ++ [true]) r.val).length = (keepCols p).countP id + 1 := by
    rw [keepMask_length _ _ hml, List.countP_append]; simp
  have hcount := keepCols_count ho
  simp only [innerCst, hne, if_false]
  rw [permute_eq _ _ (by omega), permuteB_length, hkl]

end Pluto

namespace Pluto

/-- Non-empty sets of non-negative vectors have lexicographically least elements. -/
theorem exists_lexLeast (n : Nat) (S : List Int → Prop) (h : ∃ y : List Int, y.length = n ∧ NonNeg y ∧ S y) :
    ∃ x : List Int, x.length = n ∧ NonNeg x ∧ S x ∧ ∀ y : List Int, y.length = n → NonNeg y → S y → LexLe x y := by
  induction n generalizing S with
  | zero =>
    obtain ⟨y, hl, hn, hs⟩ := h
    refine ⟨y, hl, hn, hs, ?_⟩
    intro z _ _ _
    rw [List.length_eq_zero_iff] at hl
    subst hl
    simp [LexLe]
  | succ n ih =>
    classical
    have hex : ∃ a : Nat, ∃ t : List Int, t.length = n ∧ NonNeg t ∧ S ((a : Int) :: t) := by
      obtain ⟨y, hl, hn, hs⟩ := h
      cases y with
      | nil => simp at hl
      | cons a t =>
        have ha : 0 ≤ a := hn a (by simp)
        refine ⟨a.toNat, t, by simpa using hl, fun b hb => hn b (List.mem_cons_of_mem _ hb), ?_⟩
        rwa [Int.toNat_of_nonneg ha]
    obtain ⟨t, ht1, ht2, ht3, ht4⟩ := ih (fun t => S ((Nat.find hex : Int) :: t)) (Nat.find_spec hex)
    refine ⟨(Nat.find hex : Int) :: t, by simp [ht1], ?_, ht3, ?_⟩
    · intro b hb
      rcases List.mem_cons.mp hb with rfl | hb
      · exact Int.natCast_nonneg _
      · exact ht2 b hb
    · intro y hl hn hs
      cases y with
      | nil => simp at hl
      | cons a u =>
        have ha : 0 ≤ a := hn a (by simp)
        have hu1 : u.length = n := by simpa using hl
        have hu2 : NonNeg u := fun b hb => hn b (List.mem_cons_of_mem _ hb)
        have hle : Nat.find hex ≤ a.toNat := Nat.find_min' hex ⟨u, hu1, hu2, by rwa [Int.toNat_of_nonneg ha]⟩
        simp only [LexLe]
        by_cases he : (Nat.find hex : Int) = a
        · exact Or.inr ⟨he, ht4 u hu1 hu2 (by simp only [he]; exact hs)⟩
        · left; omega

/-- An exact solver exists: the solver hypothesis is satisfiable. -/
theorem exists_lexminOracle : ∃ solve : Cst → Option (List Int), LexminOracle solve := by
  classical
  refine ⟨fun c => if h : ∃ y : List Int, y.length = c.ncols - 1 ∧ NonNeg y ∧ c.Sat y
    then some (exists_lexLeast (c.ncols - 1) (fun y => c.Sat y) h).choose else none, ?_⟩
  intro c hc
  have h1 := hc.1
  refine ⟨?_, ?_⟩
  · intro x hx
    beta_reduce at hx
    by_cases h : ∃ y : List Int, y.length = c.ncols - 1 ∧ NonNeg y ∧ c.Sat y
    · rw [dif_pos h] at hx
      injection hx with hx
      obtain ⟨a1, a2, a3, a4⟩ := (exists_lexLeast (c.ncols - 1) (fun y => c.Sat y) h).choose_spec
      rw [hx] at a1 a2 a3 a4
      exact ⟨by omega, a2, a3, fun y hy => a4 y (by omega)⟩
    · rw [dif_neg h] at hx; cases hx
  · intro hx ⟨y, hy1, hy2, hy3⟩
    beta_reduce at hx
    rw [dif_pos ⟨y, by omega, hy2, hy3⟩] at hx
    cases hx

end Pluto
