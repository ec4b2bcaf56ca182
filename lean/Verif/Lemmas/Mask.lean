import Verif.Model.Search
import Verif.Lemmas.Matrix
import Verif.Lemmas.Framework

namespace Pluto

/-! ### Column masks -/

theorem keepMask_append {α : Type} (m1 m2 : List Bool) (a b : List α) (h : m1.length = a.length) :
    keepMask (m1 ++ m2) (a ++ b) = keepMask m1 a ++ keepMask m2 b := by
  induction m1 generalizing a with
  | nil => cases a with
    | nil => simp [keepMask]
    | cons x xs => simp at h
  | cons c m1 ih => cases a with
    | nil => simp at h
    | cons x xs => cases c <;> simp [keepMask, ih xs (by simpa using h)]

theorem keepMask_length {α : Type} (m : List Bool) (a : List α) (h : m.length = a.length) :
    (keepMask m a).length = m.countP id := by
  induction m generalizing a with
  | nil => cases a <;> simp [keepMask]
  | cons c m ih => cases a with
    | nil => simp at h
    | cons x xs => cases c <;> simp [keepMask, ih xs (by simpa using h)]

theorem spreadMask_length (m : List Bool) (v : List Int) : (spreadMask m v).length = m.length := by
  induction m generalizing v with
  | nil => simp [spreadMask]
  | cons c m ih => cases c <;> cases v <;> simp [spreadMask, ih]

theorem keep_spread (m : List Bool) (v : List Int) (h : v.length = m.countP id) :
    keepMask m (spreadMask m v) = v := by
  induction m generalizing v with
  | nil => simp at h; subst h; simp [keepMask, spreadMask]
  | cons c m ih => cases c with
    | false =>
      simp only [spreadMask, keepMask]
      exact ih v (by simpa using h)
    | true => cases v with
      | nil => simp at h
      | cons x xs =>
        simp only [spreadMask, keepMask]
        rw [ih xs (by simpa using h)]

theorem spread_keep (m : List Bool) (z : List Int) (h : m.length = z.length)
    (hz : ∀ i : Nat, m[i]? = some false → z.getD i 0 = 0) : spreadMask m (keepMask m z) = z := by
  induction m generalizing z with
  | nil => simp at h; simp [spreadMask]; cases z <;> simp_all
  | cons c m ih => cases z with
    | nil => simp at h
    | cons x xs =>
      have ih' := ih xs (by simpa using h) (fun i hi => by simpa using hz (i + 1) (by simpa using hi))
      cases c with
      | false =>
        have := hz 0 (by simp)
        simp only [List.getD_cons_zero] at this
        simp [spreadMask, keepMask, ih', this]
      | true => simp [spreadMask, keepMask, ih']

theorem spread_zero (m : List Bool) (v : List Int) (i : Nat) (h : m[i]? = some false) :
    (spreadMask m v).getD i 0 = 0 := by
  induction m generalizing v i with
  | nil => simp at h
  | cons c m ih => cases i with
    | zero => simp at h; subst h; cases v <;> simp [spreadMask]
    | succ i =>
      have h' : m[i]? = some false := by simpa using h
      cases c <;> cases v <;> simp only [spreadMask, List.getD_cons_succ] <;> exact ih _ _ h'

theorem dot_keep {R : Type*} [CommRing R] (m : List Bool) (row : List Int) (v : List Int)
    (h : m.length = row.length) (hv : v.length = m.countP id) (g : Int → R) (hg : g 0 = 0) :
    dot (keepMask m row) (v.map g) = dot row ((spreadMask m v).map g) := by
  induction m generalizing row v with
  | nil =>
    cases row with
    | nil => simp [keepMask, dot]
    | cons x xs => simp at h
  | cons c m ih => cases row with
    | nil => simp at h
    | cons x xs => cases c with
      | false =>
        simp only [spreadMask, keepMask, List.map_cons, dot, hg]
        rw [ih xs v (by simpa using h) (by simpa using hv)]; ring
      | true => cases v with
        | nil => simp at hv
        | cons y ys =>
          simp only [spreadMask, keepMask, List.map_cons, dot]
          rw [ih xs ys (by simpa using h) (by simpa using hv)]

theorem dot_spread_swap (m : List Bool) (v : List Int) (c : List Int)
    (h : m.length = c.length) (hv : v.length = m.countP id) :
    dot (spreadMask m v) c = dot v (keepMask m c) := by
  induction m generalizing v c with
  | nil => simp at hv; subst hv; simp [spreadMask, dot]
  | cons b m ih => cases c with
    | nil => simp at h
    | cons y ys => cases b with
      | false =>
        simp only [spreadMask, keepMask, dot]
        rw [ih v ys (by simpa using h) (by simpa using hv)]; simp
      | true => cases v with
        | nil => simp at hv
        | cons x xs =>
          simp only [spreadMask, keepMask, dot]
          rw [ih xs ys (by simpa using h) (by simpa using hv)]

theorem spread_nonneg (m : List Bool) (v : List Int) (h : ∀ a ∈ v, 0 ≤ a) :
    ∀ a ∈ spreadMask m v, 0 ≤ a := by
  induction m generalizing v with
  | nil => simp [spreadMask]
  | cons c m ih =>
    cases c with
    | false =>
      intro a ha
      simp only [spreadMask, List.mem_cons] at ha
      rcases ha with rfl | ha
      · exact le_rfl
      · exact ih v h a ha
    | true => cases v with
      | nil =>
        intro a ha
        simp only [spreadMask, List.mem_cons] at ha
        rcases ha with rfl | ha
        · exact le_rfl
        · exact ih [] (by simp) a ha
      | cons x xs =>
        intro a ha
        simp only [spreadMask, List.mem_cons] at ha
        rcases ha with rfl | ha
        · exact h _ (by simp)
        · exact ih xs (fun b hb => h b (List.mem_cons_of_mem _ hb)) a ha

theorem keep_mem {α : Type} (m : List Bool) (v : List α) : ∀ a ∈ keepMask m v, a ∈ v := by
  induction m generalizing v with
  | nil => simp [keepMask]
  | cons c m ih => cases v with
    | nil => simp [keepMask]
    | cons x xs =>
      intro a ha
      cases c with
      | false => exact List.mem_cons_of_mem _ (ih xs a (by simpa [keepMask] using ha))
      | true =>
        simp only [keepMask, List.mem_cons] at ha
        rcases ha with rfl | ha
        · simp
        · exact List.mem_cons_of_mem _ (ih xs a ha)

theorem keepMask_replicate_true {α : Type} (n : Nat) (v : List α) (h : v.length = n) :
    keepMask (List.replicate n true) v = v := by
  induction n generalizing v with
  | zero => simp at h; subst h; simp [keepMask]
  | succ n ih => cases v with
    | nil => simp at h
    | cons x xs => simp [List.replicate_succ, keepMask, ih xs (by simpa using h)]

/-! ### Block reversal by exchanges -/

theorem swapIdx_eq_swapAt (l : List Int) (i j : Nat) : swapIdx l i j = swapAt l i j := by
  simp [swapIdx, swapAt, coef, List.getD_eq_getElem?_getD]

theorem swapAt_mid (pre b s : List Int) (i j : Nat) (hi : i < b.length) (hj : j < b.length) :
    swapAt (pre ++ b ++ s) (pre.length + i) (pre.length + j) = pre ++ swapAt b i j ++ s := by
  apply List.ext_getElem?
  intro n
  rw [swapAt_getElem? _ _ _ (by simp; omega) (by simp; omega)]
  simp only [List.getElem?_append, List.length_append, swapAt_length, swapAt_getElem? b i j hi hj]
  ifs_idx

theorem swap_fold_mid (pre b s : List Int) (k : Nat) (hk : k ≤ b.length) :
    (List.range k).foldl (fun l i => swapAt l (pre.length + i) (pre.length + (b.length - 1 - i)))
        (pre ++ b ++ s) =
      pre ++ (List.range k).foldl (fun a i => swapAt a i (a.length - 1 - i)) b ++ s ∧
    ((List.range k).foldl (fun a i => swapAt a i (a.length - 1 - i)) b).length = b.length := by
  induction k with
  | zero => simp
  | succ k ih =>
    obtain ⟨ih1, ih2⟩ := ih (by omega)
    rw [List.range_succ, List.foldl_append, List.foldl_append, ih1]
    simp only [List.foldl_cons, List.foldl_nil, swapAt_length, ih2, and_true]
    have := swapAt_mid pre ((List.range k).foldl (fun a i => swapAt a i (a.length - 1 - i)) b) s k
      (b.length - 1 - k) (by omega) (by omega)
    exact this

/-- Block reversal: the first `d` entries are reversed, the next one stays, and so on. -/
def revBlocks : List Nat → List Int → List Int
  | [], r => r
  | d :: ds, r => (r.take d).reverse ++ ((r.drop d).take 1 ++ revBlocks ds (r.drop (d + 1)))

/-- Total size of the blocks. -/
def blocksLen (ds : List Nat) : Nat := (ds.map (· + 1)).sum

theorem swapPairs_fold (ds : List Nat) (pre r : List Int) (hr : blocksLen ds ≤ r.length) :
    (swapPairs pre.length ds).foldl (fun l ij => swapAt l ij.1 ij.2) (pre ++ r) =
      pre ++ revBlocks ds r := by
  induction ds generalizing pre r with
  | nil => simp [swapPairs, revBlocks]
  | cons d ds ih =>
    have hlen : d + 1 + blocksLen ds ≤ r.length := by
      simpa [blocksLen, add_comm, add_left_comm, add_assoc] using hr
    rw [swapPairs, List.foldl_append, List.foldl_map]
    have hb : (r.take d).length = d := by simp; omega
    have e1 : (List.range' pre.length (d / 2)).foldl
        (fun l k => swapAt l k (pre.length + (d - 1 - (k - pre.length)))) (pre ++ r) =
        pre ++ (r.take d).reverse ++ r.drop d := by
      rw [List.range'_eq_map_range, List.foldl_map]
      have h1 := swap_fold_mid pre (r.take d) (r.drop d) (d / 2) (by omega)
      rw [hb] at h1
      have h2 := reverse_loop_eq (r.take d)
      rw [hb] at h2
      rw [List.append_assoc, List.take_append_drop] at h1
      simp only [Nat.add_sub_cancel_left]
      rw [h1.1, h2]
    rw [e1]
    have hpre : (pre ++ (r.take d).reverse ++ (r.drop d).take 1).length = pre.length + d + 1 := by
      simp; omega
    have e2 : pre ++ (r.take d).reverse ++ r.drop d =
        (pre ++ (r.take d).reverse ++ (r.drop d).take 1) ++ r.drop (d + 1) := by
      rw [List.append_assoc _ ((r.drop d).take 1)]
      congr 1
      rw [← List.drop_drop, List.take_append_drop]
    rw [e2, ← hpre, ih _ _ (by simp; omega)]
    simp [revBlocks, List.append_assoc]

theorem revBlocks_length (ds : List Nat) (r : List Int) : (revBlocks ds r).length = r.length := by
  induction ds generalizing r with
  | nil => rfl
  | cons d ds ih =>
    simp only [revBlocks, List.length_append, List.length_reverse, List.length_take, ih,
      List.length_drop]
    omega

theorem revBlocks_mem (ds : List Nat) (r : List Int) : ∀ a, a ∈ revBlocks ds r ↔ a ∈ r := by
  induction ds generalizing r with
  | nil => intro a; rfl
  | cons d ds ih =>
    intro a
    simp only [revBlocks, List.mem_append, List.mem_reverse, ih]
    conv_rhs => rw [← List.take_append_drop d r, ← List.take_append_drop 1 (r.drop d), List.drop_drop]
    simp only [List.mem_append]

theorem revBlocks_revBlocks (ds : List Nat) (r : List Int) (h : blocksLen ds ≤ r.length) :
    revBlocks ds (revBlocks ds r) = r := by
  induction ds generalizing r with
  | nil => rfl
  | cons d ds ih =>
    have hlen : d + 1 + blocksLen ds ≤ r.length := by
      simpa [blocksLen, add_comm, add_left_comm, add_assoc] using h
    have l1 : ((r.take d).reverse).length = d := by simp; omega
    have l2 : ((r.drop d).take 1).length = 1 := by simp; omega
    conv_lhs => rw [revBlocks]
    have e1 : (revBlocks (d :: ds) r).take d = (r.take d).reverse := by
      rw [revBlocks, List.take_append_of_le_length (by omega), List.take_of_length_le (by omega)]
    have e2 : (revBlocks (d :: ds) r).drop d = (r.drop d).take 1 ++ revBlocks ds (r.drop (d + 1)) := by
      rw [revBlocks, List.drop_append_of_le_length (by omega), List.drop_of_length_le (by omega)]
      simp
    have e3 : (revBlocks (d :: ds) r).drop (d + 1) = revBlocks ds (r.drop (d + 1)) := by
      rw [← List.drop_drop, e2, List.drop_append_of_le_length (by omega),
        List.drop_of_length_le (by omega)]
      simp
    rw [e1, e2, e3, ih _ (by simp; omega), List.reverse_reverse,
      List.take_append_of_le_length (l₁ := (r.drop d).take 1) (by omega),
      List.take_of_length_le (l := (r.drop d).take 1) (by omega)]
    have : (r.drop d).take 1 ++ r.drop (d + 1) = r.drop d := by
      rw [← List.drop_drop, List.take_append_drop]
    rw [this, List.take_append_drop]

theorem dot_reverse (a : List Int) (b : List Int) (h : a.length = b.length) :
    dot a.reverse b.reverse = dot a b := by
  induction a generalizing b with
  | nil => simp [dot]
  | cons x xs ih => cases b with
    | nil => simp at h
    | cons y ys =>
      have h' : xs.length = ys.length := by simpa using h
      rw [List.reverse_cons, List.reverse_cons, dot_append _ _ _ _ (by simpa using h'), ih ys h']
      simp [dot]; ring

theorem dot_revBlocks (ds : List Nat) (a b : List Int) (h : a.length = b.length)
    (hl : blocksLen ds ≤ a.length) : dot (revBlocks ds a) (revBlocks ds b) = dot a b := by
  induction ds generalizing a b with
  | nil => rfl
  | cons d ds ih =>
    have hlen : d + 1 + blocksLen ds ≤ a.length := by
      simpa [blocksLen, add_comm, add_left_comm, add_assoc] using hl
    rw [revBlocks, revBlocks, dot_append _ _ _ _ (by simp; omega), dot_append _ _ _ _ (by simp; omega),
      ih _ _ (by simp; omega) (by simp; omega), dot_reverse _ _ (by simp; omega)]
    rw [dot_take_drop a b d (by omega) (by omega), dot_take_drop (a.drop d) (b.drop d) 1 (by simp; omega)
      (by simp; omega), List.drop_drop, List.drop_drop]

theorem revBlocks_append (ds : List Nat) (r s : List Int) (h : blocksLen ds ≤ r.length) :
    revBlocks ds (r ++ s) = revBlocks ds r ++ s := by
  induction ds generalizing r with
  | nil => rfl
  | cons d ds ih =>
    have hlen : d + 1 + blocksLen ds ≤ r.length := by
      simpa [blocksLen, add_comm, add_left_comm, add_assoc] using h
    rw [revBlocks, revBlocks, List.take_append_of_le_length (by omega),
      List.drop_append_of_le_length (by omega), List.take_append_of_le_length (by simp; omega),
      List.drop_append_of_le_length (by omega), ih _ (by simp; omega)]
    simp [List.append_assoc]

end Pluto
