import Verif.Model.Satisfaction
import Verif.Spec.Prog
import Verif.Lemmas.Framework

/-! Lemmas about the satisfaction model. -/

namespace Pluto

theorem addLast_length (l : List Int) (k : Int) : (addLast l k).length = l.length := by
  simp [addLast]

theorem addLast_snoc (l : List Int) (a k : Int) : addLast (l ++ [a]) k = l ++ [a + k] := by
  apply List.ext_getElem?
  intro i
  simp only [addLast, List.getElem?_mapIdx, List.length_append, List.length_singleton]
  rcases lt_trichotomy i l.length with h | h | h
  · rw [List.getElem?_append_left h, List.getElem?_append_left h, List.getElem?_eq_getElem h]
    simp; omega
  · subst h; simp
  · simp [show l.length < i by omega, List.getElem?_append_right (le_of_lt h),
      List.getElem?_eq_none (l := [a]) (i := i - l.length) (by simp; omega),
      List.getElem?_eq_none (l := [a + k]) (i := i - l.length) (by simp; omega)]

section ring
variable {R : Type*} [CommRing R]

theorem dot_addLast (l : List Int) (k : Int) (y : List R) (h : l.length = y.length + 1) :
    dot (addLast l k) (y ++ [(1 : R)]) = dot l (y ++ [(1 : R)]) + (k : R) := by
  rcases List.eq_nil_or_concat l with rfl | ⟨l', a, rfl⟩
  · simp at h
  · simp at h
    have hl : l'.length = y.length := by omega
    simp only [List.concat_eq_append, addLast_snoc]
    rw [dot_append _ _ _ _ hl, dot_append _ _ _ _ hl]
    simp; ring

theorem dot_neg' (a : List Int) (y : List R) : dot (a.map (fun v => -v)) y = - dot a y :=
  dot_map_neg a y

theorem dot_zipWith_sub' (a b : List Int) (y : List R) (h : a.length = b.length) :
    dot (List.zipWith (fun x y => x - y) a b) y = dot a y - dot b y := by
  induction a generalizing b y with
  | nil => cases b <;> simp at h ⊢
  | cons p ps ih => cases b with
    | nil => simp at h
    | cons q qs => cases y with
      | nil => simp
      | cons z zs => simp at h; simp [ih qs zs h]; ring

theorem srcMinusDest_aff (sd dd np : Nat) (a b : List Int) (k : Int) (s t q : List R)
    (ha : a.length = sd + np + 1) (hb : b.length = dd + np + 1) (hs : s.length = sd)
    (ht : t.length = dd) (hq : q.length = np) :
    aff (srcMinusDest sd dd a b k) (s ++ t ++ q) = aff a (s ++ q) - aff b (t ++ q) + k := by
  unfold srcMinusDest aff
  have e1 : s ++ t ++ q ++ [(1 : R)] = s ++ t ++ (q ++ [1]) := by simp
  rw [e1, dot_append _ _ _ _ (by simp; omega), dot_append _ _ _ _ (by simp; omega), dot_neg',
    dot_addLast _ _ _ (by simp; omega), dot_zipWith_sub' _ _ _ (by simp; omega)]
  have e2 : dot a (s ++ q ++ [1]) = dot (a.take sd) s + dot (a.drop sd) (q ++ [1]) := by
    conv_lhs => rw [← List.take_append_drop sd a, List.append_assoc]
    rw [dot_append _ _ _ _ (by simp; omega)]
  have e3 : dot b (t ++ q ++ [1]) = dot (b.take dd) t + dot (b.drop dd) (q ++ [1]) := by
    conv_lhs => rw [← List.take_append_drop dd b, List.append_assoc]
    rw [dot_append _ _ _ _ (by simp; omega)]
  rw [e2, e3]; ring

theorem destMinusSrc_eq (sd dd : Nat) (a b : List Int) (k : Int) :
    destMinusSrc sd dd a b k = (a.take sd).map (fun v => -v) ++ b.take dd ++
      addLast (List.zipWith (fun x y => y - x) (a.drop sd) (b.drop dd)) k := by
  unfold destMinusSrc
  congr 3
  funext x y; ring

theorem destMinusSrc_aff (sd dd np : Nat) (a b : List Int) (k : Int) (s t q : List R)
    (ha : a.length = sd + np + 1) (hb : b.length = dd + np + 1) (hs : s.length = sd)
    (ht : t.length = dd) (hq : q.length = np) :
    aff (destMinusSrc sd dd a b k) (s ++ t ++ q) = aff b (t ++ q) - aff a (s ++ q) + k := by
  rw [destMinusSrc_eq]
  unfold aff
  have e1 : s ++ t ++ q ++ [(1 : R)] = s ++ t ++ (q ++ [1]) := by simp
  have e0 : List.zipWith (fun x y : Int => y - x) (a.drop sd) (b.drop dd) =
      List.zipWith (fun x y => x - y) (b.drop dd) (a.drop sd) := by
    rw [List.zipWith_comm]
  rw [e1, e0, dot_append _ _ _ _ (by simp; omega), dot_append _ _ _ _ (by simp; omega), dot_neg',
    dot_addLast _ _ _ (by simp; omega), dot_zipWith_sub' _ _ _ (by simp; omega)]
  have e2 : dot a (s ++ q ++ [1]) = dot (a.take sd) s + dot (a.drop sd) (q ++ [1]) := by
    conv_lhs => rw [← List.take_append_drop sd a, List.append_assoc]
    rw [dot_append _ _ _ _ (by simp; omega)]
  have e3 : dot b (t ++ q ++ [1]) = dot (b.take dd) t + dot (b.drop dd) (q ++ [1]) := by
    conv_lhs => rw [← List.take_append_drop dd b, List.append_assoc]
    rw [dot_append _ _ _ _ (by simp; omega)]
  rw [e2, e3]; ring

end ring

theorem srcMinusDest_length (sd dd np : Nat) (a b : List Int) (k : Int)
    (ha : a.length = sd + np + 1) (hb : b.length = dd + np + 1) :
    (srcMinusDest sd dd a b k).length = sd + dd + np + 1 := by
  simp [srcMinusDest, addLast_length]; omega

theorem destMinusSrc_length (sd dd np : Nat) (a b : List Int) (k : Int)
    (ha : a.length = sd + np + 1) (hb : b.length = dd + np + 1) :
    (destMinusSrc sd dd a b k).length = sd + dd + np + 1 := by
  simp [destMinusSrc, addLast_length]; omega

theorem dimOf_eq (p : Prog) (i : Nat) : dimOf p i = p.dim i := rfl

theorem rowOf_some {p : Prog} {i l : Nat} {a : List Int} (h : rowOf p i l = some a) : p.row i l = a := by
  unfold rowOf at h; unfold Prog.row; rw [h]; rfl

theorem rowOf_len {p : Prog} (hT : p.TransOK) {i l : Nat} {a : List Int} (h : rowOf p i l = some a) :
    a.length = p.dim i + p.npar + 1 := by
  unfold rowOf at h
  rw [Option.bind_eq_some_iff] at h
  obtain ⟨st, h1, h2⟩ := h
  rw [hT st (List.mem_of_getElem? h1) a (List.mem_of_getElem? h2)]
  simp [Prog.dim, h1]

theorem withRow_wf {poly : Cst} {row : List Int} {n : Nat} (hp : poly.WF) (hn : poly.ncols = n)
    (hr : row.length = n) : (withRow poly row).WF ∧ (withRow poly row).ncols = n := by
  refine ⟨⟨?_, ?_⟩, hr⟩
  · simp only [withRow]; rw [hr, ← hn]; exact hp.1
  · intro r h
    simp only [withRow, List.mem_cons] at h ⊢
    rcases h with rfl | h
    · rfl
    · rw [hp.2 r h, hn, hr]

theorem withRow_sat (poly : Cst) (row : List Int) (x : List Int) :
    (withRow poly row).Sat x ↔ 0 ≤ aff row x ∧ poly.Sat x := by
  simp [withRow, Cst.Sat, Row.Sat]

/-- Emptiness of `poly` with one more row, in terms of instances. -/
theorem empty_withRow {isEmpty : Cst → Bool} (hE : EmptyOracle isEmpty) {poly : Cst} {row : List Int}
    {n m k : Nat} (hp : poly.WF) (hn : poly.ncols = n + m + k + 1) (hr : row.length = n + m + k + 1) :
    isEmpty (withRow poly row) = true ↔
      ∀ s t q : List Int, DepInst poly n m k s t q → aff row (s ++ t ++ q) < 0 := by
  have hw := withRow_wf hp hn hr
  rw [hE _ hw.1]
  constructor
  · intro h s t q hi
    by_contra hc
    push Not at hc
    exact h ⟨s ++ t ++ q, by rw [hw.2]; simp [hi.hs, hi.ht, hi.hp]; omega,
      (withRow_sat _ _ _).mpr ⟨hc, hi.sat⟩⟩
  · rintro h ⟨x, hx, hsat⟩
    rw [hw.2] at hx
    rw [withRow_sat] at hsat
    have e : x = x.take n ++ (x.drop n).take m ++ (x.drop n).drop m := by
      simp only [List.append_assoc, List.take_append_drop]
    have hi : DepInst poly n m k (x.take n) ((x.drop n).take m) ((x.drop n).drop m) :=
      ⟨by simp; omega, by simp; omega, by simp; omega, by rw [← e]; exact hsat.2⟩
    have := h _ _ _ hi
    rw [← e] at this
    omega

theorem empty_withRow' {isEmpty : Cst → Bool} (hE : EmptyOracle isEmpty) {poly : Cst} {row : List Int}
    {n m k : Nat} (hp : poly.WF) (hn : poly.ncols = n + m + k + 1) (hr : row.length = n + m + k + 1) :
    isEmpty (withRow poly row) = false ↔
      ∃ s t q : List Int, DepInst poly n m k s t q ∧ 0 ≤ aff row (s ++ t ++ q) := by
  rw [← Bool.not_eq_true, empty_withRow hE hp hn hr]
  push Not
  rfl

theorem depSatTest_eq {isEmpty : Cst → Bool} {p : Prog} {d : Dep} {l : Nat} {b : Bool}
    (h : depSatTest isEmpty p d l = some b) : ∃ a c, rowOf p d.src l = some a ∧
      rowOf p d.dest l = some c ∧
      isEmpty (withRow d.dpoly (srcMinusDest (dimOf p d.src) (dimOf p d.dest) a c 0)) = b := by
  unfold depSatTest at h
  cases ha : rowOf p d.src l with
  | none => simp [ha] at h
  | some a => cases hb : rowOf p d.dest l with
    | none => simp [ha, hb] at h
    | some c => simp [ha, hb] at h; exact ⟨a, c, rfl, rfl, h⟩

end Pluto
