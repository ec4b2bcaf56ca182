import Verif.Props.CstEdit
import Verif.Spec.Prog

/-!
C46 (lists of systems behave as unions) and C26 (conversion to and from PolyLib form).
Specification: `SatUnion`, `Cst.Sat` of `Verif/Spec/Affine.lean`, `EmptyOracle` of
`Verif/Spec/Prog.lean`.
-/

namespace Pluto

set_option linter.unusedSectionVars false

variable {R : Type*} [CommRing R] [LinearOrder R] [IsStrictOrderedRing R]

/-! ### C46 -/

theorem satUnion_map (f : Cst → Cst) (l : List Cst) (x y : List R) (P : Prop)
    (h : ∀ c ∈ l, ((f c).Sat y ↔ c.Sat x ∧ P)) : SatUnion (l.map f) y ↔ SatUnion l x ∧ P := by
  unfold SatUnion
  simp only [List.mem_map, exists_exists_and_eq_and]
  constructor
  · rintro ⟨c, hc, hs⟩; exact ⟨⟨c, hc, ((h c hc).mp hs).1⟩, ((h c hc).mp hs).2⟩
  · rintro ⟨⟨c, hc, hs⟩, hp⟩; exact ⟨c, hc, (h c hc).mpr ⟨hs, hp⟩⟩

/-- C46. Adding a dimension to a union leaves it unconstrained. -/
theorem C46_add_dim (l : List Cst) (n pos : Nat) (x : List R) (v : R)
    (hl : ∀ c ∈ l, c.WF ∧ c.ncols = n + 1) (hx : x.length = n) (hp : pos ≤ n) :
    SatUnion (addDimList l pos) (x.insertIdx pos v) ↔ SatUnion l x := by
  rw [← and_true (SatUnion l x)]
  exact satUnion_map _ l x _ True fun c hc => by
    rw [C27_add_dim c pos x v (hl c hc).1 (by rw [(hl c hc).2, hx]) (by omega)]; simp

theorem C46_remove_add_dim (l : List Cst) (pos : Nat) : removeDimList (addDimList l pos) pos = l := by
  simp [removeDimList, addDimList, Function.comp_def, C27_remove_add_dim]

theorem C46_interchange_cols (l : List Cst) (n i j : Nat) (x y : List R)
    (hl : ∀ c ∈ l, c.WF ∧ c.ncols = n + 1) (hx : x.length = n) (hi : i < n) (hj : j < n)
    (hy : ∀ k, y[k]? = if k = i then x[j]? else if k = j then x[i]? else x[k]?) :
    SatUnion (interchangeColsList l i j) y ↔ SatUnion l x := by
  rw [← and_true (SatUnion l x)]
  exact satUnion_map _ l x _ True fun c hc => by
    rw [C27_interchange_cols c i j x y (hl c hc).1 (by rw [(hl c hc).2, hx]) (by omega) (by omega) hy]
    simp

/-- C46. Bounds and fixings intersect the union. -/
theorem C46_set_var (l : List Cst) (n v : Nat) (val : Int) (x : List R)
    (hl : ∀ c ∈ l, c.ncols = n + 1) (hx : x.length = n) (hv : v < n) :
    SatUnion (setVarList l v val) x ↔ SatUnion l x ∧ x.getD v 0 = (val : R) :=
  satUnion_map _ l x x _ fun c hc => C27_set_var c v val x (by rw [hl c hc, hx]) (by omega)

theorem C46_add_lb (l : List Cst) (n v : Nat) (lb : Int) (x : List R)
    (hl : ∀ c ∈ l, c.ncols = n + 1) (hx : x.length = n) (hv : v < n) :
    SatUnion (addLbList l v lb) x ↔ SatUnion l x ∧ (lb : R) ≤ x.getD v 0 :=
  satUnion_map _ l x x _ fun c hc => C27_add_lb c v lb x (by rw [hl c hc, hx]) (by omega)

theorem C46_add_ub (l : List Cst) (n v : Nat) (ub : Int) (x : List R)
    (hl : ∀ c ∈ l, c.ncols = n + 1) (hx : x.length = n) (hv : v < n) :
    SatUnion (addUbList l v ub) x ↔ SatUnion l x ∧ x.getD v 0 ≤ (ub : R) :=
  satUnion_map _ l x x _ fun c hc => C27_add_ub c v ub x (by rw [hl c hc, hx]) (by omega)

theorem satUnion_append (l1 l2 : List Cst) (x : List R) :
    SatUnion (l1 ++ l2) x ↔ SatUnion l1 x ∨ SatUnion l2 x := by
  simp [SatUnion, or_and_right, exists_or]

/-- C46. In place, `pluto_constraints_unionize_simple` makes its first argument the union of both. -/
theorem C46_unionize_simple (l1 l2 : List Cst) (x : List R) :
    SatUnion (unionizeSimple l1 l2).1 x ↔ SatUnion l1 x ∨ SatUnion l2 x := satUnion_append l1 l2 x

/-- C46. The returned pointer is the union only when the first argument is a single element; in
general it heads the last element of the first argument followed by the second. -/
theorem C46_unionize_simple_return_partial (c : Cst) (l2 : List Cst) (x : List R) :
    SatUnion (unionizeSimple [c] l2).2 x ↔ c.Sat x ∨ SatUnion l2 x := by
  simp [unionizeSimple, SatUnion]

/-- C46. Converting an isl set (which ignores the returned pointer) keeps all pieces, in order. -/
theorem C46_isl_set (n : Nat) (pieces : List Cst) (x : List R) (hx : x.length + 1 = n) :
    SatUnion (islSetToCst n pieces) x ↔ SatUnion pieces x := by
  have key : ∀ (pieces acc : List Cst),
      pieces.foldl (fun acc b => if acc = [] then [b] else (unionizeSimple acc [b]).1) acc = acc ++ pieces := by
    intro pieces
    induction pieces with
    | nil => simp
    | cons b bs ih =>
      intro acc
      rw [List.foldl_cons, ih]
      split_ifs with h <;> simp [h, unionizeSimple]
  unfold islSetToCst
  rw [key]
  simp only [List.nil_append]
  split_ifs with h
  · subst h
    have := C27_empty (R := R) n x hx
    simp [SatUnion, this]
  · rfl

/-- C46. A statement domain extracted from an isl set (lib/plutolib.c) consists of the *last two*
basic sets only, because the returned pointer replaces the domain. -/
theorem C46_extract_domain (pieces : List Cst) :
    extractDomain pieces = pieces.drop (pieces.length - 2) := by
  unfold extractDomain
  induction pieces using List.reverseRecOn with
  | nil => rfl
  | append_singleton l b ih =>
    rw [List.foldl_append, ih, List.foldl_cons, List.foldl_nil]
    rcases hl : l.length with _ | _ | n
    · have := List.length_eq_zero_iff.mp hl; subst this; simp
    · obtain ⟨a, rfl⟩ := List.length_eq_one_iff.mp hl
      simp [unionizeSimple]
    · rw [if_neg (by intro h; have := congrArg List.length h; simp at this; omega)]
      have : n + 1 + 1 - 2 = n := by omega
      rw [this]
      simp only [unionizeSimple, List.length_append, hl, List.length_singleton, List.length_drop, List.drop_drop]
      rw [show n + 1 + 1 + 1 - 2 = n + 1 by omega, show n + (n + 1 + 1 - n - 1) = n + 1 by omega,
        List.drop_append_of_le_length (by omega)]

/-- C46. So extraction keeps domains of up to two pieces. Missing for the full claim: three or more
pieces, where it is false (`C46_violated_extract`). -/
theorem C46_extract_domain_partial (pieces : List Cst) (h : pieces.length ≤ 2) (x : List R) :
    SatUnion (extractDomain pieces) x ↔ SatUnion pieces x := by
  rw [C46_extract_domain, show pieces.length - 2 = 0 by omega, List.drop_zero]

/-- C46 fails for extracted statement domains: of `{0} ∪ {2} ∪ {4}` the point 0 is lost. -/
theorem C46_violated_extract : ∃ (pieces : List Cst) (x : List Int),
    (∀ c ∈ pieces, c.WF ∧ c.ncols = x.length + 1) ∧ SatUnion pieces x ∧ ¬ SatUnion (extractDomain pieces) x := by
  refine ⟨[⟨2, [⟨true, [1, 0]⟩]⟩, ⟨2, [⟨true, [1, -2]⟩]⟩, ⟨2, [⟨true, [1, -4]⟩]⟩], [0], by decide, ?_, ?_⟩
  · exact ⟨_, List.mem_cons_self .., by simp [Cst.Sat, Row.Sat, aff, dot]⟩
  · rw [C46_extract_domain]
    simp [SatUnion, Cst.Sat, Row.Sat, aff, dot]

/-- C46. Emptiness of a list is emptiness of the union, given a correct test for single systems. -/
theorem C46_is_empty (isEmpty : Cst → Bool) (hE : EmptyOracle isEmpty) (l : List Cst) (n : Nat)
    (hl : ∀ c ∈ l, c.WF ∧ c.ncols = n + 1) :
    isEmptyList isEmpty l = true ↔ ¬ ∃ x : List Int, x.length = n ∧ SatUnion l x := by
  have hc : ∀ c ∈ l, (isEmpty c = true ↔ ¬ ∃ x : List Int, x.length = n ∧ c.Sat x) := by
    intro c hc
    rw [hE c (hl c hc).1, (hl c hc).2]
    simp
  have step : isEmptyList isEmpty l = l.all isEmpty := by
    clear hc hl
    induction l with
    | nil => rfl
    | cons c cs ih =>
      cases cs with
      | nil => simp [isEmptyList]
      | cons d ds => 
        rw [isEmptyList, ih, List.all_cons (l := d :: ds)]
        · cases isEmpty c <;> simp
        · simp
  rw [step, List.all_eq_true]
  constructor
  · rintro h ⟨x, hx, c, hcm, hs⟩
    exact (hc c hcm).mp (h c hcm) ⟨x, hx, hs⟩
  · intro h c hcm
    rw [hc c hcm]
    rintro ⟨x, hx, hs⟩
    exact h ⟨x, hx, c, hcm, hs⟩

/-! Adding rows to every element. -/

theorem resize_sat (a : ACst) (n : Nat) (h : a.cst.rows.length ≤ n) (x : List R) :
    (resizeSingle a n).cst.Sat x ↔ a.cst.Sat x := by
  simp only [Cst.Sat, resizeSingle, List.take_of_length_le h, List.mem_append]
  constructor
  · intro hh r hr; exact hh r (.inl hr)
  · rintro hh r (hr | hr)
    · exact hh r hr
    · obtain ⟨-, rfl⟩ := List.mem_replicate.mp hr
      simp [Row.Sat, aff, dot_zero]

theorem resize_length (a : ACst) (n : Nat) : (resizeSingle a n).cst.rows.length = n := by
  simp [resizeSingle]; omega

theorem resize_ncols (a : ACst) (n : Nat) : (resizeSingle a n).cst.ncols = a.cst.ncols := rfl

/-- C46. `pluto_constraints_add_to_each` intersects the union with `c`, provided no element has more
rows than an earlier one plus those of `c` (or no resize is needed). Missing for the full claim: lists
with longer later elements, where rows can be dropped (`C46_violated_add_to_each`). -/
theorem C46_add_to_each_partial (l : List ACst) (c : Cst) (x : List R)
    (h : l.Pairwise (fun a b => a.cst.rows.length + c.rows.length ≤ a.alloc ∨
      b.cst.rows.length ≤ a.cst.rows.length + c.rows.length)) :
    SatUnion ((addToEach l c).map (·.cst)) x ↔ SatUnion (l.map (·.cst)) x ∧ c.Sat x := by
  induction hn : l.length generalizing l with
  | zero => 
    have := List.length_eq_zero_iff.mp hn; subst this
    simp [addToEach, SatUnion]
  | succ n ih =>
    cases l with
    | nil => simp at hn
    | cons a rest =>
      have hrest : rest.length = n := by simpa using hn
      rw [List.pairwise_cons] at h
      rw [addToEach]
      have hsplit : ∀ (p : Cst) (q : List Cst), SatUnion (p :: q) x ↔ p.Sat x ∨ SatUnion q x := by
        intro p q; simp [SatUnion]
      split_ifs with hc
      · have hall : ∀ b ∈ rest, b.cst.rows.length ≤ a.cst.rows.length + c.rows.length :=
          fun b hb => (h.1 b hb).resolve_left (by omega)
        have ih' := ih (rest.map (fun b => resizeSingle b (a.cst.rows.length + c.rows.length))) (by
          rw [List.pairwise_map]
          exact List.pairwise_of_forall (fun p q => .inr (by rw [resize_length, resize_length]; omega)))
          (by simpa using hrest)
        simp only [List.map_cons, hsplit, C27_add]
        rw [ih']
        have hm : SatUnion ((rest.map fun b => resizeSingle b (a.cst.rows.length + c.rows.length)).map (·.cst)) x ↔
            SatUnion (rest.map (·.cst)) x := by
          unfold SatUnion
          simp only [List.mem_map, exists_exists_and_eq_and]
          exact exists_congr fun b => and_congr_right fun hb => resize_sat b _ (hall b hb) x
        rw [hm]
        tauto
      · have ih' := ih rest h.2 hrest
        simp only [List.map_cons, hsplit, C27_add]
        rw [ih']
        tauto

/-- C46 fails for `pluto_constraints_add_to_each`: a resize of the head cuts the second element, which
loses the row `x <= 5`, so the point 9 appears in the result. -/
theorem C46_violated_add_to_each : ∃ (l : List ACst) (c : Cst) (x : List Int),
    (∀ a ∈ l, a.cst.WF ∧ a.cst.ncols = x.length + 1 ∧ a.cst.rows.length ≤ a.alloc) ∧
    c.WF ∧ c.ncols = x.length + 1 ∧
    SatUnion ((addToEach l c).map (·.cst)) x ∧ ¬ SatUnion (l.map (·.cst)) x := by
  refine ⟨[⟨⟨2, [⟨true, [1, 0]⟩]⟩, 1⟩, ⟨⟨2, [⟨false, [1, 0]⟩, ⟨false, [1, 1]⟩, ⟨false, [-1, 5]⟩]⟩, 3⟩],
    ⟨2, [⟨false, [1, 0]⟩]⟩, [9], by decide, by decide, rfl, ?_, ?_⟩
  · have : addToEach [⟨⟨2, [⟨true, [1, 0]⟩]⟩, 1⟩, ⟨⟨2, [⟨false, [1, 0]⟩, ⟨false, [1, 1]⟩, ⟨false, [-1, 5]⟩]⟩, 3⟩]
        ⟨2, [⟨false, [1, 0]⟩]⟩ = [⟨⟨2, [⟨true, [1, 0]⟩, ⟨false, [1, 0]⟩]⟩, 2⟩,
          ⟨⟨2, [⟨false, [1, 0]⟩, ⟨false, [1, 1]⟩, ⟨false, [1, 0]⟩]⟩, 3⟩] := by decide +kernel
    rw [this]
    refine ⟨⟨2, [⟨false, [1, 0]⟩, ⟨false, [1, 1]⟩, ⟨false, [1, 0]⟩]⟩, by simp, ?_⟩
    simp [Cst.Sat, Row.Sat, aff, dot]
  · simp [SatUnion, Cst.Sat, Row.Sat, aff, dot]

/-- A two element list meeting the hypotheses of `C46_add_to_each_partial`, with a resize. -/
example : ([⟨⟨2, [⟨false, [1, 0]⟩, ⟨false, [-1, 3]⟩]⟩, 2⟩, ⟨⟨2, [⟨true, [1, -7]⟩]⟩, 1⟩] : List ACst).Pairwise
    (fun a b => a.cst.rows.length + 1 ≤ a.alloc ∨ b.cst.rows.length ≤ a.cst.rows.length + 1) ∧
    addToEach [⟨⟨2, [⟨false, [1, 0]⟩, ⟨false, [-1, 3]⟩]⟩, 2⟩, ⟨⟨2, [⟨true, [1, -7]⟩]⟩, 1⟩] ⟨2, [⟨false, [2, 1]⟩]⟩ =
      [⟨⟨2, [⟨false, [1, 0]⟩, ⟨false, [-1, 3]⟩, ⟨false, [2, 1]⟩]⟩, 3⟩,
       ⟨⟨2, [⟨true, [1, -7]⟩, ⟨false, [0, 0]⟩, ⟨false, [0, 0]⟩, ⟨false, [2, 1]⟩]⟩, 4⟩] := by decide +kernel

/-! ### C26 -/

/-- C26. A system survives the PolyLib matrix form, flags included. -/
theorem C26_matrix (c : Cst) : fromMatrix (c.ncols + 1) (toMatrix c) = c := by
  obtain ⟨n, rows⟩ := c
  simp only [fromMatrix, toMatrix, List.map_map, Nat.add_sub_cancel]
  congr 1
  conv_rhs => rw [← List.map_id rows]
  apply List.map_congr_left
  rintro ⟨e, v⟩ -
  cases e <;> simp [coef]

/-- C26. And a PolyLib matrix (first column 0 or 1) survives the constraint form. -/
theorem C26_matrix_inv (n : Nat) (m : List (List Int))
    (h : ∀ v ∈ m, ∃ (b : Bool) (w : List Int), v = (if b then 0 else 1) :: w) :
    toMatrix (fromMatrix n m) = m := by
  simp only [fromMatrix, toMatrix, List.map_map]
  conv_rhs => rw [← List.map_id m]
  apply List.map_congr_left
  intro v hv
  obtain ⟨b, w, rfl⟩ := h v hv
  cases b <;> simp [coef]

/-- C26. The matrix rows mean what PolyLib says: first entry 0 for an equality, 1 for an inequality. -/
theorem C26_matrix_meaning (c : Cst) (x : List R) :
    c.Sat x ↔ ∀ v ∈ toMatrix c, (v.head? = some 0 ∧ aff v.tail x = 0) ∨ (v.head? = some 1 ∧ 0 ≤ aff v.tail x) := by
  simp only [Cst.Sat, toMatrix, List.mem_map, forall_exists_index, and_imp, forall_apply_eq_imp_iff₂]
  refine forall₂_congr fun r _ => ?_
  obtain ⟨e, v⟩ := r
  cases e <;> simp [Row.Sat]

/-- C26. Flags given separately. -/
theorem C26_mixed_matrix (c : Cst) : fromMixedMatrix c.ncols (c.rows.map (·.val)) (c.rows.map (·.eq)) = c := by
  obtain ⟨n, rows⟩ := c
  simp only [fromMixedMatrix]
  congr 1
  induction rows with
  | nil => rfl
  | cons r rs ih => simp [ih]

theorem C26_equalities (n : Nat) (m : List (List Int)) :
    extractEqualities (fromEqualities n m) = m ∧ extractEqualities (fromInequalities n m) = [] := by
  constructor
  · simp [extractEqualities, fromEqualities, List.filter_map, Function.comp_def]
  · simp [extractEqualities, fromInequalities, List.filter_map, Function.comp_def]

theorem readNums_append (v : List Int) (ts : List Tok) :
    readNums v.length (v.map Tok.num ++ ts) = some (v, ts) := by
  induction v with
  | nil => rfl
  | cons a as ih => simp [readNums, ih]

theorem readRows_append (n : Nat) (rows : List Row) (h : ∀ r ∈ rows, r.val.length = n) (ts : List Tok) :
    readRows rows.length n
      (rows.flatMap (fun r => Tok.num (if r.eq then 0 else 1) :: r.val.map Tok.num) ++ ts) = some (rows, ts) := by
  induction rows with
  | nil => rfl
  | cons r rs ih =>
    have hr := h r (by simp)
    simp only [List.flatMap_cons, List.length_cons, List.cons_append, List.append_assoc, readRows]
    rw [← hr, readNums_append, hr]
    simp only
    rw [ih (fun q hq => h q (by simp [hq]))]
    obtain ⟨e, v⟩ := r
    cases e <;> simp

/-- C26. A single system printed in PolyLib form to a file of its own is read back exactly. -/
theorem C26_print_read (c : Cst) (hc : ∀ r ∈ c.rows, r.val.length = c.ncols) :
    readCst (printPolylib [c]) = .ok c [] [] := by
  have h := readRows_append c.ncols c.rows hc []
  simp only [printPolylib, printWithoutNum, List.length_singleton, List.append_nil] at h ⊢
  simp only [readCst, show ¬ 2 ≤ 1 by omega, if_false, List.nil_append, List.cons_append]
  rw [if_neg (by omega)]
  rw [show ((c.ncols : Int) + 1).toNat - 1 = c.ncols by omega, Int.toNat_natCast, h]

/-- C26 fails for a union: with two elements the count printed first is taken as the number of rows
and the number of rows of the first element as the number of columns, so neither element comes back. -/
theorem C26_violated_union : ∃ l : List Cst, l.length = 2 ∧ (∀ c ∈ l, c.WF) ∧
    ∀ c ∈ l, ∀ names rest, readCst (printPolylib l) ≠ .ok c names rest := by
  refine ⟨[⟨2, [⟨false, [1, 0]⟩]⟩, ⟨2, [⟨false, [-1, 5]⟩]⟩], rfl, by decide, ?_⟩
  intro c hc names rest h
  have : readCst (printPolylib [⟨2, [⟨false, [1, 0]⟩]⟩, ⟨2, [⟨false, [-1, 5]⟩]⟩]) =
      .ok ⟨0, [⟨true, []⟩, ⟨false, []⟩]⟩ ["0"] [.num 1, .num 3, .num 1, .num (-1), .num 5] := by
    decide +kernel
  rw [this] at h
  simp only [ReadResult.ok.injEq] at h
  obtain ⟨rfl, -⟩ := h
  revert hc; decide

/-- C26 fails for two systems printed one after the other: reading the first takes the row count of
the second as a number of names. -/
theorem C26_violated_sequence : ∃ c1 c2 : Cst, c1.WF ∧ c2.WF ∧
    ∀ names rest, readCst (printPolylib [c1] ++ printPolylib [c2]) = .ok c1 names rest →
      readCst rest ≠ .ok c2 [] [] := by
  refine ⟨⟨2, [⟨false, [1, 0]⟩]⟩, ⟨2, [⟨false, [-1, 5]⟩]⟩, by decide, by decide, ?_⟩
  intro names rest h
  have : readCst (printPolylib [⟨2, [⟨false, [1, 0]⟩]⟩] ++ printPolylib [⟨2, [⟨false, [-1, 5]⟩]⟩]) =
      .ok ⟨2, [⟨false, [1, 0]⟩]⟩ ["3"] [.num 1, .num (-1), .num 5] := by decide +kernel
  rw [this] at h
  simp only [ReadResult.ok.injEq] at h
  obtain ⟨-, -, rfl⟩ := h
  decide +kernel

end Pluto
