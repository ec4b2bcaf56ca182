import Verif.Props.StmtEdit

/-! C40 (adding and removing statements), C42 (rescheduling of diamond tiles), C44 (strip-mining). -/

namespace Pluto

/-! ### C40 -/

theorem foldl_max_le (l : List Nat) (a : Nat) : a ≤ l.foldl max a ∧ ∀ x ∈ l, x ≤ l.foldl max a := by
  induction l generalizing a with
  | nil => simp
  | cons b l ih =>
    obtain ⟨h1, h2⟩ := ih (max a b)
    refine ⟨le_trans (le_max_left _ _) h1, fun x hx => ?_⟩
    rcases List.mem_cons.mp hx with rfl | hx
    · exact le_trans (le_max_right _ _) h1
    · exact h2 x hx

theorem foldl_max_mem (l : List Nat) (a : Nat) : l.foldl max a = a ∨ l.foldl max a ∈ l := by
  induction l generalizing a with
  | nil => simp
  | cons b l ih =>
    simp only [List.foldl_cons, List.mem_cons]
    rcases ih (max a b) with h | h
    · rcases le_total a b with hab | hab
      · rw [max_eq_right hab] at h ⊢; exact .inr (.inl h)
      · rw [max_eq_left hab] at h ⊢; exact .inl h
    · exact .inr (.inr h)

/-- C40, `pluto_add_stmt`. Dependences are untouched; every existing statement keeps its position (id),
dimension and domain, its schedule rows, and (because only zero rows are appended) the value of its
schedule at every level; the new statement comes last with the given domain and schedule; all statements
then have the same number of schedule rows (and of hyperplane types). -/
theorem C40_add_stmt (p p' : Prog) (dom : Cst) (trans : List (List Int)) (tcols : Nat)
    (h : addStmt p dom trans tcols = some p') :
    p'.deps = p.deps ∧ p'.npar = p.npar ∧ p'.stmts.length = p.stmts.length + 1 ∧
    (∀ (i : Nat) (st : Stmt), p.stmts[i]? = some st → ∃ st', p'.stmts[i]? = some st' ∧ st'.dim = st.dim ∧
      st'.dimOrig = st.dimOrig ∧ st'.domain = st.domain ∧ st'.isOrig = st.isOrig ∧
      st'.trans.take st.trans.length = st.trans ∧ st'.hypTypes.take st.hypTypes.length = st.hypTypes ∧
      ∀ (l : Nat) (x q : List Int), p'.phi i l x q = p.phi i l x q) ∧
    (∃ st', p'.stmts[p.stmts.length]? = some st' ∧ st'.domain = dom ∧ st'.dim + p.npar + 1 = dom.ncols ∧
      st'.dimOrig = st'.dim ∧ st'.trans.take trans.length = trans ∧ st'.dim ≤ p'.nvar ∧
      ∀ (l : Nat) (x q : List Int), p'.phi p.stmts.length l x q = aff ((trans[l]?).getD []) (x ++ q)) ∧
    (∃ n, ∀ st' ∈ p'.stmts, st'.trans.length = n) ∧
    ((∀ st ∈ p.stmts, st.hypTypes.length = st.trans.length) → ∀ st' ∈ p'.stmts, st'.hypTypes.length = st'.trans.length) := by
  unfold addStmt at h
  split at h
  · cases h
  rename_i hc
  simp only [Option.some.injEq] at h
  subst h
  set new := createStmt (dom.ncols - p.npar - 1) dom trans with hnew
  set n := ((p.stmts ++ [new]).map (fun st => st.trans.length)).foldl max 0 with hn
  have hstm : (addGivenStmt p new).stmts = (p.stmts ++ [new]).map (padTrans (p.npar + 1) n) := rfl
  have row : ∀ (st : Stmt) (l : Nat) (y : List Int),
      aff (((padTrans (p.npar + 1) n st).trans[l]?).getD []) y = aff ((st.trans[l]?).getD []) y := by
    intro st l y
    simp only [padTrans, List.getElem?_append]
    split
    · rfl
    · rename_i hl
      rw [List.getElem?_eq_none (by omega : st.trans.length ≤ l), List.getElem?_replicate]
      split
      · simp only [Option.getD_some, Option.getD_none, aff, zrow, dot_zero]
        simp [dot]
      · rfl
  refine ⟨rfl, rfl, by rw [hstm]; simp, fun i st hst => ?_, ?_, ?_, ?_⟩
  · have hl := (List.getElem?_eq_some_iff.mp hst).1
    have hg : (addGivenStmt p new).stmts[i]? = some (padTrans (p.npar + 1) n st) := by
      rw [hstm, List.getElem?_map, List.getElem?_append_left hl, hst]; rfl
    refine ⟨_, hg, rfl, rfl, rfl, rfl, by simp [padTrans], by simp [padTrans], fun l x q => ?_⟩
    simp only [Prog.phi, Prog.row, hg, hst, Option.bind_some]
    exact row st l _
  · have hg : (addGivenStmt p new).stmts[p.stmts.length]? = some (padTrans (p.npar + 1) n new) := by
      rw [hstm]; simp
    refine ⟨_, hg, rfl, ?_, rfl, by simp [padTrans, hnew, createStmt], ?_, fun l x q => ?_⟩
    · simp only [padTrans, hnew, createStmt]; omega
    · simp only [padTrans]
      show new.dim ≤ max p.nvar new.dim
      exact le_max_right _ _
    · simp only [Prog.phi, Prog.row, hg, Option.bind_some]
      exact row new l _
  · refine ⟨n, fun st' h' => ?_⟩
    rw [hstm] at h'
    obtain ⟨st, hs, rfl⟩ := List.mem_map.mp h'
    have := (foldl_max_le ((p.stmts ++ [new]).map (fun st => st.trans.length)) 0).2 st.trans.length
      (List.mem_map_of_mem hs)
    rw [← hn] at this
    simp only [padTrans, List.length_append, List.length_replicate]
    omega
  · intro ht st' h'
    rw [hstm] at h'
    obtain ⟨st, hs, rfl⟩ := List.mem_map.mp h'
    have : st.hypTypes.length = st.trans.length := by
      rcases List.mem_append.mp hs with hs | hs
      · exact ht st hs
      · rw [List.mem_singleton.mp hs, hnew]; simp [createStmt]
    simp only [padTrans, List.length_append, List.length_replicate]
    omega

example : (addStmt exTwo ⟨4, [⟨false, [1, 0, 0, 0]⟩]⟩ [[1, 0, 0, 0], [0, 1, 0, 5]] 4).isSome = true := by decide

/-- New number of statement `j` after the statements behind `i` (up to `i + n`) move down. -/
def shiftId (n i j : Nat) : Nat := if i < j ∧ j ≤ i + n then j - 1 else j

theorem removeLoop_eq (n i : Nat) (ss : List Stmt) (ds : List Dep) (h : i + n + 1 = ss.length) :
    (removeLoop n i (ss, ds)).1.dropLast = ss.eraseIdx i ∧
    (removeLoop n i (ss, ds)).2 = ds.map (fun d => { d with src := shiftId n i d.src, dest := shiftId n i d.dest }) := by
  induction n generalizing i ss ds with
  | zero =>
    constructor
    · have : ss ≠ [] := by rintro rfl; simp at h
      simp only [removeLoop]
      rw [show i = ss.length - 1 by omega, List.eraseIdx_length_sub_one]
    · simp only [removeLoop, shiftId]
      symm
      conv_rhs => rw [← List.map_id ds]
      apply List.map_congr_left
      intro d _
      rw [if_neg (by omega), if_neg (by omega)]
      rfl
  | succ n ih =>
    have hg : ss[i + 1]? = some ss[i + 1] := List.getElem?_eq_getElem (by omega)
    simp only [removeLoop, hg]
    obtain ⟨a, b⟩ := ih (i + 1) (ss.set i ss[i + 1]) (ds.map (decDep (i + 1))) (by simp; omega)
    constructor
    · rw [a]
      apply List.ext_getElem?
      intro j
      simp only [List.getElem?_eraseIdx, List.getElem?_set]
      by_cases c1 : j < i
      · simp [c1, show j < i + 1 by omega, show i ≠ j by omega]
      · by_cases c2 : j = i
        · subst c2; simp [hg, show j < ss.length by omega]
        · simp [c1, show ¬ j < i + 1 by omega, show i ≠ j + 1 by omega]
    · rw [b, List.map_map]
      apply List.map_congr_left
      intro d _
      have key : ∀ j, shiftId n (i + 1) (if j = i + 1 then j - 1 else j) = shiftId (n + 1) i j := by
        intro j
        unfold shiftId
        split_ifs <;> omega
      simp only [Function.comp_apply, decDep, key]

/-- C40, `pluto_remove_stmt`: the statements without statement `i`, and dependences renumbered: those
that name a later statement follow it. A dependence that does not involve the removed statement connects
the same two statements as before. A dependence that does involve it is kept and then names whatever is at
position `i` (see `C40_violated`), so the claim is only proved for programs without such dependences. -/
theorem C40_remove_stmt_partial (p p' : Prog) (i : Nat) (h : removeStmt p i = some p')
    (hi : ∀ d ∈ p.deps, d.src ≠ i ∧ d.dest ≠ i) :
    p'.stmts = p.stmts.eraseIdx i ∧ p'.deps.length = p.deps.length ∧
    ∀ (k : Nat) (d d' : Dep), p.deps[k]? = some d → p'.deps[k]? = some d' →
      d' = { d with src := d'.src, dest := d'.dest } ∧
      (d.src < p.stmts.length → d'.src < p'.stmts.length ∧ p'.stmts[d'.src]? = p.stmts[d.src]?) ∧
      (d.dest < p.stmts.length → d'.dest < p'.stmts.length ∧ p'.stmts[d'.dest]? = p.stmts[d.dest]?) := by
  unfold removeStmt at h
  split at h
  · cases h
  rename_i hc
  have hlt : i < p.stmts.length := by omega
  obtain ⟨a, b⟩ := removeLoop_eq (p.stmts.length - 1 - i) i p.stmts p.deps (by omega)
  rcases e : removeLoop (p.stmts.length - 1 - i) i (p.stmts, p.deps) with ⟨ss, ds⟩
  rw [e] at a b h
  simp only [Option.some.injEq] at h a b
  subst h
  simp only [a, b]
  refine ⟨trivial, by simp, fun k d d' hk hk' => ?_⟩
  rw [List.getElem?_map, hk] at hk'
  simp only [Option.map_some, Option.some.injEq] at hk'
  subst hk'
  obtain ⟨h1, h2⟩ := hi d (List.mem_of_getElem? hk)
  have key : ∀ j, j ≠ i → j < p.stmts.length →
      shiftId (p.stmts.length - 1 - i) i j < (p.stmts.eraseIdx i).length ∧
      (p.stmts.eraseIdx i)[shiftId (p.stmts.length - 1 - i) i j]? = p.stmts[j]? := by
    intro j hj hjl
    unfold shiftId
    rw [List.length_eraseIdx_of_lt hlt, List.getElem?_eraseIdx]
    split_ifs with c1 c2 c2
    · omega
    · exact ⟨by omega, by rw [show j - 1 + 1 = j by omega]⟩
    · exact ⟨by omega, rfl⟩
    · omega
  exact ⟨rfl, key d.src h1, key d.dest h2⟩

example : (removeStmt { exTwo with deps := exTwo.deps.drop 1 } 1).isSome = true ∧
    ∀ d ∈ (exTwo.deps.drop 1), d.src ≠ 1 ∧ d.dest ≠ 1 := by decide

/-- C40 fails for dependences of the removed statement: after removing the first of two statements, its
dependence to the second has become a dependence of the second statement on itself, and after removing
the second one it names a statement that does not exist. -/
theorem C40_violated :
    (removeStmt exTwo 0).map (fun p => (p.stmts.length, p.deps.map (fun d => (d.src, d.dest)))) =
      some (1, [(0, 0), (0, 0)]) ∧
    (removeStmt exTwo 1).map (fun p => (p.stmts.length, p.deps.map (fun d => (d.src, d.dest)))) =
      some (1, [(0, 1), (0, 0)]) := by decide

/-! ### C42 -/

theorem reschedStmt_twice (st st' : Stmt) (e e' : Option Evicted) (h : reschedStmt st e = some (st', e')) :
    reschedStmt st' e' = some (st, e) := by
  rcases e with _ | e
  · simp only [reschedStmt, Option.some.injEq, Prod.mk.injEq] at h
    obtain ⟨rfl, rfl⟩ := h
    rfl
  · simp only [reschedStmt, Option.bind_eq_bind, Option.bind_eq_some_iff] at h
    obtain ⟨r, hr, h⟩ := h
    split at h
    · cases h
    rename_i hl
    obtain ⟨rfl, rfl⟩ := Prod.mk.inj (Option.some.inj h)
    have hlt := (List.getElem?_eq_some_iff.mp hr).1
    simp only [reschedStmt, Option.bind_eq_bind]
    rw [List.getElem?_set_self hlt]
    have hfl : st.dim - st.dimOrig ≤ r.length := by omega
    simp only [Option.bind_some, List.length_append, List.length_take, List.length_drop, List.set_set]
    rw [if_neg (by omega)]
    have e1 : (r.take (st.dim - st.dimOrig) ++ e.hyp).take (st.dim - st.dimOrig) = r.take (st.dim - st.dimOrig) := by
      rw [List.take_append_of_le_length (by simp; omega), List.take_take, Nat.min_self]
    have e2 : (r.take (st.dim - st.dimOrig) ++ e.hyp).drop (st.dim - st.dimOrig) = e.hyp := by
      rw [List.drop_append_of_le_length (by simp; omega), List.drop_eq_nil_of_le (by simp), List.nil_append]
    rw [e1, e2, List.take_append_drop]
    have e3 : st.trans.set (st.dim - st.dimOrig + e.pos) r = st.trans := by
      obtain ⟨h', rfl⟩ := List.getElem?_eq_some_iff.mp hr
      exact List.set_getElem_self _
    rw [e3]
    rfl

/-- C42. Rescheduling twice gives back all schedules and the evicted hyperplanes. -/
theorem C42_involution (p p' : Prog) (ev ev' : List (Option Evicted)) (b : Bool) (hl : ev.length = p.stmts.length)
    (h : reschedule p ev = some (p', ev', b)) : reschedule p' ev' = some (p, ev, b) := by
  simp only [reschedule, Option.bind_eq_bind, Option.bind_eq_some_iff] at h
  obtain ⟨l, h1, h2⟩ := h
  obtain ⟨e1, e2⟩ := Prod.mk.inj (Option.some.inj h2)
  obtain ⟨e2, e3⟩ := Prod.mk.inj e2
  subst e1 e2 e3
  have key : ∀ (ss : List Stmt) (ev : List (Option Evicted)) (l : List (Stmt × Option Evicted)),
      ev.length = ss.length → (ss.zip ev).mapM (fun x => reschedStmt x.1 x.2) = some l →
      ((l.map (·.1)).zip (l.map (·.2))).mapM (fun x => reschedStmt x.1 x.2) = some (ss.zip ev) ∧
      (l.map (·.2)).any Option.isSome = ev.any Option.isSome := by
    intro ss
    induction ss with
    | nil =>
      intro ev l hl h
      have : ev = [] := List.length_eq_zero_iff.mp hl
      subst this
      simp at h
      subst h
      simp
    | cons s ss ih =>
      intro ev l hl h
      rcases ev with _ | ⟨e, ev⟩
      · simp at hl
      simp only [List.zip_cons_cons, List.mapM_cons, Option.bind_eq_bind, Option.bind_eq_some_iff] at h
      obtain ⟨⟨s', e'⟩, hs, l', hl', h⟩ := h
      have h := (Option.some.inj h).symm
      subst h
      obtain ⟨i1, i2⟩ := ih ev l' (by simpa using hl) hl'
      have := reschedStmt_twice _ _ _ _ hs
      simp only [List.map_cons, List.zip_cons_cons, List.mapM_cons, this, i1]
      refine ⟨rfl, ?_⟩
      simp only [List.any_cons, i2]
      congr 1
      rcases e with _ | e
      · simp only [reschedStmt, Option.some.injEq, Prod.mk.injEq] at hs
        rw [← hs.2]
      · simp only [reschedStmt, Option.bind_eq_bind, Option.bind_eq_some_iff] at hs
        obtain ⟨r, -, hs⟩ := hs
        split at hs
        · cases hs
        · rw [← (Prod.mk.inj (Option.some.inj hs)).2]; rfl
  obtain ⟨k1, k2⟩ := key p.stmts ev l hl h1
  simp only [reschedule, k1, Option.bind_eq_bind, Option.bind_some, k2]
  rw [List.map_fst_zip (by omega), List.map_snd_zip (by omega)]
  rfl

/-- C42. What rescheduling does to a statement with an evicted hyperplane: the row behind the tile rows
that had the position of the evicted one gets, on the original iterators, the value of the evicted
hyperplane; no other row, and nothing else, changes. `s` are the tile iterators, `x` the original
iterators; `hz`: the row does not involve tile iterators. -/
theorem C42_row (st st' : Stmt) (e : Evicted) (e' : Option Evicted) (r : List Int)
    (h : reschedStmt st (some e) = some (st', e')) (hr : st.trans[st.dim - st.dimOrig + e.pos]? = some r)
    (hz : ∀ a ∈ r.take (st.dim - st.dimOrig), a = 0) :
    st' = { st with trans := st'.trans } ∧
    (∀ l, l ≠ st.dim - st.dimOrig + e.pos → st'.trans[l]? = st.trans[l]?) ∧
    ∃ r', st'.trans[st.dim - st.dimOrig + e.pos]? = some r' ∧ r'.length = r.length ∧
      ∀ s y : List Int, s.length = st.dim - st.dimOrig → aff r' (s ++ y) = aff e.hyp y := by
  simp only [reschedStmt, Option.bind_eq_bind, hr, Option.bind_some] at h
  split at h
  · cases h
  rename_i hl
  obtain ⟨rfl, rfl⟩ := Prod.mk.inj (Option.some.inj h)
  have hlt := (List.getElem?_eq_some_iff.mp hr).1
  refine ⟨rfl, fun l hne => by simp [Ne.symm hne], _, List.getElem?_set_self hlt, ?_, ?_⟩
  · simp; omega
  · intro s y hs
    have : r.take (st.dim - st.dimOrig) = List.replicate s.length 0 := by
      rw [List.eq_replicate_iff]
      exact ⟨by simp; omega, hz⟩
    rw [this]
    unfold aff
    rw [List.append_assoc, dot_append _ _ _ _ (by simp), dot_zero, zero_add]

/-- A tiled statement (one tile iterator) with an evicted hyperplane at position 0. -/
def exDiamond : Stmt :=
  ⟨2, 1, ⟨4, [⟨false, [0, 1, 0, 0]⟩]⟩, [true, true], [[1, 0, 0, 0], [0, 1, 0, 0]], [.tileSpaceLoop, .loop]⟩

example : (reschedule { exTwo with stmts := [exDiamond], deps := [] } [some ⟨[2, 0, 1], 0⟩]).isSome = true := by decide

/-! ### C44 -/

/-- Value of the schedule row without its constant. -/
def linPart (r x : List Int) : Int := aff r x - r.getLastD 0

theorem strip_sat (factor : Int) (c : Int) (w : List Int) (k : Int) (y : List Int) (z : Int) (hw : w.length = y.length) :
    (⟨0, stripRows factor (c :: w ++ [k])⟩ : Cst).Sat (z :: y) ↔ factor * z = dot w y := by
  have e : (c :: w ++ [k]).drop 1 = w ++ [k] := rfl
  simp only [stripRows, e, List.dropLast_concat, Cst.Sat, List.mem_cons, List.not_mem_nil, or_false,
    forall_eq_or_imp, forall_eq, Row.Sat, Bool.false_eq_true, if_false]
  have e1 : aff (-factor :: w ++ [0]) (z :: y) = -factor * z + dot w y := by
    simp only [aff, List.cons_append, dot]
    rw [dot_append _ _ _ _ hw]
    simp [dot]
  have e2 : aff (factor :: w.map (fun a => -a) ++ [0]) (z :: y) = factor * z - dot w y := by
    simp only [aff, List.cons_append, dot]
    rw [dot_append _ _ _ _ (by simpa using hw), dot_map_neg]
    simp [dot]
    ring
  rw [e1, e2]
  constructor
  · rintro ⟨a, b⟩; linarith
  · intro a; constructor <;> linarith

/-- C44, the part that holds: wherever `pluto_stripmine` is defined, the strip-mined domain only contains
original iterations, each in at most one strip. Which ones it contains: the iterations whose schedule row,
without its constant, is a multiple of the factor. All iterations are kept only when that is always the
case, for instance for factor 1. See `C44_violated`. -/
theorem C44_partial (p p' : Prog) (i dim : Nat) (factor : Int) (spare : Bool) (st : Stmt) (r : List Int)
    (hst : p.stmts[i]? = some st) (hr : st.trans[dim]? = some r)
    (hw : st.domain.WF) (hn : st.domain.ncols = st.dim + p.npar + 1) (hrl : r.length = st.dim + p.npar + 1)
    (h : stripmine p i dim factor spare = some p') :
    ∃ st', p'.stmts[i]? = some st' ∧ st'.dim = st.dim + 1 ∧
      ∀ (x q : List Int) (z : Int), x.length = st.dim → q.length = p.npar →
        (st'.domain.Sat (z :: x ++ q) ↔ st.domain.Sat (x ++ q) ∧ factor * z = linPart r (x ++ q)) := by
  unfold stripmine at h
  simp only [Option.bind_eq_bind, Option.bind_eq_some_iff] at h
  obtain ⟨p1, h1, st1, hs1, r1, hr1, h⟩ := h
  split at h
  · cases h
  rename_i hc
  obtain rfl := (Option.some.inj h).symm
  obtain ⟨st0, hst0, -, h2, ht, rfl⟩ := stmtAddDim_eq h1
  rw [hst] at hst0
  obtain rfl := Option.some.inj hst0
  have hl := (List.getElem?_eq_some_iff.mp hst).1
  simp only [List.getElem?_set_self hl, Option.some.injEq] at hs1
  subst hs1
  have hrd := (List.getElem?_eq_some_iff.mp hr).1
  have hr1' : r1 = 0 :: r := by
    simp only [stmtAddDimAt] at hr1
    rw [List.getElem?_insertIdx_of_gt (by omega), Nat.add_sub_cancel, List.getElem?_map, hr] at hr1
    simpa using hr1.symm
  subst hr1'
  refine ⟨_, by simp only [List.set_set]; exact List.getElem?_set_self hl, rfl, fun x q z hx hq => ?_⟩
  have hsplit : ∀ y : List Int, Cst.Sat { (stmtAddDimAt st 0 (some (dim, .tileSpaceLoop))).domain with
      rows := (stmtAddDimAt st 0 (some (dim, .tileSpaceLoop))).domain.rows ++ stripRows factor (0 :: r) } y ↔
      (addDim st.domain 0).Sat y ∧ (⟨0, stripRows factor (0 :: r)⟩ : Cst).Sat y := by
    intro y
    simp only [Cst.Sat, List.mem_append, or_imp, forall_and, stmtAddDimAt]
  rw [hsplit]
  have hd := C27_add_dim st.domain 0 (x ++ q) z hw (by simp; omega) (by simp)
  simp only [List.insertIdx_zero] at hd
  obtain ⟨w, k, rfl⟩ : ∃ w k, r = w ++ [k] :=
    ⟨r.dropLast, r.getLast (by rintro rfl; simp at hrl), (List.dropLast_append_getLast _).symm⟩
  have hwl : w.length = (x ++ q).length := by simp at hrl ⊢; omega
  have hs := strip_sat factor 0 w k (x ++ q) z hwl
  rw [List.cons_append, hd]
  rw [List.cons_append] at hs
  rw [hs]
  have : linPart (w ++ [k]) (x ++ q) = dot w (x ++ q) := by
    unfold linPart aff
    rw [dot_append _ _ _ _ hwl]
    simp [dot]
  rw [this]

/-- The only case of C44 in which nothing is lost whatever the schedule row: factor 1. Every iteration is
then in exactly one strip. -/
theorem C44_factor_one_partial (p p' : Prog) (i dim : Nat) (spare : Bool) (st : Stmt) (r : List Int)
    (hst : p.stmts[i]? = some st) (hr : st.trans[dim]? = some r)
    (hw : st.domain.WF) (hn : st.domain.ncols = st.dim + p.npar + 1) (hrl : r.length = st.dim + p.npar + 1)
    (h : stripmine p i dim 1 spare = some p') (x q : List Int) (hx : x.length = st.dim) (hq : q.length = p.npar) :
    ∃ st', p'.stmts[i]? = some st' ∧ (st.domain.Sat (x ++ q) ↔ ∃! z, st'.domain.Sat (z :: x ++ q)) := by
  obtain ⟨st', h1, -, h2⟩ := C44_partial p p' i dim 1 spare st r hst hr hw hn hrl h
  refine ⟨st', h1, ?_⟩
  constructor
  · intro hs
    exact ⟨linPart r (x ++ q), (h2 x q _ hx hq).2 ⟨hs, by ring⟩, fun z hz => by have := ((h2 x q z hx hq).1 hz).2; linarith⟩
  · rintro ⟨z, hz, -⟩
    exact ((h2 x q z hx hq).1 hz).1

example : (stripmine exTwo 0 0 4 true).isSome = true := by decide

/-- C44 fails: strip-mining the loop `0 <= x <= 9` (schedule `x + 3`) by 4 loses the iteration `x = 1`: it
is in the domain and in no strip. Without a spare column the function writes outside the row (undefined). -/
theorem C44_violated :
    (∃ p' st', stripmine exTwo 0 0 4 true = some p' ∧ p'.stmts[0]? = some st' ∧
      (∃ st, exTwo.stmts[0]? = some st ∧ st.domain.Sat ([1, 0] : List Int)) ∧ ∀ z : Int, ¬ st'.domain.Sat [z, 1, 0]) ∧
    stripmine exTwo 0 0 4 false = none := by
  refine ⟨?_, by decide⟩
  rcases h : stripmine exTwo 0 0 4 true with _ | p'
  · exact absurd h (by decide)
  obtain ⟨st', h1, -, h2⟩ := C44_partial exTwo p' 0 0 4 true _ [1, 0, 3] rfl rfl (by decide) rfl rfl h
  refine ⟨p', st', rfl, h1, ⟨_, rfl, ?_⟩, fun z hz => ?_⟩
  · intro r hr
    simp only [List.mem_cons, List.not_mem_nil, or_false] at hr
    rcases hr with rfl | rfl <;> simp [Row.Sat, aff, dot]
  · have := ((h2 [1] [0] z rfl rfl).1 hz).2
    have e : linPart [1, 0, 3] ([1] ++ [0]) = 1 := by decide
    rw [e] at this
    omega

end Pluto
