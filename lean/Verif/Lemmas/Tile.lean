import Verif.Lemmas.DepDims
import Verif.Spec.Tile

/-! Invariant of `pluto_tile_band`. -/

namespace Pluto

/-! ### Tile coordinates -/

section coords
variable (st : Stmt) (f : Nat) (sizes : Nat → Int)

theorem tileOffsets_succ (k : Nat) : tileOffsets st f (k + 1) = tileOffsets st f k ++
    (if st.hypTypes[f + k]? = some HypType.scalar then [] else [k]) := by
  unfold tileOffsets
  rw [List.range_succ, List.filter_append]
  congr 1
  by_cases h : st.hypTypes[f + k]? = some HypType.scalar <;> simp [h]

theorem tileCoords_length (k : Nat) (x q : List Int) :
    (tileCoords st f sizes k x q).length = (tileOffsets st f k).length := by simp [tileCoords]

theorem tileCoords_succ (k : Nat) (x q : List Int) : tileCoords st f sizes (k + 1) x q =
    tileCoords st f sizes k x q ++ (if st.hypTypes[f + k]? = some HypType.scalar then []
      else [(st.val (f + k) x q).fdiv (sizes k)]) := by
  unfold tileCoords
  rw [tileOffsets_succ, List.map_append]
  split_ifs <;> simp

theorem tileOffsets_mono (m k : Nat) (h : m ≤ k) : (tileOffsets st f m).length ≤ (tileOffsets st f k).length := by
  induction k, h using Nat.le_induction with
  | base => exact le_refl _
  | succ k _ ih => rw [tileOffsets_succ, List.length_append]; omega

theorem tileOffsets_lt (m k : Nat) (h : m < k) (hs : st.hypTypes[f + m]? ≠ some HypType.scalar) :
    (tileOffsets st f m).length < (tileOffsets st f k).length := by
  have := tileOffsets_mono st f (m + 1) k h
  rw [tileOffsets_succ, if_neg hs] at this
  simp at this; omega

/-- The coordinate of the loop at offset `m`. -/
theorem tileCoords_get (m k : Nat) (x q : List Int) (h : m < k) (hs : st.hypTypes[f + m]? ≠ some HypType.scalar) :
    (tileCoords st f sizes k x q).getD (tileOffsets st f m).length 0 = (st.val (f + m) x q).fdiv (sizes m) := by
  induction k, h using Nat.le_induction with
  | base =>
    rw [tileCoords_succ, if_neg hs, getD_append_right' _ _ _ (by simp [tileCoords]), tileCoords_length]
    simp
  | succ k hk ih =>
    rw [tileCoords_succ, getD_append_left' _ _ _ (by rw [tileCoords_length]; exact tileOffsets_lt st f m k hk hs)]
    exact ih

end coords

/-! ### Statement -/

/-- Row of the tile space for offset `m` when `n` dimensions have been added. -/
def tileRow (npar : Nat) (st : Stmt) (f n m : Nat) : List Int :=
  if st.hypTypes[f + m]? = some HypType.scalar then zrow n ++ st.trans.getD (f + m) []
  else (zrow (n + st.dim + npar + 1)).set (tileOffsets st f m).length 1

def tileTy (st : Stmt) (f m : Nat) : HypType :=
  if st.hypTypes[f + m]? = some HypType.scalar then .scalar else .tileSpaceLoop

/-- Schedule after `k` levels. -/
def tiledTrans (npar : Nat) (st : Stmt) (f k : Nat) : List (List Int) :=
  let n := (tileOffsets st f k).length
  ((st.trans.take f).map (zrow n ++ ·) ++ (List.range k).map (tileRow npar st f n)) ++ (st.trans.drop f).map (zrow n ++ ·)

def tiledTypes (st : Stmt) (f k : Nat) : List HypType :=
  (st.hypTypes.take f ++ (List.range k).map (tileTy st f)) ++ st.hypTypes.drop f

/-- `st` is `st0` with `k` levels of a band starting at `f` tiled. -/
structure TStmt (npar : Nat) (f : Nat) (sizes : Nat → Int) (k : Nat) (st0 st : Stmt) : Prop where
  dim : st.dim = (tileOffsets st0 f k).length + st0.dim
  dimOrig : st.dimOrig = st0.dimOrig
  wf : st.domain.WF
  cols : st.domain.ncols = st.dim + npar + 1
  trans : st.trans = tiledTrans npar st0 f k
  types : st.hypTypes = tiledTypes st0 f k
  sat : ∀ T x q : List Int, T.length = (tileOffsets st0 f k).length → x.length = st0.dim → q.length = npar →
    (st.domain.Sat (T ++ x ++ q) ↔ st0.domain.Sat (x ++ q) ∧ T = tileCoords st0 f sizes k x q)

theorem TStmt.init {npar : Nat} {st : Stmt} (h : st.OK npar) (f : Nat) (sizes : Nat → Int) :
    TStmt npar f sizes 0 st st := by
  refine ⟨by simp [tileOffsets], rfl, h.wf, h.cols, ?_, ?_, ?_⟩
  · simp [tiledTrans, tileOffsets, zrow]
  · simp [tiledTypes]
  · intro T x q hT _ _
    simp only [tileOffsets, List.range_zero, List.filter_nil, List.length_nil, List.length_eq_zero_iff] at hT
    subst hT
    simp [tileCoords, tileOffsets]

/-- With no level tiled the arguments do not matter. -/
theorem TStmt.zero {npar f f' : Nat} {sizes sizes' : Nat → Int} {st0 st : Stmt} (h : TStmt npar f sizes 0 st0 st) :
    TStmt npar f' sizes' 0 st0 st := by
  obtain ⟨h1, h2, h3, h4, h5, h6, h7⟩ := h
  refine ⟨by simpa [tileOffsets] using h1, h2, h3, h4, ?_, ?_, ?_⟩
  · rw [h5]; simp [tiledTrans, tileOffsets, zrow]
  · rw [h6]; simp [tiledTypes]
  · intro T x q hT hx hq
    rw [h7 T x q (by simpa [tileOffsets] using hT) hx hq]
    simp [tileCoords, tileOffsets]

section step
variable {npar f k : Nat} {sizes : Nat → Int} {st0 st : Stmt}

theorem zrow_insert (n : Nat) (r : List Int) : (zrow n ++ r).insertIdx n 0 = zrow (n + 1) ++ r := by
  rw [insertIdx_mid _ _ _ _ (zrow_length n), zrow_succ]; simp

theorem unit_insert (len c n : Nat) (h : c < n) (hl : n ≤ len) :
    ((zrow len).set c 1).insertIdx n 0 = (zrow (len + 1)).set c 1 := by
  apply List.ext_getElem?
  intro j
  simp only [List.getElem?_insertIdx, List.getElem?_set, List.length_set, zrow, List.length_replicate,
    List.getElem?_replicate]
  split_ifs <;> first | rfl | omega | simp_all

theorem tileRow_insert (m : Nat) (hm : m < k) (n : Nat) (hn : n = (tileOffsets st0 f k).length) :
    (tileRow npar st0 f n m).insertIdx n 0 = tileRow npar st0 f (n + 1) m := by
  unfold tileRow
  split_ifs with h
  · exact zrow_insert n _
  · have := tileOffsets_lt st0 f m k hm h
    rw [unit_insert _ _ _ (by omega) (by omega)]
    congr 2; omega

theorem tiledTrans_loop (hf : f ≤ st0.trans.length) (hs : st0.hypTypes[f + k]? ≠ some HypType.scalar) :
    ((tiledTrans npar st0 f k).map (fun r => r.insertIdx (tileOffsets st0 f k).length 0)).insertIdx (f + k)
      ((zrow ((tileOffsets st0 f k).length + st0.dim + npar + 1 + 1)).set (tileOffsets st0 f k).length 1) =
    tiledTrans npar st0 f (k + 1) := by
  have hn : (tileOffsets st0 f (k + 1)).length = (tileOffsets st0 f k).length + 1 := by
    rw [tileOffsets_succ, if_neg hs]; simp
  unfold tiledTrans
  simp only [List.map_append, List.map_map]
  rw [insertIdx_mid _ _ _ _ (by simp [hf])]
  rw [hn, List.range_succ, List.map_append]
  simp only [List.map_cons, List.map_nil]
  rw [List.append_assoc, List.append_assoc, List.append_assoc, List.singleton_append]
  congr 1
  · exact List.map_congr_left (fun r _ => zrow_insert _ r)
  congr 1
  · exact List.map_congr_left (fun m hm => tileRow_insert m (List.mem_range.mp hm) _ rfl)
  congr 1
  · unfold tileRow
    rw [if_neg hs]
    congr 2; omega
  · exact List.map_congr_left (fun r _ => zrow_insert _ r)

theorem tiledTypes_succ (hf : f ≤ st0.hypTypes.length) :
    (tiledTypes st0 f k).insertIdx (f + k) (tileTy st0 f k) = tiledTypes st0 f (k + 1) := by
  unfold tiledTypes
  rw [insertIdx_mid _ _ _ _ (by simp [hf]), List.range_succ, List.map_append]
  simp

theorem tiledTypes_get (hf : f ≤ st0.hypTypes.length) :
    (tiledTypes st0 f k)[f + k + k]? = st0.hypTypes[f + k]? := by
  unfold tiledTypes
  rw [List.getElem?_append_right (by simp [hf])]
  simp [hf]

theorem tiledTrans_get (hf : f ≤ st0.trans.length) (j k : Nat) :
    (tiledTrans npar st0 f j)[f + j + k]? = (st0.trans[f + k]?).map (zrow (tileOffsets st0 f j).length ++ ·) := by
  unfold tiledTrans
  rw [List.getElem?_append_right (by simp [hf])]
  simp [hf]

/-- The two tile bounds say that the new coordinate is the quotient rounded down. -/
theorem bounds_iff (v : Int) (size T : Int) (h : 1 ≤ size) :
    (0 ≤ -size * T + v ∧ 0 ≤ size * T + (-v + (size - 1))) ↔ T = v.fdiv size := by
  have e : v.fdiv size = v / size := Int.fdiv_eq_ediv_of_nonneg v (by omega)
  rw [e]
  constructor
  · rintro ⟨h1, h2⟩
    symm
    rw [Int.ediv_eq_iff_of_pos (by omega)]
    constructor <;> nlinarith
  · rintro rfl
    have h1 := Int.mul_ediv_self_le (x := v) (k := size) (by omega)
    have h2 := Int.lt_mul_ediv_self_add (x := v) (k := size) (by omega)
    constructor <;> linarith

theorem bound_rows {n : Nat} (r T x q : List Int) (v size : Int) (hT : T.length = n) (hr : r.length = x.length + q.length + 1)
    (hs : 1 ≤ size) :
    ((⟨false, tileLb (zrow (n + 1) ++ r) n size⟩ : Row).Sat (T ++ [v] ++ x ++ q) ∧
      (⟨false, tileUb (zrow (n + 1) ++ r) n size⟩ : Row).Sat (T ++ [v] ++ x ++ q)) ↔
    v = (aff r (x ++ q)).fdiv size := by
  have e : T ++ [v] ++ x ++ q = T ++ (v :: (x ++ q)) := by simp
  have d : (zrow (n + 1) ++ r).drop (n + 1) = r := by
    rw [List.drop_append_of_le_length (by simp [zrow]), List.drop_of_length_le (by simp [zrow])]; simp
  unfold Row.Sat tileLb tileUb
  simp only [Bool.false_eq_true, if_false, d, e]
  rw [aff_zrow_append n _ T _ hT, aff_zrow_append n _ T _ hT]
  have l1 : ∀ (a : Int) (s y : List Int) (w : Int), aff (a :: s) (w :: y) = a * w + aff s y := by
    intro a s y w; simp [aff]
  rw [l1, l1, aff_addLast _ _ _ (by simp [hr])]
  have l2 : aff (r.map (fun v => -v)) (x ++ q) = - aff r (x ++ q) := by
    unfold aff; exact dot_map_neg r _
  rw [l2]
  exact bounds_iff _ _ _ hs

theorem TStmt.scalar (h : TStmt npar f sizes k st0 st) (hok : st0.OK npar) (hk : f + k < st0.trans.length)
    (hs : st0.hypTypes[f + k]? = some HypType.scalar) :
    TStmt npar f sizes (k + 1) st0 { st with
      trans := (st.trans.insertIdx (f + k) (zrow (st.dim + npar + 1))).set (f + k)
        (zrow (tileOffsets st0 f k).length ++ st0.trans.getD (f + k) [])
      hypTypes := st.hypTypes.insertIdx (f + k) .scalar } := by
  have hn : (tileOffsets st0 f (k + 1)).length = (tileOffsets st0 f k).length := by
    rw [tileOffsets_succ, if_pos hs]; simp
  obtain ⟨h1, h2, h3, h4, h5, h6, h7⟩ := h
  refine ⟨by rw [hn]; exact h1, h2, h3, h4, ?_, ?_, ?_⟩
  · show (st.trans.insertIdx (f + k) _).set _ _ = _
    rw [h5]
    unfold tiledTrans
    simp only
    have hl : ((st0.trans.take f).map (zrow (tileOffsets st0 f k).length ++ ·) ++
        (List.range k).map (tileRow npar st0 f (tileOffsets st0 f k).length)).length = f + k := by simp; omega
    rw [insertIdx_mid _ _ _ _ hl, List.set_append_right _ _ (by omega), hl, Nat.sub_self, List.set_cons_zero, hn,
      List.range_succ, List.map_append, List.map_singleton]
    have : tileRow npar st0 f (tileOffsets st0 f k).length k =
        zrow (tileOffsets st0 f k).length ++ st0.trans.getD (f + k) [] := by
      unfold tileRow; rw [if_pos hs]
    rw [this]
    simp
  · show st.hypTypes.insertIdx (f + k) .scalar = _
    rw [h6, ← tiledTypes_succ (by rw [hok.types]; omega)]
    unfold tileTy
    rw [if_pos hs]
  · intro T x q hT hx hq
    rw [hn] at hT
    rw [tileCoords_succ, if_pos hs, List.append_nil]
    exact h7 T x q hT hx hq

theorem tileLb_length (r : List Int) (n : Nat) (size : Int) (h : n < r.length) : (tileLb r n size).length = r.length := by
  simp [tileLb, zrow]; omega

theorem tileUb_length (r : List Int) (n : Nat) (size : Int) (h : n < r.length) : (tileUb r n size).length = r.length := by
  simp [tileUb, zrow, addLast_length]; omega

/-- One row of a system. -/
def oneRow (n : Nat) (r : List Int) : Cst := ⟨n, [⟨false, r⟩]⟩

theorem sat_oneRow (n : Nat) (r x : List Int) : (oneRow n r).Sat x ↔ (⟨false, r⟩ : Row).Sat x := by
  simp [oneRow, Cst.Sat]

theorem oneRow_wf (n : Nat) (r : List Int) (h : r.length = n) (h1 : 1 ≤ n) : (oneRow n r).WF :=
  ⟨h1, by intro x hx; simp only [oneRow, List.mem_singleton] at hx; rw [hx]; exact h⟩

theorem sat_snoc2 (c : Cst) (r1 r2 : Row) (x : List Int) :
    Cst.Sat ⟨c.ncols, c.rows ++ [r1] ++ [r2]⟩ x ↔ c.Sat x ∧ r1.Sat x ∧ r2.Sat x := by
  unfold Cst.Sat
  simp only [List.mem_append, List.mem_singleton, or_imp, forall_and, forall_eq, and_assoc]

/-- Statement after a tile loop was added. -/
def tiledStmt (st0 st : Stmt) (f k : Nat) (size : Int) : Stmt :=
  let n := (tileOffsets st0 f k).length
  let st1 := stmtAddDimAt st n (some (f + k, .tileSpaceLoop))
  let r := zrow (n + 1) ++ st0.trans.getD (f + k) []
  { st1 with domain := { st1.domain with rows := st1.domain.rows ++ [⟨false, tileLb r n size⟩] ++ [⟨false, tileUb r n size⟩] } }

theorem TStmt.loop (h : TStmt npar f sizes k st0 st) (hok : st0.OK npar) (hk : f + k < st0.trans.length)
    (hs : st0.hypTypes[f + k]? ≠ some HypType.scalar) (hz : 1 ≤ sizes k) :
    TStmt npar f sizes (k + 1) st0 (tiledStmt st0 st f k (sizes k)) := by
  have hn : (tileOffsets st0 f (k + 1)).length = (tileOffsets st0 f k).length + 1 := by
    rw [tileOffsets_succ, if_neg hs]; simp
  obtain ⟨h1, h2, h3, h4, h5, h6, h7⟩ := h
  have hr : (st0.trans.getD (f + k) []).length = st0.dim + npar + 1 := by
    rw [List.getD_eq_getElem?_getD, List.getElem?_eq_getElem hk]
    exact hok.trans _ (List.getElem_mem hk)
  have wf1 := addDim_wf h3 (by omega : (tileOffsets st0 f k).length ≤ st.domain.ncols)
  have hlen : (zrow ((tileOffsets st0 f k).length + 1) ++ st0.trans.getD (f + k) []).length = st.domain.ncols + 1 := by
    rw [List.length_append, zrow_length, hr, h4, h1]; omega
  unfold tiledStmt
  refine ⟨?_, h2, ⟨wf1.1, ?_⟩, ?_, ?_, ?_, ?_⟩
  · show st.dim + 1 = _
    rw [hn, h1]; omega
  · intro r hr'
    simp only [List.mem_append, List.mem_singleton] at hr'
    rcases hr' with (hr' | hr') | hr'
    · exact wf1.2 r hr'
    · rw [hr']
      show (tileLb _ _ _).length = st.domain.ncols + 1
      rw [tileLb_length _ _ _ (by omega), hlen]
    · rw [hr']
      show (tileUb _ _ _).length = st.domain.ncols + 1
      rw [tileUb_length _ _ _ (by omega), hlen]
  · show st.domain.ncols + 1 = st.dim + 1 + npar + 1
    omega
  · show ((st.trans.map _).insertIdx _ _) = _
    rw [h5, h4, h1, ← tiledTrans_loop (by omega) hs]
  · show st.hypTypes.insertIdx (f + k) .tileSpaceLoop = _
    rw [h6, ← tiledTypes_succ (by rw [hok.types]; omega)]
    unfold tileTy
    rw [if_neg hs]
  · intro T x q hT hx hq
    rw [hn] at hT
    obtain ⟨T, v, rfl⟩ : ∃ T0 v, T = T0 ++ [v] := ⟨T.dropLast, T.getLast (by rintro rfl; simp at hT), (List.dropLast_append_getLast _).symm⟩
    have hT' : T.length = (tileOffsets st0 f k).length := by simpa using hT
    refine (sat_snoc2 (addDim st.domain (tileOffsets st0 f k).length) _ _ (T ++ [v] ++ x ++ q)).trans ?_
    rw [bound_rows _ _ _ _ _ _ hT' (by rw [hr, hx, hq]) hz]
    have e2 : T ++ [v] ++ x ++ q = T ++ v :: (x ++ q) := by simp
    rw [e2, ← hT', sat_addDim T (x ++ q) v h3 (by rw [List.length_append]; omega), ← List.append_assoc, h7 T x q hT' hx hq,
      tileCoords_succ, if_neg hs, and_assoc]
    refine and_congr_right (fun _ => ?_)
    constructor
    · rintro ⟨a, b⟩
      rw [a, b]; rfl
    · intro hE
      have := List.append_inj hE (by rw [tileCoords_length, hT'])
      exact ⟨this.1, (List.cons.inj this.2).1⟩

end step

/-! ### Program -/

/-- What was done to a statement: first level of its band, tile sizes, number of levels. -/
structure TArg where
  f : Nat
  sizes : Nat → Int
  k : Nat

def TArg.n (a : TArg) (st : Stmt) : Nat := (tileOffsets st a.f a.k).length
def TArg.coords (a : TArg) (st : Stmt) (x q : List Int) : List Int := tileCoords st a.f a.sizes a.k x q

/-- `d` is the dependence `d0` between tiled statements. -/
structure TDep (p0 : Prog) (a : Nat → TArg) (d0 d : Dep) : Prop where
  src : d.src = d0.src
  dest : d.dest = d0.dest
  rar : d.rar = d0.rar
  sat : ∀ ss st : Stmt, p0.stmts[d0.src]? = some ss → p0.stmts[d0.dest]? = some st →
    d.dpoly.WF ∧
    d.dpoly.ncols = ((a d0.src).n ss + ss.dim) + ((a d0.dest).n st + st.dim) + p0.npar + 1 ∧
    ∀ S s T t q : List Int, S.length = (a d0.src).n ss → s.length = ss.dim → T.length = (a d0.dest).n st →
      t.length = st.dim → q.length = p0.npar →
      (d.dpoly.Sat (S ++ s ++ (T ++ t) ++ q) ↔
        d0.dpoly.Sat (s ++ t ++ q) ∧ S = (a d0.src).coords ss s q ∧ T = (a d0.dest).coords st t q)

structure TInv (p0 : Prog) (a : Nat → TArg) (p : Prog) : Prop where
  nvar : p.nvar = p0.nvar
  npar : p.npar = p0.npar
  props : p.hProps = p0.hProps
  len : p.stmts.length = p0.stmts.length
  stmts : ∀ (i : Nat) (st0 : Stmt), p0.stmts[i]? = some st0 →
    ∃ st, p.stmts[i]? = some st ∧ TStmt p0.npar (a i).f (a i).sizes (a i).k st0 st
  deps : List.Forall₂ (TDep p0 a) p0.deps p.deps

theorem TInv.init {p0 : Prog} (h : p0.OK) (a : Nat → TArg) (ha : ∀ i, (a i).k = 0) : TInv p0 a p0 := by
  have hn : ∀ i st, (a i).n st = 0 := fun i st => by simp [TArg.n, ha, tileOffsets]
  refine ⟨rfl, rfl, rfl, rfl, fun i st0 h0 => ⟨st0, h0, ?_⟩, ?_⟩
  · rw [ha]
    exact TStmt.init (h.stmts st0 (List.mem_of_getElem? h0)) _ _
  · rw [List.forall₂_same]
    intro d hd
    obtain ⟨h1, h2, h3⟩ := h.deps d hd
    refine ⟨rfl, rfl, rfl, fun ss st hs ht => ⟨h3.wf, ?_, ?_⟩⟩
    · rw [h3.cols]
      simp [Prog.dim, hs, ht, hn]
    · intro S s T t q hS _ hT _ _
      rw [hn, List.length_eq_zero_iff] at hS hT
      subst hS; subst hT
      have : ∀ i st x, (a i).coords st x q = [] := fun i st x => by simp [TArg.coords, tileCoords, tileOffsets, ha]
      simp [this]

theorem TInv.set {p0 p : Prog} {a : Nat → TArg} (h : TInv p0 a p) {i : Nat} {st0 st' : Stmt}
    (h0 : p0.stmts[i]? = some st0) (b : TArg) (hb : TStmt p0.npar b.f b.sizes b.k st0 st') :
    ∀ (j : Nat) (sj : Stmt), p0.stmts[j]? = some sj →
      ∃ st, (p.stmts.set i st')[j]? = some st ∧
        TStmt p0.npar (upd a i b j).f (upd a i b j).sizes (upd a i b j).k sj st := by
  intro j sj hj
  by_cases e : j = i
  · subst e
    rw [h0] at hj; cases hj
    have hl : j < p.stmts.length := by rw [h.len]; exact (List.getElem?_eq_some_iff.mp h0).1
    exact ⟨st', by rw [List.getElem?_set_self hl], by simpa [upd] using hb⟩
  · obtain ⟨st, h1, h2⟩ := h.stmts j sj hj
    refine ⟨st, by rw [List.getElem?_set_ne (by omega)]; exact h1, by simpa [upd, e] using h2⟩

theorem TInv.dimOf {p0 p : Prog} {a : Nat → TArg} (h : TInv p0 a p) {i : Nat} {st0 : Stmt}
    (h0 : p0.stmts[i]? = some st0) : dimOf p i = (a i).n st0 + st0.dim := by
  obtain ⟨st, h1, h2⟩ := h.stmts i st0 h0
  unfold Pluto.dimOf
  rw [h1]
  exact h2.dim

/-- An end point when a tile loop is added to statement `i`. -/
theorem end_step {a : Nat → TArg} {i : Nat} {sti : Stmt} (hs : sti.hypTypes[(a i).f + (a i).k]? ≠ some HypType.scalar)
    (b : TArg) (hb : b = ⟨(a i).f, (a i).sizes, (a i).k + 1⟩) (j : Nat) (sj : Stmt) (hj : j = i → sj = sti)
    (T x q : List Int) (hT : T.length = (upd a i b j).n sj) (hx : x.length = sj.dim)
    (lb ub : Row) (hbd : ∀ (T0 : List Int) (v : Int), T0.length = (a i).n sti → x.length = sti.dim →
      ((lb.Sat (T0 ++ [v] ++ x ++ q) ∧ ub.Sat (T0 ++ [v] ++ x ++ q)) ↔
        v = (sti.val ((a i).f + (a i).k) x q).fdiv ((a i).sizes (a i).k))) :
    ∃ T0, T0.length = (a j).n sj ∧ dropAt j i ((a i).n sti) (T ++ x) = T0 ++ x ∧
      (T = (upd a i b j).coords sj x q ↔ T0 = (a j).coords sj x q ∧
        (j = i → lb.Sat (T ++ x ++ q)) ∧ (j = i → ub.Sat (T ++ x ++ q))) := by
  by_cases e : j = i
  · have := hj e
    subst e; subst this
    simp only [upd, if_true, hb] at hT ⊢
    have hn : (tileOffsets sj (a j).f ((a j).k + 1)).length = (a j).n sj + 1 := by
      rw [tileOffsets_succ, if_neg hs]; simp [TArg.n]
    unfold TArg.n at hT
    simp only at hT
    rw [hn] at hT
    obtain ⟨T, v, rfl⟩ : ∃ T0 v, T = T0 ++ [v] := ⟨T.dropLast, T.getLast (by rintro rfl; simp at hT), (List.dropLast_append_getLast _).symm⟩
    have hT' : T.length = (a j).n sj := by simpa using hT
    refine ⟨T, hT', ?_, ?_⟩
    · unfold dropAt
      rw [if_pos rfl]
      have : T ++ [v] ++ x = T ++ v :: x := by simp
      rw [this, eraseIdx_mid _ _ _ _ hT']
    · simp only [forall_const]
      rw [hbd T v hT' hx]
      unfold TArg.coords
      simp only
      rw [tileCoords_succ, if_neg hs]
      constructor
      · intro hE
        have := List.append_inj hE (by rw [tileCoords_length, hT']; rfl)
        exact ⟨this.1, by simpa using this.2⟩
      · rintro ⟨h1, h2⟩
        rw [h1, h2]
  · simp only [upd, e, if_false] at hT ⊢
    exact ⟨T, hT, by simp [dropAt, e], by simp⟩

theorem shuffle {A S T ls lt us ut : Prop} :
    ((A ∧ S ∧ T) ∧ ls ∧ lt) ∧ us ∧ ut ↔ A ∧ (S ∧ ls ∧ us) ∧ (T ∧ lt ∧ ut) :=
  ⟨fun ⟨⟨⟨a, s, t⟩, l, l'⟩, u, u'⟩ => ⟨a, ⟨s, l, u⟩, ⟨t, l', u'⟩⟩,
    fun ⟨a, ⟨s, l, u⟩, ⟨t, l', u'⟩⟩ => ⟨⟨⟨a, s, t⟩, l, l'⟩, u, u'⟩⟩

theorem dep_step {p0 : Prog} {a : Nat → TArg} {i : Nat} {sti : Stmt} {d0 d : Dep}
    (h0 : p0.stmts[i]? = some sti)
    (hs : sti.hypTypes[(a i).f + (a i).k]? ≠ some HypType.scalar)
    (b : TArg) (hb : b = ⟨(a i).f, (a i).sizes, (a i).k + 1⟩) (P1 P2 P3 : Prog)
    (hP1 : ∀ (j : Nat) (sj : Stmt), p0.stmts[j]? = some sj → dimOf P1 j = (upd a i b j).n sj + sj.dim)
    (hP2 : ∀ (j : Nat) (sj : Stmt), p0.stmts[j]? = some sj → dimOf P2 j = (upd a i b j).n sj + sj.dim)
    (hP3 : ∀ (j : Nat) (sj : Stmt), p0.stmts[j]? = some sj → dimOf P3 j = (upd a i b j).n sj + sj.dim)
    (lb ub : List Int) (nc : Nat) (hnc : nc = (a i).n sti + sti.dim + p0.npar + 1 + 1)
    (hlb : lb.length = nc) (hub : ub.length = nc)
    (hbd : ∀ (x q T0 : List Int) (v : Int), T0.length = (a i).n sti → x.length = sti.dim → q.length = p0.npar →
      (((⟨false, lb⟩ : Row).Sat (T0 ++ [v] ++ x ++ q) ∧ (⟨false, ub⟩ : Row).Sat (T0 ++ [v] ++ x ++ q)) ↔
        v = (sti.val ((a i).f + (a i).k) x q).fdiv ((a i).sizes (a i).k)))
    (hd : TDep p0 a d0 d) :
    TDep p0 (upd a i b) d0 (updateDep P3 i (oneRow nc ub) (updateDep P2 i (oneRow nc lb) (depAddDim P1 i ((a i).n sti) d))) := by
  set d1 := depAddDim P1 i ((a i).n sti) d with hd1
  set d2 := updateDep P2 i (oneRow nc lb) d1 with hd2
  obtain ⟨e1s, e1t, e1r⟩ := depAddDim_ends P1 i ((a i).n sti) d
  obtain ⟨e2s, e2t, e2r⟩ := updateDep_ends P2 i (oneRow nc lb) d1
  obtain ⟨e3s, e3t, e3r⟩ := updateDep_ends P3 i (oneRow nc ub) d2
  have es1 : d1.src = d0.src := by rw [hd1, e1s, hd.src]
  have et1 : d1.dest = d0.dest := by rw [hd1, e1t, hd.dest]
  have es2 : d2.src = d0.src := by rw [hd2, e2s, es1]
  have et2 : d2.dest = d0.dest := by rw [hd2, e2t, et1]
  refine ⟨by rw [e3s, es2], by rw [e3t, et2], by rw [e3r, hd2, e2r, hd1, e1r, hd.rar], ?_⟩
  intro ss st hss hst
  obtain ⟨w, nc0, sat⟩ := hd.sat ss st hss hst
  have hbn : ∀ j sj, p0.stmts[j]? = some sj → (upd a i b j).n sj = if j = i then (a j).n sj + 1 else (a j).n sj := by
    intro j sj hj
    by_cases e : j = i
    · subst e
      rw [h0] at hj; cases hj
      simp only [upd, if_true, hb]
      show (tileOffsets sti (a j).f ((a j).k + 1)).length = _
      rw [tileOffsets_succ, if_neg hs]; simp [TArg.n]
    · simp [upd, e]
  have hns := hbn _ _ hss
  have hnt := hbn _ _ hst
  have main : ∀ S s T t q : List Int, S.length = (upd a i b d0.src).n ss → s.length = ss.dim →
      T.length = (upd a i b d0.dest).n st → t.length = st.dim → q.length = p0.npar →
      (updateDep P3 i (oneRow nc ub) d2).dpoly.WF ∧
      (updateDep P3 i (oneRow nc ub) d2).dpoly.ncols =
        ((upd a i b d0.src).n ss + ss.dim) + ((upd a i b d0.dest).n st + st.dim) + p0.npar + 1 ∧
      ((updateDep P3 i (oneRow nc ub) d2).dpoly.Sat (S ++ s ++ (T ++ t) ++ q) ↔
        d0.dpoly.Sat (s ++ t ++ q) ∧ S = (upd a i b d0.src).coords ss s q ∧ T = (upd a i b d0.dest).coords st t q) := by
    intro S s T t q hS hsl hT htl hq
    have lS : (S ++ s).length = (upd a i b d0.src).n ss + ss.dim := by rw [List.length_append, hS, hsl]
    have lT : (T ++ t).length = (upd a i b d0.dest).n st + st.dim := by rw [List.length_append, hT, htl]
    have hdi : ∀ P, (∀ (j : Nat) (sj : Stmt), p0.stmts[j]? = some sj → dimOf P j = (upd a i b j).n sj + sj.dim) →
        dimOf P i = (a i).n sti + sti.dim + 1 := by
      intro P hP
      rw [hP i sti h0, hbn i sti h0, if_pos rfl]; omega
    have A := depAddDim_sat (p := P1) (i := i) (pos := (a i).n sti) (ns := (a d0.src).n ss + ss.dim)
      (nt := (a d0.dest).n st + st.dim) (d := d) (s := S ++ s) (t := T ++ t) (q := q) w (by rw [nc0, hq])
      (by intro e; rw [hd.src] at e; rw [e] at hss ⊢; rw [h0] at hss; cases hss; omega)
      (by intro e; rw [hd.dest] at e; rw [e] at hst ⊢; rw [h0] at hst; cases hst; omega)
      (by rw [hd.src, hP1 _ _ hss, lS])
      (by rw [hd.src, lS, hns]; split_ifs <;> omega)
      (by rw [hd.dest, lT, hnt]; split_ifs <;> omega)
    rw [← hd1] at A
    obtain ⟨w1, n1, s1⟩ := A
    have hwl : (oneRow nc lb).WF := oneRow_wf _ _ hlb (by omega)
    have hwu : (oneRow nc ub).WF := oneRow_wf _ _ hub (by omega)
    have B := updateDep_sat (p := P2) (i := i) (c := oneRow nc lb) (d := d1) (s := S ++ s) (t := T ++ t) (q := q)
      hwl (by rw [hdi P2 hP2]; show nc = _; rw [hnc, hq]; omega) w1 n1
      (by rw [es1, hP2 _ _ hss, lS]) (by rw [et1, hP2 _ _ hst, lT])
    rw [← hd2] at B
    obtain ⟨w2, n2, s2⟩ := B
    obtain ⟨w3, n3, s3⟩ := updateDep_sat (p := P3) (i := i) (c := oneRow nc ub) (d := d2) (s := S ++ s) (t := T ++ t) (q := q)
      hwu (by rw [hdi P3 hP3]; show nc = _; rw [hnc, hq]; omega) w2 (by rw [n2, n1])
      (by rw [es2, hP3 _ _ hss, lS]) (by rw [et2, hP3 _ _ hst, lT])
    refine ⟨w3, by rw [n3, n2, n1, lS, lT, hq], ?_⟩
    obtain ⟨S0, lS0, dS, iS⟩ := end_step hs b hb d0.src ss
      (by intro e; rw [e, h0] at hss; cases hss; rfl) S s q hS hsl ⟨false, lb⟩ ⟨false, ub⟩
      (fun T0 v hT0 hx => hbd s q T0 v hT0 hx hq)
    obtain ⟨T0, lT0, dT, iT⟩ := end_step hs b hb d0.dest st
      (by intro e; rw [e, h0] at hst; cases hst; rfl) T t q hT htl ⟨false, lb⟩ ⟨false, ub⟩
      (fun T0 v hT0 hx => hbd t q T0 v hT0 hx hq)
    rw [s3, s2, s1, hd.src, hd.dest, dS, dT, sat S0 s T0 t q lS0 hsl lT0 htl hq, es1, et1, es2, et2, iS, iT]
    simp only [sat_oneRow]
    exact shuffle
  obtain ⟨m1, m2, _⟩ := main (List.replicate ((upd a i b d0.src).n ss) 0) (List.replicate ss.dim 0)
    (List.replicate ((upd a i b d0.dest).n st) 0) (List.replicate st.dim 0) (List.replicate p0.npar 0)
    (by simp) (by simp) (by simp) (by simp) (by simp)
  exact ⟨m1, m2, fun S s T t q h1 h2 h3 h4 h5 => (main S s T t q h1 h2 h3 h4 h5).2.2⟩

theorem TInv.loop_step {p0 p : Prog} {a : Nat → TArg} (hok : p0.OK) (h : TInv p0 a p) {i : Nat} {st0 : Stmt}
    (h0 : p0.stmts[i]? = some st0) (hk : (a i).f + (a i).k < st0.trans.length)
    (hs : st0.hypTypes[(a i).f + (a i).k]? ≠ some HypType.scalar) (hz : 1 ≤ (a i).sizes (a i).k) :
    ∃ p', tileStmt p i (a i).f (a i).k ((a i).n st0) ((a i).sizes (a i).k) = some (p', (a i).n st0 + 1) ∧
      TInv p0 (upd a i ⟨(a i).f, (a i).sizes, (a i).k + 1⟩) p' := by
  obtain ⟨st, h1, h2⟩ := h.stmts i st0 h0
  have hi : i < p.stmts.length := (List.getElem?_eq_some_iff.mp h1).1
  have sok := hok.stmts st0 (List.mem_of_getElem? h0)
  have hn : (tileOffsets st0 (a i).f ((a i).k + 1)).length = (a i).n st0 + 1 := by
    rw [tileOffsets_succ, if_neg hs]; simp [TArg.n]
  have hr : (st0.trans.getD ((a i).f + (a i).k) []).length = st0.dim + p0.npar + 1 := by
    rw [List.getD_eq_getElem?_getD, List.getElem?_eq_getElem hk]
    exact sok.trans _ (List.getElem_mem hk)
  have L := h2.loop sok hk hs hz
  set n := (a i).n st0 with hndef
  set f := (a i).f with hfdef
  set k := (a i).k with hkdef
  set size := (a i).sizes k with hsize
  set r := zrow (n + 1) ++ st0.trans.getD (f + k) [] with hrdef
  set st1 := stmtAddDimAt st n (some (f + k, .tileSpaceLoop)) with hst1
  have hd1 : st.dim = n + st0.dim := h2.dim
  have hc1 : st.domain.ncols = st.dim + p0.npar + 1 := h2.cols
  have hrl : r.length = st.domain.ncols + 1 := by
    rw [hrdef, List.length_append, zrow_length, hr, hc1, hd1]; omega
  let p1 : Prog := ⟨p.nvar, p.npar, p.stmts.set i st1, p.deps.map (depAddDim { p with stmts := p.stmts.set i st1 } i n), p.hProps⟩
  let st2 : Stmt := { st1 with domain := { st1.domain with rows := st1.domain.rows ++ [⟨false, tileLb r n size⟩] } }
  let p2 : Prog := ⟨p.nvar, p.npar, p.stmts.set i st2,
    p1.deps.map (updateDep { p with stmts := p.stmts.set i st2, deps := p1.deps } i (oneRow (st.domain.ncols + 1) (tileLb r n size))), p.hProps⟩
  let st3 : Stmt := { st2 with domain := { st2.domain with rows := st2.domain.rows ++ [⟨false, tileUb r n size⟩] } }
  let p3 : Prog := ⟨p.nvar, p.npar, p.stmts.set i st3,
    p2.deps.map (updateDep { p with stmts := p.stmts.set i st3, deps := p2.deps } i (oneRow (st.domain.ncols + 1) (tileUb r n size))), p.hProps⟩
  have E1 : stmtAddDim p i n (some (f + k, .tileSpaceLoop)) = some p1 := by
    unfold stmtAddDim
    simp only [h1, Option.bind_eq_bind, Option.bind_some]
    rw [if_neg (by omega), if_neg]
    · rfl
    · simp only [decide_eq_true_eq, not_lt]
      rw [h2.trans]
      simp [tiledTrans]; omega
  have g1 : p1.stmts[i]? = some st1 := List.getElem?_set_self hi
  have E2 : addDomainRow p1 i (tileLb r n size) = some p2 := by
    unfold addDomainRow
    rw [g1]
    simp only [Option.bind_eq_bind, Option.bind_some, Option.pure_def, Option.some.injEq]
    rw [Prog.mk.injEq]
    refine ⟨rfl, rfl, ?_, ?_, rfl⟩
    · show (p.stmts.set i st1).set i st2 = _
      rw [List.set_set]
    · show List.map (updateDep { p1 with stmts := (p.stmts.set i st1).set i st2 } i _) p1.deps = _
      rw [List.set_set]; rfl
  have g2 : p2.stmts[i]? = some st2 := List.getElem?_set_self hi
  have E3 : addDomainRow p2 i (tileUb r n size) = some p3 := by
    unfold addDomainRow
    rw [g2]
    simp only [Option.bind_eq_bind, Option.bind_some, Option.pure_def, Option.some.injEq]
    rw [Prog.mk.injEq]
    refine ⟨rfl, rfl, ?_, ?_, rfl⟩
    · show (p.stmts.set i st2).set i st3 = _
      rw [List.set_set]
    · show List.map (updateDep { p2 with stmts := (p.stmts.set i st2).set i st3 } i _) p2.deps = _
      rw [List.set_set]; rfl
  have ety : st.hypTypes[f + k + k]? = st0.hypTypes[f + k]? := by
    rw [h2.types]; exact tiledTypes_get (by rw [sok.types]; omega)
  obtain ⟨ty, hty⟩ : ∃ ty, st0.hypTypes[f + k]? = some ty :=
    ⟨_, List.getElem?_eq_getElem (by rw [sok.types]; exact hk)⟩
  have etr : st1.trans[f + k + 1 + k]? = some r := by
    have := L.trans
    have e : (tiledStmt st0 st f k size).trans = st1.trans := rfl
    rw [← e, this, show f + k + 1 + k = f + (k + 1) + k by omega, tiledTrans_get (by omega), hn,
      List.getElem?_eq_getElem hk, hrdef, List.getD_eq_getElem?_getD, List.getElem?_eq_getElem hk]
    rfl
  refine ⟨p3, ?_, ?_⟩
  · unfold tileStmt
    simp only [h1, ety, hty, Option.bind_eq_bind, Option.bind_some]
    rw [if_pos (by intro e; exact hs (by rw [hty, e])), if_neg (by omega), E1]
    simp only [Option.bind_some, g1, etr]
    rw [if_neg]
    · rw [E2]
      simp only [Option.bind_some]
      rw [E3]
      rfl
    · push Not
      refine ⟨hrl, ?_⟩
      show st.domain.ncols + 1 = st.dim + 1 + p.npar + 1
      rw [h.npar]; omega
  · refine ⟨h.nvar, h.npar, h.props, by show (p.stmts.set i st3).length = _; rw [List.length_set, h.len], ?_, ?_⟩
    · exact h.set h0 ⟨f, (a i).sizes, k + 1⟩ L
    · show List.Forall₂ _ _ (((p.deps.map _).map _).map _)
      rw [List.map_map, List.map_map, List.forall₂_map_right_iff]
      refine h.deps.imp (fun d0 d hd => ?_)
      have hdim : ∀ (P : Prog) (s' : Stmt), P.stmts = p.stmts.set i s' → s'.dim = st.dim + 1 →
          ∀ (j : Nat) (sj : Stmt), p0.stmts[j]? = some sj →
          Pluto.dimOf P j = (upd a i ⟨f, (a i).sizes, k + 1⟩ j).n sj + sj.dim := by
        intro P s' hP hs' j sj hj
        have : Pluto.dimOf P j = Pluto.dimOf { p with stmts := p.stmts.set i s' } j := by
          unfold Pluto.dimOf; rw [hP]
        rw [this, dimOf_set hi]
        by_cases e : j = i
        · subst e
          rw [h0] at hj; cases hj
          simp only [upd, if_true]
          rw [hs', hd1]
          show _ = (tileOffsets st0 f (k + 1)).length + _
          rw [hn]; ring
        · simp only [upd, e, if_false]
          exact h.dimOf hj
      refine dep_step h0 hs ⟨f, (a i).sizes, k + 1⟩ rfl _ _ _ (hdim _ st1 rfl rfl) (hdim _ st2 rfl rfl) (hdim _ st3 rfl rfl)
        (tileLb r n size) (tileUb r n size) (st.domain.ncols + 1) (by rw [hc1, hd1])
        (by rw [tileLb_length _ _ _ (by omega), hrl]) (by rw [tileUb_length _ _ _ (by omega), hrl]) ?_ hd
      intro x q T v hT hx hq
      exact bound_rows _ _ _ _ _ _ hT (by rw [hr, hx, hq]) hz

end Pluto
