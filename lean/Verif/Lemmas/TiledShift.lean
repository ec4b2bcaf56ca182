import Verif.Lemmas.TileLegal
import Verif.Lemmas.TileBands

/-! The tiled program level by level: which levels are scalar, and the values of the rows. -/

namespace Pluto

variable {p : Prog} {a : Nat → TArg} {p' : Prog}

/-- Level of the tiled program at which level `l` of the program is found, for a statement with `w`
levels from `f` on tiled. -/
def up (f w l : Nat) : Nat := if l < f then l else l + w

theorem up_lt {f w l : Nat} (h : l < f) : up f w l = l := if_pos h
theorem up_ge {f w l : Nat} (h : f ≤ l) : up f w l = l + w := if_neg (by omega)

theorem tiledTrans_low {npar : Nat} {st0 : Stmt} {f k l : Nat} (hl : l < f) (hlen : l < st0.trans.length) :
    (tiledTrans npar st0 f k)[l]? = (st0.trans[l]?).map (zrow (tileOffsets st0 f k).length ++ ·) := by
  unfold tiledTrans
  rw [List.append_assoc, List.getElem?_append_left (by simp; omega), List.getElem?_map, List.getElem?_take_of_lt hl]

theorem tiledTrans_mid {npar : Nat} {st0 : Stmt} {f k m : Nat} (hf : f ≤ st0.trans.length) (hm : m < k) :
    (tiledTrans npar st0 f k)[f + m]? = some (tileRow npar st0 f (tileOffsets st0 f k).length m) := by
  unfold tiledTrans
  rw [List.append_assoc, List.getElem?_append_right (by simp), List.getElem?_append_left (by simp [hf, hm])]
  simp [hf, hm]

theorem tiledTrans_length {npar : Nat} {st0 : Stmt} {f k : Nat} : (tiledTrans npar st0 f k).length = st0.trans.length + k := by
  unfold tiledTrans
  simp
  omega

/-- The rows of a tiled statement. -/
structure RowsOf (npar n' : Nat) (b : TArg) (st0 st' : Stmt) : Prop where
  dim : st'.dim = b.n st0 + st0.dim
  old : ∀ l < st0.trans.length, st'.trans[up b.f b.k l]? = (st0.trans[l]?).map (zrow (b.n st0) ++ ·)
  tile : ∀ m < b.k, st'.trans[b.f + m]? = some (tileRow npar st0 b.f (b.n st0) m)
  pad : ∀ l, st0.trans.length + b.k ≤ l → l < n' → st'.trans[l]? = some (zrow (st'.dim + npar + 1))
  len : st'.trans.length = n' ∧ st0.trans.length + b.k ≤ n'
  types : st'.hypTypes = st'.trans.map (fun r => if (r.take st'.dim).all (fun v => v == 0) then HypType.scalar else HypType.loop)

theorem Tiled.rows (h : Tiled p a p') {i : Nat} {st0 : Stmt} (hi : p.stmts[i]? = some st0)
    (hr : (a i).f + (a i).k ≤ st0.trans.length ∨ (a i).k = 0) :
    ∃ st', p'.stmts[i]? = some st' ∧ RowsOf p.npar p'.hProps.length (a i) st0 st' := by
  obtain ⟨st, st', h1, h2, ⟨s1, s2, s3, s4, s5⟩, h4⟩ := h.stmts i st0 hi
  have hlen : st.trans.length = st0.trans.length + (a i).k := by rw [h2.trans, tiledTrans_length]
  have low : ∀ l, l < st.trans.length → st'.trans[l]? = st.trans[l]? := by
    intro l hl
    rw [s4, List.getElem?_append_left hl]
  refine ⟨st', h1, ?_, ?_, ?_, ?_, ?_, s5⟩
  · rw [s1, h2.dim]; rfl
  · intro l hl
    by_cases c : l < (a i).f
    · rw [up_lt c, low l (by omega), h2.trans, tiledTrans_low c hl]; rfl
    · rw [up_ge (by omega), low _ (by omega), h2.trans]
      have := tiledTrans_get (npar := p.npar) (st0 := st0) (f := (a i).f) (by omega) (a i).k (l - (a i).f)
      rw [show (a i).f + (a i).k + (l - (a i).f) = l + (a i).k by omega, show (a i).f + (l - (a i).f) = l by omega] at this
      exact this
  · intro m hm
    rw [low _ (by omega), h2.trans, tiledTrans_mid (by omega) hm]; rfl
  · intro l hl hl'
    rw [s4, List.getElem?_append_right (by omega), List.getElem?_replicate, if_pos (by omega), s1]
  · refine ⟨?_, by omega⟩
    rw [s4]; simp; omega

theorem scalar_row (c dim : Nat) (r : List Int) : (∀ v ∈ (zrow c ++ r).take (c + dim), v = 0) ↔ ∀ v ∈ r.take dim, v = 0 := by
  rw [List.take_append, List.take_of_length_le (by simp [zrow])]
  rw [zrow_length, Nat.add_sub_cancel_left]
  constructor
  · intro h v hv
    exact h v (List.mem_append_right _ hv)
  · intro h v hv
    rcases List.mem_append.mp hv with hv | hv
    · exact List.eq_of_mem_replicate hv
    · exact h v hv

theorem const_row (c : Nat) (r : List Int) (h : r ≠ []) : (zrow c ++ r).getLast? = r.getLast? := by
  rw [List.getLast?_append_of_ne_nil _ h]

/-- Scalar levels and constants of statement `i` with `w` levels from `f` on tiled. -/
structure Lift (p p' : Prog) (i f w : Nat) : Prop where
  len : p.hProps.length + w ≤ p'.hProps.length
  old : ∀ l < p.hProps.length, (p'.Scalar (up f w l) i ↔ p.Scalar l i) ∧ p'.const (up f w l) i = p.const l i
  tile : ∀ m < w, (p'.Scalar (f + m) i ↔ p.ScalarType (f + m) i) ∧
    (p.ScalarType (f + m) i → p'.const (f + m) i = p.const (f + m) i)
  pad : ∀ l, p.hProps.length + w ≤ l → l < p'.hProps.length → p'.Scalar l i ∧ p'.const l i = 0
  types : ∀ l < p'.hProps.length, p'.ScalarType l i ↔ p'.Scalar l i

theorem Tiled.lift (hok : p.OK) (hT : TypesRight p) (h : Tiled p a p') {i : Nat} (hi : i < p.stmts.length)
    (hr : (a i).f + (a i).k ≤ p.hProps.length ∨ (a i).k = 0) : Lift p p' i (a i).f (a i).k := by
  have gi := List.getElem?_eq_getElem hi
  set st0 := p.stmts[i] with hst0
  have lev := hok.levels st0 (List.mem_of_getElem? gi)
  have sok := hok.stmts st0 (List.mem_of_getElem? gi)
  obtain ⟨st', g', R⟩ := h.rows gi (by rw [lev]; exact hr)
  have ne : ∀ (l : Nat) (r : List Int), st0.trans[l]? = some r → r ≠ [] := by
    intro l r hr
    have := sok.trans r (List.mem_of_getElem? hr)
    exact List.ne_nil_of_length_pos (by omega)
  refine ⟨by have := R.len.2; omega, ?_, ?_, ?_, ?_⟩
  · intro l hl
    have e := R.old l (by omega)
    have el : st0.trans[l]? = some (st0.trans[l]'(by omega)) := List.getElem?_eq_getElem (by omega)
    set r := st0.trans[l]'(by omega) with hrr
    rw [el, Option.map_some] at e
    constructor
    · unfold Prog.Scalar
      constructor
      · rintro ⟨st, r1, x1, x2, x3⟩
        rw [g'] at x1; cases x1
        rw [e] at x2; cases x2
        rw [R.dim] at x3
        exact ⟨st0, r, gi, el, (scalar_row _ _ _).mp x3⟩
      · rintro ⟨st, r1, x1, x2, x3⟩
        rw [gi] at x1; cases x1
        rw [el] at x2; cases x2
        exact ⟨st', _, g', e, by rw [R.dim]; exact (scalar_row _ _ _).mpr x3⟩
    · simp only [Prog.const, Prog.row, g', gi, Option.bind_some, e, el, Option.getD_some]
      rw [const_row _ _ (ne l r el)]
  · intro m hm
    have e := R.tile m hm
    have hl : (a i).f + m < st0.trans.length := by omega
    have el : st0.trans[(a i).f + m]? = some (st0.trans[(a i).f + m]'hl) := List.getElem?_eq_getElem hl
    have ty : p.ScalarType ((a i).f + m) i ↔ st0.hypTypes[(a i).f + m]? = some HypType.scalar := by
      unfold Prog.ScalarType; simp [gi, st0]
    unfold tileRow at e
    by_cases c : st0.hypTypes[(a i).f + m]? = some HypType.scalar
    · rw [if_pos c, List.getD_eq_getElem?_getD, el, Option.getD_some] at e
      have hsc := (hT i hi _ (by omega)).mp (ty.mpr c)
      obtain ⟨st, r1, x1, x2, x3⟩ := hsc
      rw [gi] at x1; cases x1
      rw [el] at x2; cases x2
      refine ⟨⟨fun _ => ty.mpr c, fun _ => ⟨st', _, g', e, by rw [R.dim]; exact (scalar_row _ _ _).mpr x3⟩⟩, fun _ => ?_⟩
      simp only [Prog.const, Prog.row, g', gi, Option.bind_some, e, el, Option.getD_some]
      rw [const_row _ _ (ne _ _ el)]
    · rw [if_neg c] at e
      refine ⟨⟨?_, fun x => absurd (ty.mp x) c⟩, fun x => absurd (ty.mp x) c⟩
      rintro ⟨st, r1, x1, x2, x3⟩
      rw [g'] at x1; cases x1
      rw [e] at x2; cases x2
      have hlt := tileOffsets_lt st0 (a i).f m (a i).k hm c
      have : (1 : Int) ∈ ((zrow ((a i).n st0 + st0.dim + p.npar + 1)).set (tileOffsets st0 (a i).f m).length 1).take st'.dim := by
        apply List.mem_of_getElem? (i := (tileOffsets st0 (a i).f m).length)
        have hn : (a i).n st0 = (tileOffsets st0 (a i).f (a i).k).length := rfl
        rw [List.getElem?_take_of_lt (by rw [R.dim]; omega), List.getElem?_set]
        simp [zrow]; omega
      simpa using x3 1 this
  · intro l hl hl'
    have e := R.pad l (by omega) hl'
    refine ⟨⟨st', _, g', e, fun v hv => List.eq_of_mem_replicate (List.mem_of_mem_take hv)⟩, ?_⟩
    simp only [Prog.const, Prog.row, g', Option.bind_some, e, Option.getD_some]
    simp [zrow, List.getLast?_replicate]
  · intro l hl
    have e : st'.trans[l]? = some (st'.trans[l]'(by rw [R.len.1]; exact hl)) := List.getElem?_eq_getElem _
    generalize st'.trans[l]'(by rw [R.len.1]; exact hl) = r at e
    have e2 : st'.hypTypes[l]? = some (if (r.take st'.dim).all (fun v => v == 0) then HypType.scalar else HypType.loop) := by
      rw [R.types, List.getElem?_map, e]; rfl
    unfold Prog.ScalarType Prog.Scalar
    constructor
    · rintro ⟨st, x1, x2⟩
      rw [g'] at x1; cases x1
      rw [e2] at x2
      refine ⟨st', r, g', e, ?_⟩
      split_ifs at x2 with c
      · simpa using c
      · simp at x2
    · rintro ⟨st, r1, x1, x2, x3⟩
      rw [g'] at x1; cases x1
      rw [e] at x2; cases x2
      refine ⟨st', g', ?_⟩
      rw [e2, if_pos (by simpa using x3)]

/-- Values of the rows at an instance `x'` of the tiled program that stands for `x`. -/
structure ValLift (p p' : Prog) (i : Nat) (b : TArg) (x' x q : List Int) : Prop where
  old : ∀ l < p.hProps.length, p'.phi i (up b.f b.k l) x' q = p.phi i l x q
  scalar : ∀ m < b.k, p.ScalarType (b.f + m) i → p'.phi i (b.f + m) x' q = p.phi i (b.f + m) x q
  loop : ∀ m < b.k, ¬ p.ScalarType (b.f + m) i → p'.phi i (b.f + m) x' q = (p.phi i (b.f + m) x q).fdiv (b.sizes m)
  pad : ∀ l, p.hProps.length + b.k ≤ l → p'.phi i l x' q = 0

theorem Tiled.vals (hok : p.OK) (h : Tiled p a p') {i : Nat} {st0 : Stmt} (gi : p.stmts[i]? = some st0)
    (hr : (a i).f + (a i).k ≤ p.hProps.length ∨ (a i).k = 0) (x q : List Int) :
    ValLift p p' i (a i) ((a i).coords st0 x q ++ x) x q := by
  have lev := hok.levels st0 (List.mem_of_getElem? gi)
  obtain ⟨st', g', R⟩ := h.rows gi (by rw [lev]; exact hr)
  have hz : ∀ r : List Int, aff (zrow ((a i).n st0) ++ r) ((a i).coords st0 x q ++ x ++ q) = aff r (x ++ q) := by
    intro r
    rw [List.append_assoc]
    exact aff_zrow_append _ _ _ _ (tileCoords_length _ _ _ _ _ _)
  have ty : ∀ m, p.ScalarType ((a i).f + m) i ↔ st0.hypTypes[(a i).f + m]? = some HypType.scalar := by
    intro m; unfold Prog.ScalarType; simp [gi]
  refine ⟨?_, ?_, ?_, ?_⟩
  · intro l hl
    have e := R.old l (by omega)
    have el : st0.trans[l]? = some (st0.trans[l]'(by omega)) := List.getElem?_eq_getElem (by omega)
    rw [el, Option.map_some] at e
    simp only [Prog.phi, Prog.row, g', gi, Option.bind_some, e, el, Option.getD_some]
    exact hz _
  · intro m hm c
    have e := R.tile m hm
    rw [ty] at c
    have hl : (a i).f + m < st0.trans.length := by omega
    have el : st0.trans[(a i).f + m]? = some (st0.trans[(a i).f + m]'hl) := List.getElem?_eq_getElem hl
    unfold tileRow at e
    rw [if_pos c, List.getD_eq_getElem?_getD, el, Option.getD_some] at e
    simp only [Prog.phi, Prog.row, g', gi, Option.bind_some, e, el, Option.getD_some]
    exact hz _
  · intro m hm c
    have e := R.tile m hm
    rw [ty] at c
    unfold tileRow at e
    rw [if_neg c] at e
    have hlt := tileOffsets_lt st0 (a i).f m (a i).k hm c
    rw [phi_val gi]
    simp only [Prog.phi, Prog.row, g', Option.bind_some, e, Option.getD_some]
    unfold aff
    have hn : (a i).n st0 = (tileOffsets st0 (a i).f (a i).k).length := rfl
    rw [dot_set_zrow _ _ _ _ (by omega)]
    rw [List.append_assoc, List.append_assoc, getD_append_left' _ _ _ (by unfold TArg.coords; rw [tileCoords_length]; exact hlt)]
    unfold TArg.coords
    rw [tileCoords_get st0 (a i).f (a i).sizes m (a i).k x q hm c]
    simp
  · intro l hl
    by_cases c : l < p'.hProps.length
    · have e := R.pad l (by omega) c
      simp only [Prog.phi, Prog.row, g', Option.bind_some, e, Option.getD_some]
      exact aff_zrow _ _
    · have e : st'.trans[l]? = none := by
        rw [List.getElem?_eq_none_iff]; have := R.len.1; omega
      simp [Prog.phi, Prog.row, g', e, aff, dot]

/-- A dependent pair of the tiled program comes from one of the program. -/
theorem Tiled.pull (hok : p.OK) (h : Tiled p a p')
    (hr : ∀ i < p.stmts.length, (a i).f + (a i).k ≤ p.hProps.length ∨ (a i).k = 0)
    {d' : Dep} (hd' : d' ∈ p'.deps) {s' t' q : List Int} (hin : p'.Inst d' s' t' q) :
    ∃ d ∈ p.deps, d'.src = d.src ∧ d'.dest = d.dest ∧ d'.rar = d.rar ∧ ∃ s t, p.Inst d s t q ∧
      ValLift p p' d.src (a d.src) s' s q ∧ ValLift p p' d.dest (a d.dest) t' t q := by
  obtain ⟨n, hn, rfl⟩ := List.getElem_of_mem hd'
  have hl := h.deps.length_eq
  have hD := (List.forall₂_iff_get.mp h.deps).2 n (by omega) hn
  simp only [List.get_eq_getElem] at hD
  set d := p.deps[n] with hd
  have hdm : d ∈ p.deps := List.getElem_mem _
  obtain ⟨k1, k2, k3⟩ := hok.deps d hdm
  have gs := List.getElem?_eq_getElem k1
  have gt := List.getElem?_eq_getElem k2
  set ss := p.stmts[d.src] with hss
  set st := p.stmts[d.dest] with hst
  obtain ⟨hs', ht', hq, hsat⟩ := hin
  rw [hD.src, h.dim gs] at hs'
  rw [hD.dest, h.dim gt] at ht'
  rw [h.npar] at hq
  obtain ⟨S, s, rfl, lS, ls⟩ : ∃ S s, s' = S ++ s ∧ S.length = (a d.src).n ss ∧ s.length = ss.dim :=
    ⟨s'.take ((a d.src).n ss), s'.drop ((a d.src).n ss), by simp, by simp; omega, by simp; omega⟩
  obtain ⟨T, t, rfl, lT, lt⟩ : ∃ T t, t' = T ++ t ∧ T.length = (a d.dest).n st ∧ t.length = st.dim :=
    ⟨t'.take ((a d.dest).n st), t'.drop ((a d.dest).n st), by simp, by simp; omega, by simp; omega⟩
  obtain ⟨w, c, sat⟩ := hD.sat ss st gs gt
  obtain ⟨hsat0, eS, eT⟩ := (sat S s T t q lS ls lT lt hq).mp hsat
  refine ⟨d, hdm, hD.src, hD.dest, hD.rar, s, t, ⟨by rw [ls]; simp [Prog.dim, gs], by rw [lt]; simp [Prog.dim, gt], hq, hsat0⟩, ?_, ?_⟩
  · rw [eS]; exact h.vals hok gs (hr _ k1) s q
  · rw [eT]; exact h.vals hok gt (hr _ k2) t q

/-- Scalar rows stay free of parameters. -/
theorem Tiled.pure (hok : p.OK) (hT : TypesRight p) (h : Tiled p a p')
    (hr : ∀ i < p.stmts.length, (a i).f + (a i).k ≤ p.hProps.length ∨ (a i).k = 0) (hps : PureScalars p) : PureScalars p' := by
  intro i l x' q hsc hx hq
  obtain ⟨st', r, g', e, hz⟩ := hsc
  have hi : i < p.stmts.length := by rw [← h.len]; exact (List.getElem?_eq_some_iff.mp g').1
  have gi := List.getElem?_eq_getElem hi
  set st0 := p.stmts[i] with hst0
  have lev := hok.levels st0 (List.mem_of_getElem? gi)
  have sok := hok.stmts st0 (List.mem_of_getElem? gi)
  obtain ⟨st1, g1, R⟩ := h.rows gi (by rw [lev]; exact hr i hi)
  rw [g'] at g1; cases g1
  have L := h.lift hok hT hi (hr i hi)
  have hl' : l < p'.hProps.length := by rw [← R.len.1]; exact (List.getElem?_eq_some_iff.mp e).1
  rw [h.dim gi] at hx
  rw [h.npar] at hq
  obtain ⟨T, x, rfl, lT, lx⟩ : ∃ T x, x' = T ++ x ∧ T.length = (a i).n st0 ∧ x.length = st0.dim :=
    ⟨x'.take ((a i).n st0), x'.drop ((a i).n st0), by simp, by simp; omega, by simp; omega⟩
  have lx' : x.length = p.dim i := by rw [lx]; simp [Prog.dim, gi]
  have key : ∀ l0 < p.hProps.length, p.Scalar l0 i → r = zrow ((a i).n st0) ++ p.row i l0 → p'.const l i = p.const l0 i →
      p'.phi i l (T ++ x) q = p'.const l i := by
    intro l0 h0 hs er ec
    rw [ec, ← hps i l0 x q hs lx' hq]
    have : p'.row i l = r := by simp [Prog.row, g', e]
    unfold Prog.phi
    rw [this, er, List.append_assoc, aff_zrow_append _ _ _ _ lT]
  have hsc : p'.Scalar l i := ⟨st', r, g', e, hz⟩
  have rowp : ∀ l0 < st0.trans.length, st0.trans[l0]? = some (p.row i l0) := by
    intro l0 h0
    have := List.getElem?_eq_getElem h0
    simp only [Prog.row, gi, Option.bind_some, this, Option.getD_some]
  by_cases c1 : l < (a i).f ∧ l < p.hProps.length
  · have e1 := R.old l (by omega)
    rw [up_lt c1.1, e, rowp l (by omega)] at e1
    have := L.old l c1.2
    rw [up_lt c1.1] at this
    exact key l c1.2 (this.1.mp hsc) (by simpa using e1) this.2
  by_cases c2 : l < (a i).f + (a i).k
  · have hk : (a i).f + (a i).k ≤ p.hProps.length ∨ (a i).k = 0 := hr i hi
    by_cases hk0 : (a i).k = 0
    · -- no tiling: beyond the rows
      have e1 := R.pad l (by omega) hl'
      rw [e] at e1; cases e1
      obtain ⟨_, y⟩ := L.pad l (by omega) hl'
      rw [y]
      have : p'.row i l = zrow (st'.dim + p.npar + 1) := by simp [Prog.row, g', e]
      unfold Prog.phi
      rw [this, aff_zrow]
    obtain ⟨m, rfl⟩ : ∃ m, l = (a i).f + m := ⟨l - (a i).f, by omega⟩
    have hm : m < (a i).k := by omega
    obtain ⟨t1, t2⟩ := L.tile m hm
    have e1 := R.tile m hm
    have hty := t1.mp hsc
    have hty' : st0.hypTypes[(a i).f + m]? = some HypType.scalar := by
      obtain ⟨st, x1, x2⟩ := hty
      rw [gi] at x1; cases x1; exact x2
    unfold tileRow at e1
    rw [if_pos hty', e, List.getD_eq_getElem?_getD, rowp _ (by omega)] at e1
    exact key _ (by omega) ((hT i hi _ (by omega)).mp hty) (by simpa using e1) (t2 hty)
  by_cases c3 : l < p.hProps.length + (a i).k
  · obtain ⟨l0, rfl⟩ : ∃ l0, l = l0 + (a i).k := ⟨l - (a i).k, by omega⟩
    have hf : (a i).f ≤ l0 := by omega
    have e1 := R.old l0 (by omega)
    rw [up_ge hf, e, rowp l0 (by omega)] at e1
    have := L.old l0 (by omega)
    rw [up_ge hf] at this
    exact key l0 (by omega) (this.1.mp hsc) (by simpa using e1) this.2
  · have e1 := R.pad l (by omega) hl'
    rw [e] at e1; cases e1
    obtain ⟨_, y⟩ := L.pad l (by omega) hl'
    rw [y]
    have : p'.row i l = zrow (st'.dim + p.npar + 1) := by simp [Prog.row, g', e]
    unfold Prog.phi
    rw [this, aff_zrow]

/-- The recorded types are right after tiling. -/
theorem Tiled.typesRight (hok : p.OK) (hT : TypesRight p) (h : Tiled p a p')
    (hr : ∀ i < p.stmts.length, (a i).f + (a i).k ≤ p.hProps.length ∨ (a i).k = 0) : TypesRight p' := by
  intro i hi l hl
  rw [h.len] at hi
  exact (h.lift hok hT hi (hr i hi)).types l hl

end Pluto
