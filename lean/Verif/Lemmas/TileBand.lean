import Verif.Lemmas.Tile

/-! `pluto_tile_band` keeps the invariant. -/

namespace Pluto

variable {p0 : Prog}

theorem TInv.scalar_step {p : Prog} {a : Nat → TArg} (hok : p0.OK) (h : TInv p0 a p) {i : Nat} {st0 : Stmt}
    (h0 : p0.stmts[i]? = some st0) (hk : (a i).f + (a i).k < st0.trans.length)
    (hs : st0.hypTypes[(a i).f + (a i).k]? = some HypType.scalar) (size : Int) :
    ∃ p', tileStmt p i (a i).f (a i).k ((a i).n st0) size = some (p', (a i).n st0) ∧
      TInv p0 (upd a i ⟨(a i).f, (a i).sizes, (a i).k + 1⟩) p' := by
  obtain ⟨st, h1, h2⟩ := h.stmts i st0 h0
  have hi : i < p.stmts.length := (List.getElem?_eq_some_iff.mp h1).1
  have sok := hok.stmts st0 (List.mem_of_getElem? h0)
  have L := h2.scalar sok hk hs
  have ety : st.hypTypes[(a i).f + (a i).k + (a i).k]? = st0.hypTypes[(a i).f + (a i).k]? := by
    rw [h2.types]; exact tiledTypes_get (by rw [sok.types]; omega)
  have hlen : st.trans.length = st0.trans.length + (a i).k := by
    rw [h2.trans]; simp [tiledTrans]; omega
  have etr : (st.trans.insertIdx ((a i).f + (a i).k) (zrow (st.dim + p.npar + 1)))[(a i).f + (a i).k + 1 + (a i).k]? =
      some (zrow ((a i).n st0) ++ st0.trans.getD ((a i).f + (a i).k) []) := by
    rw [List.getElem?_insertIdx, if_neg (by omega), if_neg (by omega), h2.trans,
      show (a i).f + (a i).k + 1 + (a i).k - 1 = (a i).f + (a i).k + (a i).k by omega, tiledTrans_get (by omega),
      List.getElem?_eq_getElem hk, List.getD_eq_getElem?_getD, List.getElem?_eq_getElem hk]
    rfl
  have hn : ∀ j sj, p0.stmts[j]? = some sj →
      (upd a i ⟨(a i).f, (a i).sizes, (a i).k + 1⟩ j).n sj = (a j).n sj ∧
      ∀ x q, (upd a i ⟨(a i).f, (a i).sizes, (a i).k + 1⟩ j).coords sj x q = (a j).coords sj x q := by
    intro j sj hj
    by_cases e : j = i
    · subst e
      rw [h0] at hj; cases hj
      simp only [upd, if_true]
      refine ⟨?_, fun x q => ?_⟩
      · show (tileOffsets st0 (a j).f ((a j).k + 1)).length = _
        rw [tileOffsets_succ, if_pos hs]; simp [TArg.n]
      · show tileCoords st0 (a j).f (a j).sizes ((a j).k + 1) x q = _
        rw [tileCoords_succ, if_pos hs]; simp [TArg.coords]
    · simp [upd, e]
  refine ⟨⟨p.nvar, p.npar, p.stmts.set i _, p.deps, p.hProps⟩, ?_, h.nvar, h.npar, h.props, ?_, h.set h0 ⟨(a i).f, (a i).sizes, (a i).k + 1⟩ L, ?_⟩
  · unfold tileStmt
    simp only [h1, ety, hs, Option.bind_eq_bind, Option.bind_some]
    rw [if_neg (by simp), if_neg (by omega), etr]
    simp only [Option.bind_some, Option.pure_def, h.npar]
    rfl
  · rw [List.length_set, h.len]
  · refine h.deps.imp (fun d0 d hd => ⟨hd.src, hd.dest, hd.rar, ?_⟩)
    intro ss st hss hst
    obtain ⟨w, c, sat⟩ := hd.sat ss st hss hst
    rw [(hn _ _ hss).1, (hn _ _ hst).1]
    refine ⟨w, c, ?_⟩
    intro S s T t q
    rw [(hn _ _ hss).2, (hn _ _ hst).2]
    exact sat S s T t q

/-- Number of tile loops of statement `i` after `k` levels. -/
def supCount (p0 : Prog) (f k i : Nat) : Nat := (p0.stmts[i]?.map (fun st => (tileOffsets st f k).length)).getD 0

theorem TInv.step {p : Prog} {a : Nat → TArg} {f k : Nat} {sizes : Nat → Int} (hok : p0.OK) (h : TInv p0 a p)
    {i : Nat} {st0 : Stmt} (ha : a i = ⟨f, sizes, k⟩) (h0 : p0.stmts[i]? = some st0) (hk : f + k < st0.trans.length)
    (hz : 1 ≤ sizes k) :
    ∃ p', tileStmt p i f k (supCount p0 f k i) (sizes k) = some (p', supCount p0 f (k + 1) i) ∧
      TInv p0 (upd a i ⟨f, sizes, k + 1⟩) p' := by
  have hc : ∀ k, supCount p0 f k i = (tileOffsets st0 f k).length := fun k => by simp [supCount, h0]
  rw [hc, hc]
  by_cases hs : st0.hypTypes[f + k]? = some HypType.scalar
  · obtain ⟨p', h1, h2⟩ := h.scalar_step hok h0 (by rw [ha]; exact hk) (by rw [ha]; exact hs) (sizes k)
    rw [ha] at h1 h2
    rw [tileOffsets_succ, if_pos hs, List.append_nil]
    exact ⟨p', h1, h2⟩
  · obtain ⟨p', h1, h2⟩ := h.loop_step hok h0 (by rw [ha]; exact hk) (by rw [ha]; exact hs) (by rw [ha]; exact hz)
    rw [ha] at h1 h2
    rw [tileOffsets_succ, if_neg hs, List.length_append]
    exact ⟨p', h1, h2⟩

/-- The statements of `l` get the arguments `b`. -/
def bandArgs (l : List Nat) (b : TArg) (a : Nat → TArg) : Nat → TArg := fun j => if j ∈ l then b else a j

theorem tileDepth_spec {f k : Nat} {sizes : Nat → Int} (hok : p0.OK) (hz : 1 ≤ sizes k) :
    ∀ (l : List Nat) (a : Nat → TArg) (p : Prog), l.Nodup → (∀ i ∈ l, a i = ⟨f, sizes, k⟩) →
      (∀ i ∈ l, ∃ st0, p0.stmts[i]? = some st0 ∧ f + k < st0.trans.length) → TInv p0 a p →
      ∃ p', tileDepth f k (sizes k) p (l.map (fun i => (i, supCount p0 f k i))) =
          some (p', l.map (fun i => (i, supCount p0 f (k + 1) i))) ∧
        TInv p0 (bandArgs l ⟨f, sizes, k + 1⟩ a) p' := by
  intro l
  induction l with
  | nil => intro a p _ _ _ h; exact ⟨p, rfl, by have : bandArgs [] ⟨f, sizes, k + 1⟩ a = a := (by funext j; simp [bandArgs]); rw [this]; exact h⟩
  | cons i l ih =>
    intro a p hnd ha hex h
    obtain ⟨hil, hnd⟩ := List.nodup_cons.mp hnd
    obtain ⟨st0, h0, hk⟩ := hex i (by simp)
    obtain ⟨p1, e1, h1⟩ := h.step hok (ha i (by simp)) h0 hk hz
    obtain ⟨p2, e2, h2⟩ := ih (upd a i ⟨f, sizes, k + 1⟩) p1 hnd
      (fun j hj => by
        have : j ≠ i := fun e => hil (e ▸ hj)
        simp only [upd, this, if_false]; exact ha j (by simp [hj]))
      (fun j hj => hex j (by simp [hj])) h1
    refine ⟨p2, ?_, ?_⟩
    · simp only [List.map_cons, tileDepth, e1, Option.bind_eq_bind, Option.bind_some, e2, Option.pure_def]
    · have : bandArgs (i :: l) ⟨f, sizes, k + 1⟩ a = bandArgs l ⟨f, sizes, k + 1⟩ (upd a i ⟨f, sizes, k + 1⟩) := by
        funext j
        simp only [bandArgs, upd, List.mem_cons]
        by_cases e1 : j = i <;> by_cases e2 : j ∈ l <;> simp [e1, e2]
      rw [this]; exact h2

theorem tileLoop_spec {f : Nat} {sizes : Nat → Int} (hok : p0.OK) (l : List Nat) (hnd : l.Nodup) :
    ∀ (n k : Nat) (a : Nat → TArg) (p : Prog), (∀ m, k ≤ m → m < k + n → 1 ≤ sizes m) →
      (∀ i ∈ l, a i = ⟨f, sizes, k⟩) →
      (∀ i ∈ l, ∃ st0, p0.stmts[i]? = some st0 ∧ f + k + n ≤ st0.trans.length) → TInv p0 a p →
      ∃ p', tileLoop f sizes n k p (l.map (fun i => (i, supCount p0 f k i))) = some p' ∧
        TInv p0 (bandArgs l ⟨f, sizes, k + n⟩ a) p' := by
  intro n
  induction n with
  | zero =>
    intro k a p _ ha _ h
    refine ⟨p, rfl, ?_⟩
    have : bandArgs l ⟨f, sizes, k + 0⟩ a = a := by
      funext j
      unfold bandArgs
      split_ifs with e
      · rw [ha j e]; rfl
      · rfl
    rw [this]; exact h
  | succ n ih =>
    intro k a p hz ha hex h
    obtain ⟨p1, e1, h1⟩ := tileDepth_spec hok (hz k (le_refl _) (by omega)) l a p hnd ha
      (fun i hi => by obtain ⟨s, x, y⟩ := hex i hi; exact ⟨s, x, by omega⟩) h
    obtain ⟨p2, e2, h2⟩ := ih (k + 1) (bandArgs l ⟨f, sizes, k + 1⟩ a) p1 (fun m h1 h2 => hz m (by omega) (by omega))
      (fun i hi => by simp [bandArgs, hi])
      (fun i hi => by obtain ⟨s, x, y⟩ := hex i hi; exact ⟨s, x, by omega⟩) h1
    refine ⟨p2, ?_, ?_⟩
    · simp only [tileLoop, e1, Option.bind_eq_bind, Option.bind_some]
      exact e2
    · have : bandArgs l ⟨f, sizes, k + (n + 1)⟩ a = bandArgs l ⟨f, sizes, k + 1 + n⟩ (bandArgs l ⟨f, sizes, k + 1⟩ a) := by
        funext j
        unfold bandArgs
        rw [show k + (n + 1) = k + 1 + n by omega]
        split_ifs <;> rfl
      rw [this]; exact h2

theorem TInv.rearg {p : Prog} {a : Nat → TArg} (h : TInv p0 a p) (l : List Nat) (hl : ∀ i ∈ l, (a i).k = 0)
    (f : Nat) (sizes : Nat → Int) : TInv p0 (bandArgs l ⟨f, sizes, 0⟩ a) p := by
  have hn : ∀ j sj, (bandArgs l ⟨f, sizes, 0⟩ a j).n sj = (a j).n sj ∧
      ∀ x q, (bandArgs l ⟨f, sizes, 0⟩ a j).coords sj x q = (a j).coords sj x q := by
    intro j sj
    unfold bandArgs
    split_ifs with e
    · have := hl j e
      simp [TArg.n, TArg.coords, tileCoords, tileOffsets, this]
    · simp
  refine ⟨h.nvar, h.npar, h.props, h.len, ?_, ?_⟩
  · intro i st0 h0
    obtain ⟨st, h1, h2⟩ := h.stmts i st0 h0
    refine ⟨st, h1, ?_⟩
    unfold bandArgs
    split_ifs with e
    · rw [hl i e] at h2; exact h2.zero
    · exact h2
  · refine h.deps.imp (fun d0 d hd => ⟨hd.src, hd.dest, hd.rar, ?_⟩)
    intro ss st hss hst
    obtain ⟨w, c, sat⟩ := hd.sat ss st hss hst
    rw [(hn _ _).1, (hn _ _).1]
    refine ⟨w, c, ?_⟩
    intro S s T t q
    rw [(hn _ _).2, (hn _ _).2]
    exact sat S s T t q

/-- One band, its statements not tiled before. -/
theorem tileBand_spec (hok : p0.OK) (b : Band) (sizes : Nat → Int) (a : Nat → TArg) (p : Prog) (hnd : b.loop.stmts.Nodup)
    (hz : ∀ m < b.width, 1 ≤ sizes m) (ha : ∀ i ∈ b.loop.stmts, (a i).k = 0)
    (hex : ∀ i ∈ b.loop.stmts, ∃ st0, p0.stmts[i]? = some st0 ∧ b.loop.depth + b.width ≤ st0.trans.length)
    (h : TInv p0 a p) :
    ∃ p', tileBand p b sizes = some p' ∧ TInv p0 (bandArgs b.loop.stmts ⟨b.loop.depth, sizes, b.width⟩ a) p' := by
  obtain ⟨p', h1, h2⟩ := tileLoop_spec (f := b.loop.depth) (sizes := sizes) hok b.loop.stmts hnd b.width 0 (bandArgs b.loop.stmts ⟨b.loop.depth, sizes, 0⟩ a) p
    (fun m _ hm => hz m (by omega)) (fun i hi => by simp [bandArgs, hi])
    (fun i hi => by obtain ⟨s, x, y⟩ := hex i hi; exact ⟨s, x, by omega⟩) (h.rearg _ ha b.loop.depth sizes)
  refine ⟨p', ?_, ?_⟩
  · unfold tileBand
    have : (fun i => (i, supCount p0 b.loop.depth 0 i)) = (fun i : Nat => (i, 0)) := by
      funext i
      unfold supCount tileOffsets
      cases p0.stmts[i]? <;> simp
    rw [← this]; exact h1
  · have : bandArgs b.loop.stmts ⟨b.loop.depth, sizes, b.width⟩ a =
        bandArgs b.loop.stmts ⟨b.loop.depth, sizes, 0 + b.width⟩ (bandArgs b.loop.stmts ⟨b.loop.depth, sizes, 0⟩ a) := by
      funext j
      unfold bandArgs
      rw [Nat.zero_add]
      split_ifs <;> rfl
    rw [this]; exact h2

end Pluto
