import Verif.Lemmas.Pipeline
import Verif.Props.Tile
import Verif.Spec.Pipeline

/-! Every step of tiling keeps instances and dependences. -/

namespace Pluto

/-- Only schedules and satisfaction data differ. -/
structure Same (p p' : Prog) : Prop where
  npar : p'.npar = p.npar
  stmts : List.Forall₂ (fun st st' : Stmt => st'.dim = st.dim ∧ st'.domain = st.domain) p.stmts p'.stmts
  deps : List.Forall₂ (fun d d' : Dep => d'.src = d.src ∧ d'.dest = d.dest ∧ d'.rar = d.rar ∧ d'.dpoly = d.dpoly) p.deps p'.deps

theorem Same.refl (p : Prog) : Same p p :=
  ⟨rfl, List.forall₂_same.mpr (fun _ _ => ⟨rfl, rfl⟩), List.forall₂_same.mpr (fun _ _ => ⟨rfl, rfl, rfl, rfl⟩)⟩

theorem forall₂_trans' {α : Type} {R : α → α → Prop} (hR : ∀ a b c, R a b → R b c → R a c) : ∀ {l m n : List α}, List.Forall₂ R l m →
    List.Forall₂ R m n → List.Forall₂ R l n := by
  intro l m n h
  induction h generalizing n with
  | nil => intro h'; cases h'; exact .nil
  | cons h1 _ ih =>
    intro h'
    cases h' with
    | cons k1 k2 => exact .cons (hR _ _ _ h1 k1) (ih k2)

theorem Same.trans {p p' p'' : Prog} (h : Same p p') (h' : Same p' p'') : Same p p'' :=
  ⟨by rw [h'.npar, h.npar], forall₂_trans' (fun _ _ _ h1 h2 => ⟨h2.1.trans h1.1, h2.2.trans h1.2⟩) h.stmts h'.stmts,
    forall₂_trans' (fun _ _ _ h1 h2 => ⟨h2.1.trans h1.1, h2.2.1.trans h1.2.1, h2.2.2.1.trans h1.2.2.1, h2.2.2.2.trans h1.2.2.2⟩) h.deps h'.deps⟩

theorem foldlM_same {α : Type} {f : Prog → α → Option Prog} (hf : ∀ p a p', f p a = some p' → Same p p') : ∀ {l : List α} {p p' : Prog},
    l.foldlM f p = some p' → Same p p' := by
  intro l
  induction l with
  | nil => intro p p' h; simp at h; subst h; exact .refl _
  | cons a l ih =>
    intro p p' h
    simp only [List.foldlM_cons, Option.bind_eq_bind, Option.bind_eq_some_iff] at h
    obtain ⟨p1, h1, h2⟩ := h
    exact (hf _ _ _ h1).trans (ih h2)

theorem forall₂_set {α : Type} {R : α → α → Prop} (hR : ∀ a, R a a) : ∀ {l : List α} {i : Nat} {a b : α}, l[i]? = some a → R a b →
    List.Forall₂ R l (l.set i b) := by
  intro l
  induction l with
  | nil => intro i a b h; simp at h
  | cons x l ih =>
    intro i a b h hr
    cases i with
    | zero =>
      simp at h; subst h
      exact .cons hr (List.forall₂_same.mpr (fun _ _ => hR _))
    | succ i => exact .cons (hR _) (ih (by simpa using h) hr)

theorem updStmts_same {f : Stmt → Option Stmt} (hf : ∀ st st', f st = some st' → st'.dim = st.dim ∧ st'.domain = st.domain) {p p' : Prog}
    {is : List Nat} (h : updStmts p is f = some p') : Same p p' := by
  unfold updStmts at h
  refine foldlM_same (fun p i p' h => ?_) h
  simp only [Option.bind_eq_bind, Option.bind_eq_some_iff, pure, Option.some.injEq] at h
  obtain ⟨st, h1, st', h2, rfl⟩ := h
  exact ⟨rfl, forall₂_set (fun _ => ⟨rfl, rfl⟩) h1 (hf _ _ h2), List.forall₂_same.mpr (fun _ _ => ⟨rfl, rfl, rfl, rfl⟩)⟩

theorem rotate_same {g : Nat} {st : Stmt} : ∀ {n : Nat} {st' : Stmt}, rotate st g n = some st' → st'.dim = st.dim ∧ st'.domain = st.domain := by
  intro n
  induction n with
  | zero => intro st' h; simp [rotate] at h; subst h; exact ⟨rfl, rfl⟩
  | succ n ih =>
    intro st' h
    simp only [rotate, stmtInterchange, Option.bind_eq_bind, Option.bind_eq_some_iff, pure, Option.some.injEq] at h
    obtain ⟨st1, h1, r1, _, r2, _, h2⟩ := h
    have := ih h1
    rw [← h2]
    exact this

theorem makeInnermost_same {p p' : Prog} {L : Loop} {last : Nat} {across : Bool} (h : makeInnermost p L last across = some p') : Same p p' := by
  unfold makeInnermost at h
  split_ifs at h
  · simp only [Option.bind_eq_bind, Option.bind_some] at h
    exact updStmts_same (fun _ _ => rotate_same) h
  · simp only [Option.bind_eq_bind, Option.bind_eq_some_iff] at h
    obtain ⟨_, _, h⟩ := h
    exact updStmts_same (fun _ _ => rotate_same) h

theorem intraTileBand_same {best : Prog → List Loop → Option Loop} {p p' : Prog} {b : Band} {k : Nat} (h : intraTileBand best p b k = some p') :
    Same p p' := by
  unfold intraTileBand at h
  simp only [Option.bind_eq_bind, Option.bind_eq_some_iff] at h
  obtain ⟨v, _, h⟩ := h
  split_ifs at h
  · obtain ⟨gs, _, h⟩ := Option.bind_eq_some_iff.mp h
    refine foldlM_same (fun p g p' h => ?_) h
    unfold intraTileGroup at h
    simp only [Option.bind_eq_bind, Option.bind_eq_some_iff] at h
    obtain ⟨ls, _, h⟩ := h
    split at h
    · cases h; exact .refl _
    · obtain ⟨c, _, h⟩ := Option.bind_eq_some_iff.mp h
      split_ifs at h
      · cases h; exact .refl _
      · exact makeInnermost_same h
  · unfold makeParallelInnermost at h
    simp only [Option.bind_eq_bind, Option.bind_eq_some_iff] at h
    obtain ⟨ls, _, ps, _, h⟩ := h
    split_ifs at h
    · cases h; exact .refl _
    · split at h
      · cases h; exact .refl _
      · obtain ⟨c, _, h⟩ := Option.bind_eq_some_iff.mp h
        split_ifs at h
        · cases h; exact .refl _
        · exact makeInnermost_same h
  · cases h; exact .refl _

theorem wavefrontStmt_same {f : Nat} : ∀ {ks : List Nat} {st st' : Stmt}, wavefrontStmt f ks st = some st' →
    st'.dim = st.dim ∧ st'.domain = st.domain := by
  intro ks
  induction ks with
  | nil => intro st st' h; simp [wavefrontStmt] at h; subst h; exact ⟨rfl, rfl⟩
  | cons k ks ih =>
    intro st st' h
    simp only [wavefrontStmt, List.foldlM_cons, Option.bind_eq_bind, Option.bind_eq_some_iff] at h
    obtain ⟨st1, h1, h2⟩ := h
    have := ih h2
    simp only [addRowAt, Option.bind_eq_bind, Option.bind_eq_some_iff, pure, Option.some.injEq] at h1
    obtain ⟨r1, _, r2, _, rfl⟩ := h1
    exact this

theorem createTileSchedule_same {p p' : Prog} {b : Band} {m i r : Bool} (h : createTileSchedule p b m i = some (p', r)) : Same p p' := by
  have aux : ∀ (p1 : Prog) (ks : List Nat), ((p1.deps.mapM (mergeDep b ks)).bind fun ds => some ({ p1 with deps := ds }, true)) = some (p', r) →
      Same p1 p' := by
    intro p1 ks h
    simp only [Option.bind_eq_some_iff, Option.some.injEq, Prod.mk.injEq] at h
    obtain ⟨ds, h1, rfl, _⟩ := h
    refine ⟨rfl, List.forall₂_same.mpr (fun _ _ => ⟨rfl, rfl⟩), (mapM_forall₂ _ _ _ h1).imp (fun d d' h => ?_)⟩
    unfold mergeDep at h
    split_ifs at h
    · simp only [Option.bind_eq_bind, Option.bind_eq_some_iff, pure, Option.some.injEq] at h
      obtain ⟨_, _, rfl⟩ := h
      exact ⟨rfl, rfl, rfl, rfl⟩
    · cases h; exact ⟨rfl, rfl, rfl, rfl⟩
  unfold createTileSchedule at h
  obtain ⟨v, _, h⟩ := Option.bind_eq_some_iff.mp h
  by_cases cv : v = true
  · rw [if_pos cv] at h
    cases h; exact .refl _
  rw [if_neg cv] at h
  obtain ⟨inner, _, h⟩ := Option.bind_eq_some_iff.mp h
  by_cases c : inner.length = 0
  · rw [if_pos c] at h
    cases h; exact .refl _
  rw [if_neg c] at h
  by_cases ci : i = true
  · simp only [if_pos ci, Option.bind_eq_bind, Option.bind_some] at h
    exact aux p _ h
  · simp only [if_neg ci] at h
    obtain ⟨p1, h1, h⟩ := Option.bind_eq_some_iff.mp h
    exact (updStmts_same (fun _ _ => wavefrontStmt_same) h1).trans (aux p1 _ h)

theorem createTileSchedules_same {o : TileOpts} {p p' : Prog} {bands : List Band} {r : Bool} (h : createTileSchedules o p bands = some (p', r)) :
    Same p p' := by
  have aux : ∀ (l : List Band) (x y : Prog × Bool),
      l.foldlM (fun r b => (createTileSchedule r.1 b o.multipar o.innerpar).map (fun x => (x.1, r.2 || x.2))) x = some y → Same x.1 y.1 := by
    intro l
    induction l with
    | nil => intro x y h; simp at h; subst h; exact .refl _
    | cons b l ih =>
      intro x y h
      simp only [List.foldlM_cons, Option.bind_eq_bind, Option.bind_eq_some_iff, Option.map_eq_some_iff] at h
      obtain ⟨z, ⟨w, h1, rfl⟩, h2⟩ := h
      exact (createTileSchedule_same (r := w.2) h1).trans (ih (w.1, x.2 || w.2) y h2)
  exact aux _ _ _ h

theorem resat_same {p p' : Prog} (e : p' = { p with deps := p'.deps })
    (f : List.Forall₂ (fun d d' : Dep =>
      d' = ⟨d.src, d.dest, d.rar, d.dpoly, d.bpoly, d'.satisfied, d'.satLevel, d'.satvec, d'.dirvec⟩) p.deps p'.deps) : Same p p' :=
  ⟨by rw [e], by rw [e]; exact List.forall₂_same.mpr (fun _ _ => ⟨rfl, rfl⟩), f.imp (fun _ _ h => by rw [h]; exact ⟨rfl, rfl, rfl, rfl⟩)⟩

theorem recompute_same {isEmpty : Cst → Bool} (hE : EmptyOracle isEmpty) {p p' : Prog} (hok : p.OK) (h : recompute isEmpty p = some p') :
    Same p p' := by
  obtain ⟨p1, h1, _, h3, h4⟩ := recompute_spec hE hok
  rw [h] at h1; cases h1
  exact resat_same h3 h4

theorem Same.stmt {p p' : Prog} (h : Same p p') {i : Nat} {st st' : Stmt} (hi : p.stmts[i]? = some st) (hi' : p'.stmts[i]? = some st') :
    st'.dim = st.dim ∧ st'.domain = st.domain := by
  obtain ⟨a, b⟩ := List.getElem?_eq_some_iff.mp hi
  obtain ⟨a', b'⟩ := List.getElem?_eq_some_iff.mp hi'
  have := (List.forall₂_iff_get.mp h.stmts).2 i a a'
  simp only [List.get_eq_getElem, b, b'] at this
  exact this

theorem Same.dim {p p' : Prog} (h : Same p p') (i : Nat) : p'.dim i = p.dim i := by
  have hl := h.stmts.length_eq
  by_cases hi : i < p.stmts.length
  · have g := List.getElem?_eq_getElem hi
    have g' := List.getElem?_eq_getElem (show i < p'.stmts.length by omega)
    simp only [Prog.dim, g, g', Option.map_some, (h.stmt g g').1]
  · rw [Prog.dim, Prog.dim, List.getElem?_eq_none (by omega), List.getElem?_eq_none (by omega)]

/-- Further steps that keep domains and dependences. -/
theorem SameRuns.same {p p' p'' : Prog} {T : Nat → List Int → List Int → List Int} (h : SameRuns p p' T) (h' : Same p' p'') : SameRuns p p'' T := by
  have hl := h'.stmts.length_eq
  refine ⟨by rw [h'.npar, h.npar], by rw [← hl, h.len], fun i x q hx => by rw [h'.dim]; exact h.coords i x q hx, ?_, ?_⟩
  · intro i st st'' g g'' x' q hx' hq
    have g' : p'.stmts[i]? = some (p'.stmts[i]'(by have := (List.getElem?_eq_some_iff.mp g'').1; omega)) := List.getElem?_eq_getElem _
    obtain ⟨e1, e2⟩ := h'.stmt g' g''
    rw [e2]
    exact h.stmts i st _ g g' x' q (by rw [← e1]; exact hx') hq
  · have aux : ∀ {l m n : List Dep} {R : Dep → Dep → Prop} {S : Dep → Dep → Prop}, List.Forall₂ R l m → List.Forall₂ S m n →
        List.Forall₂ (fun a c => ∃ b, R a b ∧ S b c) l n := by
      intro l m n R S h1
      induction h1 generalizing n with
      | nil => intro h2; cases h2; exact .nil
      | cons a _ ih =>
        intro h2
        cases h2 with
        | cons b c => exact .cons ⟨_, a, b⟩ (ih c)
    refine (aux h.deps h'.deps).imp ?_
    rintro d d'' ⟨d', ⟨a1, a2, a3, a4⟩, b1, b2, b3, b4⟩
    refine ⟨b1.trans a1, b2.trans a2, b3.trans a3, ?_⟩
    intro s' t' q hs ht hq
    rw [b4]
    exact a4 s' t' q (by rw [← h'.dim]; exact hs) (by rw [← h'.dim]; exact ht) hq

theorem SameRuns.refl {p : Prog} (hok : p.OK) : SameRuns p p (fun _ _ _ => []) := by
  refine ⟨rfl, rfl, fun i x q hx => by simpa using hx, ?_, List.forall₂_same.mpr (fun d hd => ⟨rfl, rfl, rfl, ?_⟩)⟩
  · intro i st st' g g' x' q hx' hq
    rw [g] at g'; cases g'
    constructor
    · intro hsat; exact ⟨x', hx', hsat, rfl⟩
    · rintro ⟨x, h1, h2, h3⟩
      rw [List.nil_append] at h3
      rw [h3]; exact h2
  · intro s' t' q hs ht hq
    constructor
    · intro hsat; exact ⟨s', t', hs, ht, hsat, rfl, rfl⟩
    · rintro ⟨s, t, h1, h2, h3, h4, h5⟩
      rw [List.nil_append] at h4 h5
      rw [h4, h5]; exact h3

theorem Same.dom {p p' : Prog} (h : Same p p') (hok : p.OK) : SameRuns p p' (fun _ _ _ => []) := (SameRuns.refl hok).same h

theorem SameRuns.trans {p p' p'' : Prog} {T T' : Nat → List Int → List Int → List Int} (h : SameRuns p p' T) (h' : SameRuns p' p'' T') :
    SameRuns p p'' (fun i x q => T' i (T i x q ++ x) q ++ T i x q) := by
  have hdim : ∀ (i : Nat) (st : Stmt) (P : Prog), P.stmts[i]? = some st → P.dim i = st.dim := by
    intro i st P g; simp [Prog.dim, g]
  refine ⟨by rw [h'.npar, h.npar], by rw [h'.len, h.len], ?_, ?_, ?_⟩
  · intro i x q hx
    have a := h.coords i x q hx
    have b := h'.coords i (T i x q ++ x) q (by rw [List.length_append]; exact a)
    rw [List.length_append] at b ⊢
    omega
  · intro i st st'' g g'' x'' q hx'' hq
    have g' : p'.stmts[i]? = some (p'.stmts[i]'(by have := (List.getElem?_eq_some_iff.mp g'').1; rw [h'.len] at this; exact this)) :=
      List.getElem?_eq_getElem _
    rw [h'.stmts i _ st'' g' g'' x'' q hx'' (by rw [h.npar]; exact hq)]
    constructor
    · rintro ⟨x', k1, k2, k3⟩
      obtain ⟨x, m1, m2, m3⟩ := (h.stmts i st _ g g' x' q k1 hq).mp k2
      exact ⟨x, m1, m2, by rw [k3, m3, List.append_assoc]⟩
    · rintro ⟨x, m1, m2, m3⟩
      have hl : (T i x q ++ x).length = (p'.stmts[i]'(by have := (List.getElem?_eq_some_iff.mp g'').1; rw [h'.len] at this; exact this)).dim := by
        rw [List.length_append, h.coords i x q (by rw [hdim i st p g]; exact m1), hdim i _ p' g']
      exact ⟨T i x q ++ x, hl, (h.stmts i st _ g g' _ q hl hq).mpr ⟨x, m1, m2, rfl⟩, by rw [m3, List.append_assoc]⟩
  · have aux : ∀ {l m n : List Dep} {R : Dep → Dep → Prop} {S : Dep → Dep → Prop}, List.Forall₂ R l m → List.Forall₂ S m n →
        List.Forall₂ (fun a c => ∃ b, R a b ∧ S b c) l n := by
      intro l m n R S h1
      induction h1 generalizing n with
      | nil => intro h2; cases h2; exact .nil
      | cons a _ ih =>
        intro h2
        cases h2 with
        | cons b c => exact .cons ⟨_, a, b⟩ (ih c)
    refine (aux h.deps h'.deps).imp ?_
    rintro d d'' ⟨d', ⟨a1, a2, a3, a4⟩, b1, b2, b3, b4⟩
    rw [a1, a2] at b4
    refine ⟨b1.trans a1, b2.trans a2, b3.trans a3, ?_⟩
    intro s'' t'' q hs ht hq
    rw [b4 s'' t'' q hs ht (by rw [h.npar]; exact hq)]
    constructor
    · rintro ⟨s', t', k1, k2, k3, k4, k5⟩
      obtain ⟨s, t, m1, m2, m3, m4, m5⟩ := (a4 s' t' q k1 k2 hq).mp k3
      exact ⟨s, t, m1, m2, m3, by rw [k4, m4, List.append_assoc], by rw [k5, m5, List.append_assoc]⟩
    · rintro ⟨s, t, m1, m2, m3, m4, m5⟩
      have l1 : (T d.src s q ++ s).length = p'.dim d.src := by rw [List.length_append]; exact h.coords _ _ _ m1
      have l2 : (T d.dest t q ++ t).length = p'.dim d.dest := by rw [List.length_append]; exact h.coords _ _ _ m2
      exact ⟨T d.src s q ++ s, T d.dest t q ++ t, l1, l2, (a4 _ _ q l1 l2 hq).mpr ⟨s, t, m1, m2, m3, rfl, rfl⟩,
        by rw [m4, List.append_assoc], by rw [m5, List.append_assoc]⟩

/-- In a legal program with the same instances every dependent pair of the original one is in order. -/
theorem SameRuns.inOrder {p p' : Prog} {T : Nat → List Int → List Int → List Int} (h : SameRuns p p' T) (hleg : p'.Legal) :
    ∀ d ∈ p.deps, d.rar = false → ∀ s t q, p.Inst d s t q →
      LexBefore (p'.timestamp d.src (T d.src s q ++ s) q) (p'.timestamp d.dest (T d.dest t q ++ t) q) := by
  intro d hd hr s t q hin
  obtain ⟨n, hn, rfl⟩ := List.getElem_of_mem hd
  have hl := h.deps.length_eq
  have hD := (List.forall₂_iff_get.mp h.deps).2 n hn (by omega)
  simp only [List.get_eq_getElem] at hD
  obtain ⟨a1, a2, a3, a4⟩ := hD
  have l1 : (T p.deps[n].src s q ++ s).length = p'.dim p.deps[n].src := by rw [List.length_append]; exact h.coords _ _ _ hin.hs
  have l2 : (T p.deps[n].dest t q ++ t).length = p'.dim p.deps[n].dest := by rw [List.length_append]; exact h.coords _ _ _ hin.ht
  have := hleg (p'.deps[n]'(by omega)) (List.getElem_mem _) (by rw [a3]; exact hr) (T p.deps[n].src s q ++ s) (T p.deps[n].dest t q ++ t) q
    (by rw [a1]; exact l1) (by rw [a2]; exact l2) (by rw [h.npar]; exact hin.hp)
    ((a4 _ _ q l1 l2 hin.hp).mpr ⟨s, t, hin.hs, hin.ht, hin.sat, rfl, rfl⟩)
  rwa [a1, a2] at this

/-- One level of tiling. -/
theorem tile_sameRuns {p : Prog} (hok : p.OK) {bands : List Band} {sizes : Nat → Nat → Int} (hb : BandsOK p bands)
    (hz : ∀ n m, 1 ≤ sizes n m) {p' : Prog} (h : tileScatteringDims p bands sizes = some p') : ∃ T, SameRuns p p' T := by
  obtain ⟨a, p1, h1, h2, h3, h4⟩ := tileScattering_spec (sizes := sizes) hok hb (fun n _ _ m _ => hz n m)
  rw [h] at h1; cases h1
  let T : Nat → List Int → List Int → List Int := fun i x q => ((p.stmts[i]?).map (fun st : Stmt => (a i).coords st x q)).getD []
  have hTi : ∀ (i : Nat) (st : Stmt), p.stmts[i]? = some st → ∀ x q, T i x q = (a i).coords st x q := by
    intro i st g x q
    simp only [T, g, Option.map_some, Option.getD_some]
  refine ⟨T, h2.npar, h2.len, ?_, ?_, ?_⟩
  · intro i x q hx
    by_cases hi : i < p.stmts.length
    · have g := List.getElem?_eq_getElem hi
      rw [hTi _ _ g, h2.dim g, hx]
      have e : p.dim i = p.stmts[i].dim := by simp [Prog.dim, g]
      rw [e]
      exact congrArg (· + _) (tileCoords_length _ _ _ _ _ _)
    · have g : p.stmts[i]? = none := List.getElem?_eq_none (by omega)
      have g' : p'.stmts[i]? = none := List.getElem?_eq_none (by rw [h2.len]; omega)
      simp only [Prog.dim, g, g', Option.map_none, Option.getD_none, T] at hx ⊢
      simpa using hx
  · intro i st st' g g' x' q hx' hq
    obtain ⟨st1, st2, k1, k2, k3, _⟩ := h2.stmts i st g
    rw [g'] at k1; cases k1
    rw [k3.2.2.1]
    rw [k3.1, k2.dim] at hx'
    constructor
    · intro hsat
      obtain ⟨S, x, rfl, lS, lx⟩ : ∃ S x, x' = S ++ x ∧ S.length = (tileOffsets st (a i).f (a i).k).length ∧ x.length = st.dim :=
        ⟨x'.take (tileOffsets st (a i).f (a i).k).length, x'.drop (tileOffsets st (a i).f (a i).k).length, by simp, by simp; omega, by simp; omega⟩
      obtain ⟨y1, y2⟩ := (k2.sat S x q lS lx hq).mp hsat
      exact ⟨x, lx, y1, by rw [hTi _ _ g, y2]; rfl⟩
    · rintro ⟨x, lx, y1, rfl⟩
      rw [hTi _ _ g]
      exact (k2.sat _ x q (tileCoords_length _ _ _ _ _ _) lx hq).mpr ⟨y1, rfl⟩
  · refine C18_dependences p hok bands sizes hb (fun n _ _ m _ => hz n m) p' h T ?_ ?_
    · intro n b hn i hi st g x q
      rw [hTi _ _ g, h3 n b hn i hi]; rfl
    · intro i hi x q
      simp only [T]
      cases g : p.stmts[i]? with
      | none => rfl
      | some st =>
        rw [Option.map_some, Option.getD_some, h4 i hi]; simp [TArg.coords, tileCoords, tileOffsets]

end Pluto
