import Verif.Props.Osl
import Verif.Props.ParallelRun

/-! C68: writing the scop back; inputs that are not handled. C65 for programs read as OpenScop. -/

namespace Pluto

/-- C68, violated. With `--candldep` every dependence that candl finds ends in a failed assertion: the cases of the
first `switch` fall through to the undefined type. -/
theorem C68_violated_candl {β : Type} (conv : CandlDep → DepType → Option β) (l : List CandlDep) (hl : l ≠ []) : depsRead conv l = none := by
  have h : ∀ t, candlType t = none := by rintro (_ | t) <;> [rfl; (cases t <;> rfl)]
  unfold depsRead
  cases l with
  | nil => exact absurd rfl hl
  | cons d l => simp [List.mapM_cons, h]

/-- A statement with a domain of two pieces, [0, 1] and [5, 6]. -/
def unionScop : OslScop where
  context := ⟨[], 0, 0, 0, 0⟩
  stmts := [⟨[⟨[[1, 1, 0], [1, -1, 1]], 1, 0, 0, 0⟩, ⟨[[1, 1, -5], [1, -1, 6]], 1, 0, 0, 0⟩], ⟨[[0, -1, 1, 0]], 1, 1, 0, 0⟩, []⟩]

/-- C68, violated. Only the first relation of a union is taken as the domain: an instance is not in the program. -/
theorem C68_violated_union (ops : IslOps) (fo : FlowOps) (hfo : fo.flow [] [] [] = fun _ => ([], [])) : ∃ p ds, oslToProg ops fo ⟨false, false, false⟩ false unionScop = some (p, ds) ∧
    OslRuns unionScop [] (0, [5]) ∧ ∃ st, p.stmts[0]? = some st ∧ ¬ st.domain.Sat ([5] : List Int) := by
  have e : oslToProg ops fo ⟨false, false, false⟩ false unionScop =
      some (⟨1, 0, [⟨1, 1, ⟨2, [⟨false, [1, 0]⟩, ⟨false, [-1, 1]⟩]⟩, [true], [[1, 0]], [.loop]⟩], [], [.scalar]⟩, []) := by
    have h1 : oslDeps ops fo ⟨false, false, false⟩ false [⟨⟨1, 1, 0, 0, [[1, -1, 0]], []⟩, [], []⟩] [[]] [[]] [⟨1, 1, ⟨2, [⟨false, [1, 0]⟩, ⟨false, [-1, 1]⟩]⟩, [true], [[1, 0]], [.loop]⟩] =
        some [] := by
      unfold oslDeps computeDeps computeDepsRaw
      simp [oslReads, oslWrites, oslNamed, hfo]
    have h2 : unionScop.stmts.mapM (oslIslStmt (oslSet unionScop.context)) = some [⟨⟨1, 1, 0, 0, [[1, -1, 0]], []⟩, [], []⟩] := by decide +kernel
    have h3 : unionScop.stmts.mapM (oslStmt 0 1) = some [⟨1, 1, ⟨2, [⟨false, [1, 0]⟩, ⟨false, [-1, 1]⟩]⟩, [true], [[1, 0]], [.loop]⟩] := by decide +kernel
    have h4 : unionScop.stmts.mapM (fun s => oslAccs s.reads) = some [[]] := by decide +kernel
    have h5 : unionScop.stmts.mapM (fun s => oslAccs s.writes) = some [[]] := by decide +kernel
    have h6 : oslRows unionScop = 1 := by decide +kernel
    unfold oslToProg
    simp only [h6, h2, h4, h5, show unionScop.context.npar = 0 from rfl, h3, h1, Option.bind_eq_bind, Option.bind_some]
    rfl
  refine ⟨_, _, e, ⟨⟨rfl, rfl, rfl, [], rfl, by simp [unionScop]⟩, _, rfl, ⟨[[1, 1, -5], [1, -1, 6]], 1, 0, 0, 0⟩, by simp, rfl, rfl, rfl, [], rfl, by simp [aff, dot]⟩, _, rfl, ?_⟩
  simp [Cst.Sat, Row.Sat, aff, dot]

/-- What `pluto_populate_scop` writes for a statement. -/
structure WrittenAs (npar k : Nat) (st : Stmt) (s s' : OslStmt) : Prop where
  dom : ∃ d, s'.domain = [d] ∧ ∀ x q : List Int, d.Has x [] q ↔ x.length = st.dim ∧ q.length = npar ∧ st.domain.Sat (x ++ q)
  scat : ∀ t x q : List Int, s'.scat.Has t x q ↔ x.length = st.dim ∧ q.length = npar ∧ t = st.trans.map (fun r => aff r (x ++ q))
  accs : List.Forall₂ (fun a a' => a'.1 = a.1 ∧ ∀ e z x q : List Int, z.length = k → x.length = a.2.nin → (a'.2.Has e (z ++ x) q ↔ a.2.Has e x q)) s.accs s'.accs

theorem domainFromCst_has {npar dim : Nat} {c : Cst} (hw : c.WF) (hc : c.ncols = dim + npar + 1) (x q : List Int) :
    (domainFromCst npar c).Has x [] q ↔ x.length = dim ∧ q.length = npar ∧ c.Sat (x ++ q) := by
  unfold OslRel.Has domainFromCst Cst.Sat
  simp only [List.length_nil, true_and, List.length_eq_zero_iff, exists_eq_left, List.append_nil, List.mem_map, forall_exists_index, and_imp, forall_apply_eq_imp_iff₂,
    List.headD_cons, List.drop_succ_cons, List.drop_zero, hc]
  rw [show dim + npar + 1 + 1 - npar - 2 = dim by omega]
  refine and_congr_right fun _ => and_congr_right fun _ => forall₂_congr fun r _ => ?_
  unfold Row.Sat
  cases r.eq <;> simp

theorem scatFromTrans_isFun {npar dim : Nat} {m : List (List Int)} (hm : ∀ r ∈ m, r.length = dim + npar + 1) : (scatFromTrans npar (dim + npar + 1) m).IsFun m := by
  refine ⟨rfl, fun g hg => ?_, List.Perm.refl _⟩
  rw [hm g hg]
  simp only [scatFromTrans]
  omega

theorem blankColumns_has {r : OslRel} (hw : ∀ w ∈ r.rows, w.length = r.nout + r.nin + r.nloc + r.npar + 2) (k : Nat) (e z x q : List Int) (hz : z.length = k) (hx : x.length = r.nin) :
    (blankColumns k r).Has e (z ++ x) q ↔ r.Has e x q := by
  unfold OslRel.Has blankColumns
  simp only [List.length_append, hz, hx, Nat.add_comm k, true_and, List.mem_map, forall_exists_index, and_imp, forall_apply_eq_imp_iff₂]
  refine and_congr_right fun he => and_congr_right fun _ => exists_congr fun v => and_congr_right fun hv => forall₂_congr fun w hw' => ?_
  have hl := hw w hw'
  cases w with
  | nil => simp at hl
  | cons a w =>
    simp only [List.length_cons] at hl
    simp only [List.take_succ_cons, List.drop_succ_cons, List.cons_append, List.headD_cons, List.drop_zero]
    have : aff (w.take r.nout ++ List.replicate k 0 ++ w.drop r.nout) (e ++ (z ++ x) ++ v ++ q) = aff w (e ++ x ++ v ++ q) := by
      have := aff_mid_zero r.nout k w e z (x ++ v ++ q) (by omega) he hz
      simpa [List.append_assoc] using this
    rw [this]

/-- C68. The scop that is written back after transformation: domains, scatterings and accesses are those of the
transformed program (accesses do not depend on the new iterators, which come first). -/
theorem C68_populate (p : Prog) (hok : p.OK) (sc : OslScop) (orig : OslStmt → Nat) (hp : p.npar = sc.context.npar) (hlen : p.stmts.length ≤ sc.stmts.length)
    (hacc : ∀ s ∈ sc.stmts, ∀ a ∈ s.accs, ∀ w ∈ a.2.rows, w.length = a.2.nout + a.2.nin + a.2.nloc + a.2.npar + 2) :
    ∃ sc', populateScop p sc orig = some sc' ∧ sc'.context = sc.context ∧ sc'.stmts.length = sc.stmts.length ∧
      ∀ (i : Nat) (st : Stmt) (s : OslStmt), p.stmts[i]? = some st → sc.stmts[i]? = some s → ∃ s', sc'.stmts[i]? = some s' ∧ WrittenAs p.npar (st.dim - orig s) st s s' := by
  unfold populateScop
  rw [if_neg (by omega)]
  refine ⟨_, rfl, rfl, by simp, fun i st s hst hs => ?_⟩
  have hm := List.mem_of_getElem? hst
  have hw := (hok.stmts st hm).wf
  have hc := (hok.stmts st hm).cols
  have e : ∀ F : Nat → OslStmt → OslStmt, (sc.stmts.mapIdx F)[i]? = some (F i s) := fun F => by rw [List.getElem?_mapIdx, hs]; rfl
  refine ⟨_, e _, ?_⟩
  simp only [hst]
  refine ⟨⟨_, rfl, domainFromCst_has hw hc⟩, fun t x q => ?_, ?_⟩
  · rw [(scatFromTrans_isFun (npar := p.npar) (dim := st.dim) (fun r hr => (hok.stmts st hm).trans r hr)).has rfl]
    simp only [scatFromTrans]
    rw [show st.dim + p.npar + 1 - p.npar - 1 = st.dim by omega]
  · rw [List.forall₂_map_right_iff, List.forall₂_same]
    intro a ha
    refine ⟨rfl, fun e z x q hz hx => ?_⟩
    rw [show st.domain.ncols + 1 - (sc.context.npar + 2) = st.dim by rw [hc, ← hp]; omega]
    exact blankColumns_has (hacc s (List.mem_of_getElem? hs) a ha) _ e z x q hz hx

/-- C68, violated. If index-set splitting has made more statements than the scop has, writing the scop back uses a
statement that does not exist. -/
theorem C68_violated_populate (p : Prog) (sc : OslScop) (orig : OslStmt → Nat) (h : sc.stmts.length < p.stmts.length) : populateScop p sc orig = none := by
  unfold populateScop
  rw [if_pos h]

/-- The instances of `orig` are those of the statements, in the order of the source program. -/
structure OslSourceRun (sc : OslScop) (q : List Int) (orig : List Pt) : Prop where
  once : orig.Nodup
  all : ∀ a, a ∈ orig ↔ OslRuns sc q a
  order : orig.Pairwise (OslBefore sc q)

/-- The instances read and write what the access relations say. -/
def OslActsAs {V : Type*} (sc : OslScop) (q : List Int) (act : Pt → Action Pt V) : Prop :=
  ∀ a e, ((act a).reads e → OslReadsElem sc q a e) ∧ ((act a).writes e → OslWritesElem sc q a e)

/-- C65, for OpenScop. Running the instances in any order that respects the dependences of the program that the front
end made computes what the source program computes. -/
theorem C65_osl {V : Type*} (ops : IslOps) (ho : ops.OK) (fo : FlowOps) (o : FlowOpts) (accs : Bool) (sc : OslScop) (hok : sc.OK) (hfo : OslFlowOK fo o accs sc)
    (p : Prog) (ds : List OslDep) (h : oslToProg ops fo o accs sc = some (p, ds)) (q : List Int)
    (orig : List Pt) (hor : OslSourceRun sc q orig) (act : Pt → Action Pt V) (hact : OslActsAs sc q act)
    (run : List Pt) (hnd : run.Nodup) (hall : ∀ a, a ∈ run ↔ OslRuns sc q a)
    (hdeps : ∀ d ∈ p.deps, d.rar = false → ∀ s t, p.Inst d s t q → (d.src, s) ∈ run → (d.dest, t) ∈ run → ComesBefore run (d.src, s) (d.dest, t))
    (m : Pt → V) :
    execute act run m = execute act orig m := by
  refine (C65_order act orig run hor.once hnd (fun i => by rw [hor.all, hall]) (fun a b hab hc => ?_) m).symm
  have hfin : {a | OslRuns sc q a}.Finite := by
    refine (orig.finite_toSet).subset fun a ha => (hor.all a).mpr ha
  have hconf : OslConflict sc q a b := by
    obtain ⟨e, ⟨h1, h2⟩ | ⟨h1, h2⟩⟩ := hc
    · exact ⟨e, .inl ⟨(hact a e).2 h1, h2.imp (hact b e).1 (hact b e).2⟩⟩
    · rcases h2 with h2 | h2
      · exact ⟨e, .inr ⟨(hact a e).1 h2, (hact b e).2 h1⟩⟩
      · exact ⟨e, .inl ⟨(hact a e).2 h2, .inr ((hact b e).2 h1)⟩⟩
  have hch := C68_complete ops ho fo o accs sc hok hfo p ds h q hfin a b (hab.of_pairwise hor.order) hconf
  have link : ∀ x y, (OslRuns sc q x ∧ OslRuns sc q y ∧ ∃ d ∈ p.deps, d.rar = false ∧ d.src = x.1 ∧ d.dest = y.1 ∧ p.Inst d x.2 y.2 q) →
      ComesBefore run x y := by
    rintro x y ⟨hx, hy, d, hd, r, e1, e2, hI⟩
    have := hdeps d hd r _ _ hI
    rw [e1, e2] at this
    exact this ((hall x).mpr hx) ((hall y).mpr hy)
  clear hab hc hconf
  induction hch with
  | single hr => exact link _ _ hr
  | tail _ hr ih => exact ComesBefore.trans hnd ih (link _ _ hr)

/-- C65, from the source program to the code, through the default front end. Take a scop as clan makes it. If the
automatic transformation succeeds, then the code generated from the file that the tool writes computes what the
statements of the scop compute in their original order, also if loops that carry no dependence are run in
parallel, for all values of parameters in the context.
Missing: as for `C52_schedule_partial`; statements whose text has several lines (`C63_violated_text`); unions
(`C68_violated_union`) and constants that do not fit `int` (`C68_violated_width`). -/
theorem C65_tool_osl_partial {V : Type*} (ops : IslOps) (ho : ops.OK)
    (fo : FlowOps) (fl : FlowOpts) (accs : Bool) (sc : OslScop) (hsok : sc.OK) (hfo : OslFlowOK fo fl accs sc)
    (p0 : Prog) (ds : List OslDep) (hp0 : oslToProg ops fo fl accs sc = some (p0, ds))
    (ao : AutoOpts) (L : Libs) (hE : EmptyOracle L.isEmpty) (hL : FeasibleOracle L.solve) (fuel : Nat) (d0 : DfsState)
    (best : Prog → List Loop → Option Loop) (hbest : ∀ p ls L, best p ls = some L → L ∈ ls) (o : TileOpts) (hip : o.innerpar = false)
    (tile : Bool) (sizes sizes2 : Nat → Nat → Int) (hz : ∀ n m, 1 ≤ sizes n m) (hz2 : ∀ n m, 1 ≤ sizes2 n m)
    (hea : EagerAuto ao L noDiamond fuel d0 p0)
    (p : Prog) (h : autoTransform ao L noDiamond fuel d0 p0 = some (.success p))
    (hU : Uniform p 0 p.hProps.length (List.range p.stmts.length))
    (hfw : o.parallel = true → tile = true → ∀ p1 bands, recompute L.isEmpty p = some p1 → tileBands p1 = some bands → LoopBands p1 bands)
    (hfw' : o.parallel = true → tile = false → ∀ p1 bands, beforeWave L.isEmpty best o false sizes sizes2 p = some p1 →
      outermostBands p1 = some bands → LoopBands p1 bands)
    (params : List String) (hn : params.length = sc.context.npar) (ctx : Cst) (hctx : oslToCst sc.context = some ctx) (cctx : List Cst)
    (h2 : ∀ c ∈ cctx, c.WF ∧ c.Fits 64 ∧ c.ncols = sc.context.npar + 1)
    (texts : Nat → List Line) (ht : ∀ i, texts i = []) :
    ∃ p' inp, scheduleProg ao L noDiamond fuel d0 best o tile false sizes sizes2 p0 = some (.success p') ∧
      readCloog sc.context.npar p'.hProps.length (genCloogFile ops params [ctx] cctx texts p') = some inp ∧
      (∀ q, q.length = sc.context.npar → (inp.Context q ↔ sc.context.Has [] [] q ∧ SatUnion cctx q)) ∧
      ∀ q, q.length = sc.context.npar → inp.Context q → ∀ par : List Loop, (∀ l ∈ par, CarriesNone p' l.stmts l.depth) →
        ∀ run, ParGenerated inp p'.dim par q run → ∀ orig, OslSourceRun sc q orig →
          ∀ act : Pt → Action Pt V, OslActsAs sc q act →
            ∀ m : Pt → V, execute act (run.map (origPart p0)) m = execute act orig m := by
  obtain ⟨p0', ds', e1, hp, e2, -, e3, e4⟩ := C68_program ops ho fo fl accs sc hsok hfo
  rw [hp0] at e1
  cases e1
  -- the context
  obtain ⟨cw, c1, c2⟩ := hsok.context
  have hcx : ctx = ⟨sc.context.npar + 1, sc.context.rows.map (fun w => ⟨w.headD 0 == 0, w.drop 1⟩)⟩ := by
    unfold oslToCst at hctx
    rw [if_neg (by simp [cw.noLocal]), c1, c2, cw.noLocal] at hctx
    simpa using hctx.symm
  have h1 : ∀ c ∈ [ctx], c.WF ∧ c.Fits 64 ∧ c.ncols = sc.context.npar + 1 := by
    intro c hc
    rw [List.mem_singleton] at hc
    subst hc
    rw [hcx]
    refine ⟨⟨by simp, fun r hr => ?_⟩, fun r hr v hv => ?_, rfl⟩
    · obtain ⟨w, hw, rfl⟩ := List.mem_map.mp hr
      have := cw.rows w hw
      simp only [List.length_drop]; omega
    · obtain ⟨w, hw, rfl⟩ := List.mem_map.mp hr
      have := cw.small w hw v (List.mem_of_mem_drop hv)
      norm_num at this ⊢
      omega
  have hctxsat : ∀ q : List Int, q.length = sc.context.npar → (SatUnion [ctx] q ↔ sc.context.Has [] [] q) := by
    intro q hq
    unfold SatUnion OslRel.Has Cst.Sat
    simp only [List.mem_singleton, exists_eq_left, hcx, List.mem_map, forall_exists_index, and_imp, forall_apply_eq_imp_iff₂, Row.Sat, hq, c1, c2, cw.noLocal, List.length_nil, true_and,
      List.length_eq_zero_iff, List.nil_append, List.append_nil]
    refine forall₂_congr fun w _ => ?_
    simp
  obtain ⟨k1, k2, k3⟩ := C10_shape ao L hE hL fuel d0 p0 p hp h
  have k4 := C10_stepwise ao L hE hL fuel d0 p0 p hp hea h
  obtain ⟨_, _, r1, r2⟩ := C10_legal_partial ao L hE hL fuel d0 p0 p hp h
  obtain ⟨p', T, a1, a2, a3, a4, _⟩ := C52_post_partial L.isEmpty hE best hbest o hip tile false sizes sizes2 hz hz2 p k1 k4 k2 hU k3 hfw
    (fun a b _ => hfw' a b)
  have hS := (restored_sameRuns (auto_npar hE hL hp h) r1 r2).trans a4
  have hnp := hS.npar.trans e2
  obtain ⟨inp, b1, -, b2, -, -⟩ := C63_file ops ho p' a2 params (by rw [hnp]; exact hn) [ctx] cctx (by simp) (by rw [hnp]; exact h1) (by rw [hnp]; exact h2) texts ht
  have hcon : ∀ q, q.length = sc.context.npar → (inp.Context q ↔ sc.context.Has [] [] q ∧ SatUnion cctx q) := by
    intro q hq
    rw [b2 q (by rw [hnp]; exact hq), hctxsat q hq]
  refine ⟨p', inp, ?_, by rw [← hnp]; exact b1, hcon, fun q hq hqc par hpar run hr orig hor act hact m => ?_⟩
  · unfold scheduleProg
    simp [h, a1]
  · obtain ⟨c1, c2, c3⟩ := C65_parallel ops ho p0 p' _ hS a2 (hS.inOrder a3) par hpar params (by rw [hnp]; exact hn) [ctx] cctx (by simp) (by rw [hnp]; exact h1)
      (by rw [hnp]; exact h2) texts ht inp b1 q (by rw [hnp]; exact hq) run hr
    refine C65_osl ops ho fo fl accs sc hsok hfo p0 ds hp0 q orig hor act hact _ c1 (fun a => ?_) c3 m
    obtain ⟨i, x⟩ := a
    have hcx := ((hcon q hq).mp hqc).1
    rw [c2]
    constructor
    · rintro ⟨st, f1, f2, f3⟩
      have hi : i < sc.stmts.length := by rw [← e3]; exact (List.getElem?_eq_some_iff.mp f1).1
      obtain ⟨st', g1, g2⟩ := e4 i _ (List.getElem?_eq_getElem hi)
      rw [f1] at g1
      cases g1
      exact (g2 x q f2 hq hcx).1.mp f3
    · intro hx
      obtain ⟨-, s, hs, -⟩ := id hx
      obtain ⟨st, g1, g2⟩ := e4 i s hs
      have hl : x.length = st.dim := by
        obtain ⟨st', hst', hm⟩ := forall2_get?' (P := fun (_ : OslStmt) (_ : Stmt) => True) (l := sc.stmts) (r := p0.stmts) (List.forall₂_iff_get.mpr ⟨e3.symm, fun _ _ _ => trivial⟩) hs
        rw [g1] at hst'
        cases hst'
        obtain ⟨pp, dd, isl, d, ra, wa, ds1, ds2, m1, -, -, -, -, -, -, -, m2, -⟩ := oslToProg_made ops ho fo fl accs sc hsok hfo
        rw [hp0] at m1
        cases m1
        obtain ⟨st'', n1, n2⟩ := forall2_get?' m2 hs
        rw [g1] at n1
        cases n1
        rw [n2.dim]
        exact (OslRuns.dim hsok hx hs).1
      exact ⟨st, g1, hl, (g2 x q hl hq hcx).1.mpr hx⟩

end Pluto
