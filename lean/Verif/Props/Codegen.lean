import Verif.Spec.Codegen
import Verif.Props.IslConv
import Verif.Props.NewDomain
import Verif.Props.Schedule
import Verif.Props.Mark

/-! C63: the input file for CLooG. -/

namespace Pluto

theorem dataLines_append (a b : List Line) : dataLines (a ++ b) = dataLines a ++ dataLines b := by
  fun_induction dataLines a with
  | case1 => rfl
  | case2 ls ih => simpa [dataLines] using ih
  | case3 ls ih => simpa [dataLines] using ih
  | case4 t ts ls ih => simpa [dataLines] using ih

theorem nums_map (l : List Int) : nums (l.map .num) = some l := by
  induction l with
  | nil => rfl
  | cons a l ih => simp [nums, ih]

theorem names_map (l : List String) : names (l.map .name) = some l := by
  induction l with
  | nil => rfl
  | cons a l ih => simp [names, ih]

/-- The rows of a system in the file. -/
def polyOf (c : Cst) : Poly := c.rows.map (fun r => (if r.eq then 0 else 1) :: r.val)

theorem rowsIn_ok (n : Nat) (rows : List Row) (h : ∀ r ∈ rows, r.val.length = n) (rest : Lines) :
    rowsIn (n + 1) rows.length (dataLines (rows.map rowLine) ++ rest) = some (rows.map (fun r => (if r.eq then 0 else 1) :: r.val), rest) := by
  induction rows with
  | nil => rfl
  | cons r rows ih =>
    have e : nums (.num (if r.eq then 0 else 1) :: r.val.map .num) = some ((if r.eq then 0 else 1) :: r.val) := by simp [nums, nums_map]
    have hl := h r List.mem_cons_self
    simp only [List.map_cons, rowLine, dataLines, List.length_cons, List.cons_append, rowsIn, e, Option.bind_eq_bind, Option.bind_some, hl, if_true]
    rw [ih (fun x hx => h x (List.mem_cons_of_mem _ hx))]
    rfl

theorem polyIn_ok (c : Cst) (hc : c.WF) (rest : Lines) : polyIn (dataLines (polyLines c) ++ rest) = some (polyOf c, rest) := by
  have := rowsIn_ok c.ncols c.rows hc.2 rest
  simp only [polyLines, dataLines, List.cons_append, polyIn]
  rw [if_pos ⟨by omega, by omega⟩]
  simpa [polyOf] using this

theorem polysIn_ok (cs : List Cst) (hc : ∀ c ∈ cs, c.WF) (rest : Lines) :
    polysIn cs.length (dataLines (cs.flatMap polyLines) ++ rest) = some (cs.map polyOf, rest) := by
  induction cs with
  | nil => rfl
  | cons c cs ih =>
    rw [List.flatMap_cons, dataLines_append, List.append_assoc, List.length_cons, polysIn, polyIn_ok c (hc c List.mem_cons_self)]
    simp only [Option.bind_eq_bind, Option.bind_some]
    rw [ih (fun x hx => hc x (List.mem_cons_of_mem _ hx))]
    rfl

theorem unionIn_ok (cs : List Cst) (h0 : cs ≠ []) (hc : ∀ c ∈ cs, c.WF) (rest : Lines) :
    unionIn (dataLines (unionLines cs) ++ rest) = some (cs.map polyOf, rest) := by
  have := polysIn_ok cs hc rest
  unfold unionLines
  by_cases h : 2 ≤ cs.length
  · rw [if_pos h, dataLines_append]
    simp only [dataLines, List.cons_append, List.nil_append, unionIn]
    rw [if_pos (by omega)]
    simpa using this
  · obtain ⟨c, l, rfl⟩ := List.exists_cons_of_ne_nil h0
    have : l = [] := List.length_eq_zero_iff.mp (by simp only [List.length_cons] at h; omega)
    subst this
    rw [if_neg h, List.nil_append]
    rw [List.flatMap_cons, dataLines_append] at this ⊢
    simp only [polyLines, dataLines, List.cons_append, unionIn] at this ⊢
    exact this

theorem domainsIn_ok (sts : List Stmt) (texts : Nat → List Line) (ht : ∀ i, dataLines (texts i) = []) (hw : ∀ st ∈ sts, st.domain.WF)
    (rest : Lines) :
    domainsIn sts.length (dataLines (sts.mapIdx (fun i st => domainLines st (texts i))).flatten ++ rest) =
      some (sts.map (fun st => [polyOf st.domain]), rest) := by
  induction sts generalizing texts with
  | nil => rfl
  | cons st sts ih =>
    have e : dataLines (domainLines st (texts 0)) = dataLines (unionLines [st.domain]) ++ [[.num 0, .num 0, .num 0]] := by
      simp only [domainLines, List.cons_append, dataLines, dataLines_append, ht, List.nil_append]
    have := ih (fun i => texts (i + 1)) (fun i => ht (i + 1)) (fun x hx => hw x (List.mem_cons_of_mem _ hx))
    rw [List.mapIdx_cons, List.flatten_cons, dataLines_append, e, List.length_cons, domainsIn, List.append_assoc, List.append_assoc,
      unionIn_ok _ (by simp) (by simpa using hw st List.mem_cons_self)]
    simp only [Option.bind_eq_bind, Option.bind_some, List.cons_append, List.nil_append]
    rw [this]
    rfl

theorem scatsIn_ok (sts : List Stmt) (hw : ∀ st ∈ sts, (stmtGetSchedule st.domain.ncols st.trans).WF) (rest : Lines) :
    scatsIn sts.length (dataLines (sts.flatMap schedLines) ++ rest) =
      some (sts.map (fun st => [polyOf (stmtGetSchedule st.domain.ncols st.trans)]), rest) := by
  induction sts with
  | nil => rfl
  | cons st sts ih =>
    have e : dataLines (schedLines st) = dataLines (unionLines [stmtGetSchedule st.domain.ncols st.trans]) := by
      simp only [schedLines, List.cons_append, dataLines, dataLines_append, List.append_nil]
    rw [List.flatMap_cons, dataLines_append, e, List.length_cons, scatsIn, List.append_assoc,
      unionIn_ok _ (by simp) (by simpa using hw st List.mem_cons_self)]
    simp only [Option.bind_eq_bind, Option.bind_some]
    rw [ih (fun x hx => hw x (List.mem_cons_of_mem _ hx))]
    rfl

theorem rowHolds_iff (r : Row) (v : List Int) : RowHolds ((if r.eq then 0 else 1) :: r.val) v ↔ r.Sat v := by
  unfold Row.Sat
  cases r.eq <;> simp [RowHolds]

theorem inUnion_iff (cs : List Cst) (v : List Int) : InUnion (cs.map polyOf) v ↔ SatUnion cs v := by
  unfold InUnion SatUnion Cst.Sat
  simp only [List.mem_map, exists_exists_and_eq_and, polyOf, forall_exists_index, and_imp, forall_apply_eq_imp_iff₂, rowHolds_iff]

theorem islSetToCst_wf (n : Nat) (hn : 1 ≤ n) (pieces : List Cst) (h : ∀ c ∈ pieces, c.WF) :
    islSetToCst n pieces ≠ [] ∧ ∀ c ∈ islSetToCst n pieces, c.WF := by
  have key : ∀ (pieces acc : List Cst),
      pieces.foldl (fun acc b => if acc = [] then [b] else (unionizeSimple acc [b]).1) acc = acc ++ pieces := by
    intro pieces
    induction pieces with
    | nil => simp
    | cons b bs ih =>
      intro acc
      rw [List.foldl_cons, ih]
      split_ifs with h <;> simp [h, unionizeSimple]
  unfold islSetToCst
  rw [key]
  simp only [List.nil_append]
  split_ifs with h0
  · refine ⟨by simp, fun c hc => ?_⟩
    rw [List.mem_singleton.mp hc]
    exact ⟨hn, by simp [emptyCst]⟩
  · exact ⟨h0, h⟩

theorem intersectIsl_wf (ops : IslOps) (ho : ops.OK) (n : Nat) (l1 l2 : List Cst) (h0 : l1 ≠ [])
    (h1 : ∀ c ∈ l1, c.WF ∧ c.Fits 64 ∧ c.ncols = n + 1) (h2 : ∀ c ∈ l2, c.WF ∧ c.Fits 64 ∧ c.ncols = n + 1) :
    intersectIsl ops l1 l2 ≠ [] ∧ ∀ c ∈ intersectIsl ops l1 l2, c.WF := by
  obtain ⟨a1, -⟩ := setFromCst_ok ops ho n l1 h1
  obtain ⟨b1, -⟩ := setFromCst_ok ops ho n l2 h2
  obtain ⟨u1, -⟩ := ho.intersect n _ _ a1 b1
  obtain ⟨k1, k2⟩ := islSetToCst_wf ((l1.head?.map (·.ncols)).getD 0)
    (by obtain ⟨c, l, rfl⟩ := List.exists_cons_of_ne_nil h0; simp [(h1 c List.mem_cons_self).2.2])
    ((ops.intersect (setFromCst ops l1) (setFromCst ops l2)).map (bsetToCst ops)) (fun c hc => by
      obtain ⟨b, hb, rfl⟩ := List.mem_map.mp hc
      exact (C59_to_set ops ho b (u1 b hb).1).1)
  unfold intersectIsl
  rw [C59_copy l1 (intersectionIsl ops l1 l2) h0 k1]
  exact ⟨k1, k2⟩

theorem namesIn_ok (n : Nat) (ns : List String) (h : ns.length = n) (rest : Lines) :
    namesIn n (dataLines [.data (ns.map .name)] ++ rest) = some (ns, rest) := by
  subst h
  unfold namesIn
  cases ns with
  | nil => rfl
  | cons a ns =>
    have := names_map (a :: ns)
    simp only [List.map_cons] at this
    simp [dataLines, this]

/-- C63. The file that `pluto_gen_cloog_file` writes is a correct input file of CLooG, and stands for the program:
its context is the intersection of the parameter context and the code generation context, its instances
are those of the statements, and the scattering gives every instance its time stamp and no other time. -/
theorem C63_file (ops : IslOps) (ho : ops.OK) (p : Prog) (hok : p.OK) (params : List String) (hn : params.length = p.npar)
    (pctx cctx : List Cst) (h0 : pctx ≠ [])
    (h1 : ∀ c ∈ pctx, c.WF ∧ c.Fits 64 ∧ c.ncols = p.npar + 1) (h2 : ∀ c ∈ cctx, c.WF ∧ c.Fits 64 ∧ c.ncols = p.npar + 1)
    (texts : Nat → List Line) (ht : ∀ i, texts i = []) :
    ∃ inp, readCloog p.npar p.hProps.length (genCloogFile ops params pctx cctx texts p) = some inp ∧ inp.params = params ∧
      (∀ q, q.length = p.npar → (inp.Context q ↔ SatUnion pctx q ∧ SatUnion cctx q)) ∧ inp.doms.length = p.stmts.length ∧
      ∀ i st, p.stmts[i]? = some st → ∀ x q, x.length = st.dim → q.length = p.npar →
        (inp.Runs q i x ↔ st.domain.Sat (x ++ q)) ∧ ∀ t, inp.At q i x t ↔ t = p.timestamp i x q := by
  obtain ⟨k1, k2⟩ := intersectIsl_wf ops ho p.npar pctx cctx h0 h1 h2
  have hctx := C59_intersect ops ho p.npar pctx cctx h0 h1 h2
  set ctx := intersectIsl ops pctx cctx with hc
  have hsw : ∀ st ∈ p.stmts, (stmtGetSchedule st.domain.ncols st.trans).WF := fun st hst =>
    (stmtGetSchedule_wf st.trans st.domain.ncols (hok.stmts st hst).wf.1 (by rw [(hok.stmts st hst).cols]; exact (hok.stmts st hst).trans)).1
  have hdw : ∀ st ∈ p.stmts, st.domain.WF := fun st hst => (hok.stmts st hst).wf
  have ht' : ∀ i, dataLines (texts i) = [] := fun i => by rw [ht i]; rfl
  have first : ∀ rest : List Line, dataLines ([Line.comment, .comment, .data [.name "c"], .data []] ++ unionLines ctx ++
      [.data [], .data [.num 1], .data (params.map .name), .data []] ++ [.comment, .data [.num p.stmts.length], .data []] ++
      (p.stmts.mapIdx (fun i st => domainLines st (texts i))).flatten ++ [.comment, .data [.num 0], .data [], .comment] ++ rest) =
      [.name "c"] :: (dataLines (unionLines ctx) ++ ([.num 1] :: (dataLines [.data (params.map .name)] ++ ([.num p.stmts.length] ::
      (dataLines (p.stmts.mapIdx (fun i st => domainLines st (texts i))).flatten ++ ([.num 0] :: dataLines rest)))))) := by
    intro rest
    simp only [dataLines_append, dataLines, List.append_assoc, List.cons_append, List.nil_append]
    congr 4
    rw [← List.singleton_append, dataLines_append]
    simp only [dataLines, dataLines_append]
  cases hs : p.stmts with
  | nil =>
    refine ⟨⟨ctx.map polyOf, params, [], [], []⟩, ?_, rfl, fun q hq => ?_, rfl, by simp⟩
    · unfold readCloog genCloogFile
      rw [← hc, hs]
      rw [hs] at first
      simp only [first]
      rw [unionIn_ok ctx k1 k2]
      simp only [Option.bind_eq_bind, Option.bind_some]
      rw [namesIn_ok _ _ hn]
      simp [dataLines, domainsIn, scatLines]
    · unfold CloogInput.Context
      rw [inUnion_iff, hctx q hq]
  | cons s0 sts =>
    have hs0 : s0 ∈ p.stmts := by rw [hs]; exact List.mem_cons_self
    have hlen : s0.trans.length = p.hProps.length := hok.levels s0 hs0
    have hread : readCloog p.npar p.hProps.length (genCloogFile ops params pctx cctx texts p) =
        some ⟨ctx.map polyOf, params, p.stmts.map (fun st => [polyOf st.domain]),
          p.stmts.map (fun st => [polyOf (stmtGetSchedule st.domain.ncols st.trans)]), (List.range p.hProps.length).map (fun i => s!"t{i + 1}")⟩ := by
      unfold readCloog genCloogFile
      rw [← hc]
      have hpos : (0 : Int) < p.stmts.length := by rw [hs]; simp
      have hR' : dataLines (scatLines p.stmts) = [.num p.stmts.length] :: (dataLines (p.stmts.flatMap schedLines) ++ ([.num p.hProps.length] ::
          dataLines [.data (((List.range p.hProps.length).map (fun i => s!"t{i + 1}")).map .name)])) := by
        rw [hs]
        simp only [scatLines, dataLines_append, dataLines, List.cons_append, List.nil_append, hlen, List.map_map]
        rfl
      rw [first, hR']
      simp only
      rw [unionIn_ok ctx k1 k2]
      simp only [Option.bind_eq_bind, Option.bind_some]
      rw [namesIn_ok _ _ hn]
      simp only [Option.bind_some]
      rw [if_neg (by omega), Int.toNat_natCast, domainsIn_ok _ _ ht' hdw]
      simp only [Option.bind_some]
      rw [if_neg (by omega), if_neg (by omega), Int.toNat_natCast, scatsIn_ok _ hsw]
      simp only [Option.bind_some]
      by_cases hz : p.hProps.length = 0
      · simp [hz, dataLines]
      · rw [if_neg (by omega), ← List.append_nil (dataLines _), namesIn_ok _ _ (by simp)]
        simp
    refine ⟨_, hread, rfl, fun q hq => ?_, by simp [hs], fun i st hst x q hx hq => ⟨?_, fun t => ?_⟩⟩
    · unfold CloogInput.Context
      rw [inUnion_iff, hctx q hq]
    · rw [← hs] at hst
      unfold CloogInput.Runs
      simp only [List.getElem?_map, hst, Option.map_some, Option.some.injEq, exists_eq_left']
      have := inUnion_iff [st.domain] (x ++ q)
      simpa [SatUnion] using this
    · rw [← hs] at hst
      have hm := List.mem_of_getElem? hst
      unfold CloogInput.At
      simp only [List.getElem?_map, hst, Option.map_some, Option.some.injEq, exists_eq_left', List.length_map, List.length_range]
      have e1 := inUnion_iff [stmtGetSchedule st.domain.ncols st.trans] (t ++ x ++ q)
      simp only [List.map_cons, List.map_nil, SatUnion, List.mem_singleton, exists_eq_left] at e1
      rw [e1]
      unfold Prog.timestamp
      simp only [hst, Option.map_some, Option.getD_some]
      constructor
      · rintro ⟨a, b⟩
        exact (C33_schedule st.trans st.domain.ncols (by rw [(hok.stmts st hm).cols]; exact (hok.stmts st hm).trans) t (x ++ q)
          (by rw [a, hok.levels st hm]) (by rw [(hok.stmts st hm).cols, List.length_append, hx, hq])).mp (by rwa [← List.append_assoc])
      · intro e
        have hl : t.length = st.trans.length := by rw [e]; simp
        refine ⟨by rw [hl, hok.levels st hm], ?_⟩
        rw [List.append_assoc]
        exact (C33_schedule st.trans st.domain.ncols (by rw [(hok.stmts st hm).cols]; exact (hok.stmts st hm).trans) t (x ++ q)
          hl (by rw [(hok.stmts st hm).cols, List.length_append, hx, hq])).mpr e

theorem lexBefore_irrefl (a : List Int) : ¬ LexBefore a a := by
  rintro ⟨l, x, y, h1, h2, h3, -⟩
  rw [h1] at h2
  cases h2
  omega

/-- C63. Code that CLooG generates from the file runs dependent instances in order: for parameters in the context,
if `t` of statement `d.dest` depends on `s` of statement `d.src`, then `s` is run before `t`, each of them once. -/
theorem C63_order (ops : IslOps) (ho : ops.OK) (p : Prog) (hok : p.OK) (hleg : p.Legal) (params : List String) (hn : params.length = p.npar)
    (pctx cctx : List Cst) (h0 : pctx ≠ [])
    (h1 : ∀ c ∈ pctx, c.WF ∧ c.Fits 64 ∧ c.ncols = p.npar + 1) (h2 : ∀ c ∈ cctx, c.WF ∧ c.Fits 64 ∧ c.ncols = p.npar + 1)
    (texts : Nat → List Line) (ht : ∀ i, texts i = []) (inp : CloogInput)
    (hin : readCloog p.npar p.hProps.length (genCloogFile ops params pctx cctx texts p) = some inp)
    (q : List Int) (hq : q.length = p.npar) (run : List (Nat × List Int)) (hr : Generated inp p.dim q run) :
    run.Nodup ∧ (∀ i x, (i, x) ∈ run ↔ ∃ st, p.stmts[i]? = some st ∧ x.length = st.dim ∧ st.domain.Sat (x ++ q)) ∧
    ∀ d ∈ p.deps, d.rar = false → ∀ s t, p.Inst d s t q → (d.src, s) ∈ run → (d.dest, t) ∈ run → ComesBefore run (d.src, s) (d.dest, t) := by
  obtain ⟨inp', k1, -, -, k2, k3⟩ := C63_file ops ho p hok params hn pctx cctx h0 h1 h2 texts ht
  rw [hin] at k1
  cases k1
  have hmem : ∀ i x, (i, x) ∈ run ↔ ∃ st, p.stmts[i]? = some st ∧ x.length = st.dim ∧ st.domain.Sat (x ++ q) := by
    intro i x
    rw [hr.all]
    constructor
    · rintro ⟨a, b⟩
      obtain ⟨u, hu, -⟩ := id b
      have hi : i < p.stmts.length := by rw [← k2]; exact (List.getElem?_eq_some_iff.mp hu).1
      have hst := List.getElem?_eq_getElem hi
      have hx : x.length = (p.stmts[i]).dim := by rw [a]; simp [Prog.dim, hst]
      exact ⟨_, hst, hx, ((k3 i _ hst x q hx hq).1).mp b⟩
    · rintro ⟨st, hst, hx, b⟩
      exact ⟨by rw [hx]; simp [Prog.dim, hst], ((k3 i _ hst x q hx hq).1).mpr b⟩
  refine ⟨hr.once, hmem, fun d hd hrar s t hI hs ht => ?_⟩
  obtain ⟨w1, w2, w3, w4⟩ := hI
  have hlex := hleg d hd hrar s t q w1 w2 w3 w4
  obtain ⟨i, hi, ei⟩ := List.getElem_of_mem hs
  obtain ⟨j, hj, ej⟩ := List.getElem_of_mem ht
  refine ⟨i, j, ?_, by rw [← ei]; exact List.getElem?_eq_getElem hi, by rw [← ej]; exact List.getElem?_eq_getElem hj⟩
  obtain ⟨ss, a1, a2, -⟩ := (hmem _ _).mp hs
  obtain ⟨st, b1, b2, -⟩ := (hmem _ _).mp ht
  rcases Nat.lt_trichotomy i j with h | h | h
  · exact h
  · subst h
    rw [ei] at ej
    obtain ⟨e1, e2⟩ := Prod.mk.inj ej
    rw [e1, e2] at hlex
    exact absurd hlex (lexBefore_irrefl _)
  · exfalso
    have := List.pairwise_iff_getElem.mp hr.order j i hj hi h
    rw [ei, ej] at this
    exact this _ _ (((k3 _ _ b1 t q b2 hq).2 _).mpr rfl) (((k3 _ _ a1 s q a2 hq).2 _).mpr rfl) hlex

/-- The iterators of the source program: the last ones (those of tiles are put in front). -/
def origPart (p0 : Prog) (a : Nat × List Int) : Nat × List Int := (a.1, a.2.drop (a.2.length - p0.dim a.1))

/-- C63, in terms of the program that was transformed: the generated code runs every instance of `p0` once, nothing
else, and dependent ones in order. -/
theorem C63_transformed (ops : IslOps) (ho : ops.OK) (p0 p : Prog) (T : Nat → List Int → List Int → List Int) (hS : SameRuns p0 p T)
    (hok : p.OK) (hord : ∀ d ∈ p0.deps, d.rar = false → ∀ s t q, p0.Inst d s t q →
        LexBefore (p.timestamp d.src (T d.src s q ++ s) q) (p.timestamp d.dest (T d.dest t q ++ t) q))
    (params : List String) (hn : params.length = p.npar) (pctx cctx : List Cst) (h0 : pctx ≠ [])
    (h1 : ∀ c ∈ pctx, c.WF ∧ c.Fits 64 ∧ c.ncols = p.npar + 1) (h2 : ∀ c ∈ cctx, c.WF ∧ c.Fits 64 ∧ c.ncols = p.npar + 1)
    (texts : Nat → List Line) (ht : ∀ i, texts i = []) (inp : CloogInput)
    (hin : readCloog p.npar p.hProps.length (genCloogFile ops params pctx cctx texts p) = some inp)
    (q : List Int) (hq : q.length = p.npar) (run : List (Nat × List Int)) (hr : Generated inp p.dim q run) :
    (run.map (origPart p0)).Nodup ∧
    (∀ i x, (i, x) ∈ run.map (origPart p0) ↔ ∃ st, p0.stmts[i]? = some st ∧ x.length = st.dim ∧ st.domain.Sat (x ++ q)) ∧
    ∀ d ∈ p0.deps, d.rar = false → ∀ s t, p0.Inst d s t q → (d.src, s) ∈ run.map (origPart p0) → (d.dest, t) ∈ run.map (origPart p0) →
      ComesBefore (run.map (origPart p0)) (d.src, s) (d.dest, t) := by
  obtain ⟨inp', k1, -, -, k2, k3⟩ := C63_file ops ho p hok params hn pctx cctx h0 h1 h2 texts ht
  rw [hin] at k1
  cases k1
  have hq0 : q.length = p0.npar := by rw [hq, hS.npar]
  have hdim : ∀ (P : Prog) (i : Nat) (st : Stmt), P.stmts[i]? = some st → P.dim i = st.dim := fun P i st h => by simp [Prog.dim, h]
  -- what the code runs
  have hrun : ∀ i x', (i, x') ∈ run ↔ ∃ st x, p0.stmts[i]? = some st ∧ x.length = st.dim ∧ st.domain.Sat (x ++ q) ∧ x' = T i x q ++ x := by
    intro i x'
    rw [hr.all]
    constructor
    · rintro ⟨a, b⟩
      obtain ⟨u, hu, -⟩ := id b
      have hi : i < p.stmts.length := by rw [← k2]; exact (List.getElem?_eq_some_iff.mp hu).1
      have hst := List.getElem?_eq_getElem hi
      have hi0 : i < p0.stmts.length := by rw [← hS.len]; exact hi
      have hst0 := List.getElem?_eq_getElem hi0
      have hx : x'.length = (p.stmts[i]).dim := by rw [a, hdim p i _ hst]
      obtain ⟨x, e1, e2, e3⟩ := (hS.stmts i _ _ hst0 hst x' q hx hq0).mp (((k3 i _ hst x' q hx hq).1).mp b)
      exact ⟨_, x, hst0, e1, e2, e3⟩
    · rintro ⟨st0, x, hst0, hx, hsat, rfl⟩
      have hi : i < p.stmts.length := by rw [hS.len]; exact (List.getElem?_eq_some_iff.mp hst0).1
      have hst := List.getElem?_eq_getElem hi
      have hl : (T i x q ++ x).length = (p.stmts[i]).dim := by
        rw [List.length_append, hS.coords i x q (by rw [hx, hdim p0 i _ hst0]), hdim p i _ hst]
      refine ⟨by rw [hl, hdim p i _ hst], ((k3 i _ hst _ q hl hq).1).mpr ?_⟩
      exact (hS.stmts i _ _ hst0 hst _ q hl hq0).mpr ⟨x, hx, hsat, rfl⟩
  have horig : ∀ i st x, p0.stmts[i]? = some st → x.length = st.dim → origPart p0 (i, T i x q ++ x) = (i, x) := by
    intro i st x hst hx
    unfold origPart
    rw [hdim p0 i st hst, List.length_append, hx, Nat.add_sub_cancel, List.drop_left]
  have hmem : ∀ i x, (i, x) ∈ run.map (origPart p0) ↔ ∃ st, p0.stmts[i]? = some st ∧ x.length = st.dim ∧ st.domain.Sat (x ++ q) := by
    intro i x
    rw [List.mem_map]
    constructor
    · rintro ⟨⟨j, x'⟩, a, b⟩
      obtain ⟨st, y, e1, e2, e3, rfl⟩ := (hrun j x').mp a
      rw [horig j st y e1 e2] at b
      cases b
      exact ⟨st, e1, e2, e3⟩
    · rintro ⟨st, e1, e2, e3⟩
      exact ⟨(i, T i x q ++ x), (hrun _ _).mpr ⟨st, x, e1, e2, e3, rfl⟩, horig i st x e1 e2⟩
  have hnd : (run.map (origPart p0)).Nodup := by
    refine List.Nodup.map_on ?_ hr.once
    rintro ⟨i, x⟩ ha ⟨j, y⟩ hb e
    obtain ⟨st, x0, a1, a2, a3, rfl⟩ := (hrun i x).mp ha
    obtain ⟨st', y0, b1, b2, b3, rfl⟩ := (hrun j y).mp hb
    rw [horig i st x0 a1 a2, horig j st' y0 b1 b2] at e
    obtain ⟨rfl, rfl⟩ := Prod.mk.inj e
    rfl
  refine ⟨hnd, hmem, fun d hd hrar s t hI hs ht => ?_⟩
  have hlex := hord d hd hrar s t q hI
  obtain ⟨i, hi, ei⟩ := List.getElem_of_mem hs
  obtain ⟨j, hj, ej⟩ := List.getElem_of_mem ht
  refine ⟨i, j, ?_, by rw [← ei]; exact List.getElem?_eq_getElem hi, by rw [← ej]; exact List.getElem?_eq_getElem hj⟩
  rw [List.length_map] at hi hj
  have back : ∀ (k : Nat) (hk : k < run.length) (a : Nat) (x : List Int), (run.map (origPart p0))[k]'(by simpa using hk) = (a, x) →
      run[k] = (a, T a x q ++ x) ∧ ∀ u, inp.At q a (T a x q ++ x) u ↔ u = p.timestamp a (T a x q ++ x) q := by
    intro k hk a x e
    rw [List.getElem_map] at e
    have hm : (run[k].1, run[k].2) ∈ run := List.getElem_mem hk
    obtain ⟨st, y, e1, e2, e3, e4⟩ := (hrun _ _).mp hm
    have e5 : run[k] = (run[k].1, T run[k].1 y q ++ y) := Prod.ext rfl e4
    rw [e5, horig _ st y e1 e2] at e
    obtain ⟨f1, f2⟩ := Prod.mk.inj e
    rw [f1, f2] at e5
    rw [f1] at e1
    rw [f2] at e2
    refine ⟨e5, ?_⟩
    have hi : a < p.stmts.length := by rw [hS.len]; exact (List.getElem?_eq_some_iff.mp e1).1
    have hst := List.getElem?_eq_getElem hi
    have hl : (T a x q ++ x).length = (p.stmts[a]).dim := by
      rw [List.length_append, hS.coords a x q (by rw [e2, hdim p0 a _ e1]), hdim p a _ hst]
    exact fun u => (k3 a _ hst _ q hl hq).2 u
  obtain ⟨a1, a2⟩ := back i hi _ _ ei
  obtain ⟨b1, b2⟩ := back j hj _ _ ej
  rcases Nat.lt_trichotomy i j with h | h | h
  · exact h
  · subst h
    rw [ei] at ej
    obtain ⟨e1, e2⟩ := Prod.mk.inj ej
    rw [e1, e2] at hlex
    exact absurd hlex (lexBefore_irrefl _)
  · exfalso
    have := List.pairwise_iff_getElem.mp hr.order j i hj hi h
    rw [a1, b1] at this
    exact this _ _ ((b2 _).mpr rfl) ((a2 _).mpr rfl) hlex

/-- C63, from the program to the code. If the automatic transformation succeeds, then for parameters in the context
the code generated from the file that the tool writes runs every instance of the program once, nothing
else, and dependent ones in order (with and without tiling and wavefronts).
Missing: as for `C52_schedule_partial`; statements whose text has several lines (`C63_violated_text`). -/
theorem C63_tool_partial (ops : IslOps) (ho : ops.OK)
    (ao : AutoOpts) (L : Libs) (hE : EmptyOracle L.isEmpty) (hL : FeasibleOracle L.solve) (fuel : Nat) (d0 : DfsState)
    (best : Prog → List Loop → Option Loop) (hbest : ∀ p ls L, best p ls = some L → L ∈ ls) (o : TileOpts) (hip : o.innerpar = false)
    (tile : Bool) (sizes sizes2 : Nat → Nat → Int) (hz : ∀ n m, 1 ≤ sizes n m) (hz2 : ∀ n m, 1 ≤ sizes2 n m)
    (p0 : Prog) (hp : p0.InputOK) (hea : EagerAuto ao L noDiamond fuel d0 p0)
    (p : Prog) (h : autoTransform ao L noDiamond fuel d0 p0 = some (.success p))
    (hU : Uniform p 0 p.hProps.length (List.range p.stmts.length))
    (hfw : o.parallel = true → tile = true → ∀ p1 bands, recompute L.isEmpty p = some p1 → tileBands p1 = some bands → LoopBands p1 bands)
    (hfw' : o.parallel = true → tile = false → ∀ p1 bands, beforeWave L.isEmpty best o false sizes sizes2 p = some p1 →
      outermostBands p1 = some bands → LoopBands p1 bands)
    (params : List String) (hn : params.length = p0.npar) (pctx cctx : List Cst) (h0 : pctx ≠ [])
    (h1 : ∀ c ∈ pctx, c.WF ∧ c.Fits 64 ∧ c.ncols = p0.npar + 1) (h2 : ∀ c ∈ cctx, c.WF ∧ c.Fits 64 ∧ c.ncols = p0.npar + 1)
    (texts : Nat → List Line) (ht : ∀ i, texts i = []) :
    ∃ p' inp, scheduleProg ao L noDiamond fuel d0 best o tile false sizes sizes2 p0 = some (.success p') ∧
      readCloog p0.npar p'.hProps.length (genCloogFile ops params pctx cctx texts p') = some inp ∧
      (∀ q, q.length = p0.npar → (inp.Context q ↔ SatUnion pctx q ∧ SatUnion cctx q)) ∧
      ∀ q, q.length = p0.npar → ∀ run, Generated inp p'.dim q run →
        (run.map (origPart p0)).Nodup ∧
        (∀ i x, (i, x) ∈ run.map (origPart p0) ↔ ∃ st, p0.stmts[i]? = some st ∧ x.length = st.dim ∧ st.domain.Sat (x ++ q)) ∧
        ∀ d ∈ p0.deps, d.rar = false → ∀ s t, p0.Inst d s t q → (d.src, s) ∈ run.map (origPart p0) → (d.dest, t) ∈ run.map (origPart p0) →
          ComesBefore (run.map (origPart p0)) (d.src, s) (d.dest, t) := by
  obtain ⟨k1, k2, k3⟩ := C10_shape ao L hE hL fuel d0 p0 p hp h
  have k4 := C10_stepwise ao L hE hL fuel d0 p0 p hp hea h
  obtain ⟨_, _, r1, r2⟩ := C10_legal_partial ao L hE hL fuel d0 p0 p hp h
  obtain ⟨p', T, a1, a2, a3, a4, _⟩ := C52_post_partial L.isEmpty hE best hbest o hip tile false sizes sizes2 hz hz2 p k1 k4 k2 hU k3 hfw
    (fun a b _ => hfw' a b)
  have hS := (restored_sameRuns (auto_npar hE hL hp h) r1 r2).trans a4
  rw [← hS.npar] at hn h1 h2 ⊢
  obtain ⟨inp, b1, -, b2, -, -⟩ := C63_file ops ho p' a2 params hn pctx cctx h0 h1 h2 texts ht
  refine ⟨p', inp, ?_, b1, b2, fun q hq run hr => ?_⟩
  · unfold scheduleProg
    simp [h, a1]
  · exact C63_transformed ops ho p0 p' _ hS a2 (hS.inOrder a3) params hn pctx cctx h0 h1 h2 texts ht inp b1 q hq run hr

/-! ### Example: one statement `S(i)`, `0 <= i <= 2`, with `i` before `i + 1` -/

/-- `{ S[i] : 0 <= i <= 2 }`, identity schedule, dependence `i -> i + 1`. -/
def exGen : Prog where
  nvar := 1
  npar := 0
  stmts := [⟨1, 1, ⟨2, [⟨false, [1, 0]⟩, ⟨false, [-1, 2]⟩]⟩, [true], [[1, 0]], [.loop]⟩]
  deps := [⟨0, 0, false, ⟨3, [⟨true, [1, -1, 1]⟩, ⟨false, [1, 0, 0]⟩, ⟨false, [0, -1, 2]⟩]⟩, ⟨3, []⟩, true, 0, [true], [.plus]⟩]
  hProps := [.loop]

theorem exGen_ok : exGen.OK := by
  refine ⟨?_, by decide, ?_⟩
  · intro st hst
    simp only [exGen, List.mem_singleton] at hst
    subst hst
    exact ⟨by decide, rfl, by decide, rfl⟩
  · intro d hd
    simp only [exGen, List.mem_singleton] at hd
    subst hd
    exact ⟨by decide, by decide, by decide, rfl⟩

theorem exGen_legal : exGen.Legal := by
  intro d hd _ s t q hs ht hq h
  simp only [exGen, List.mem_singleton] at hd
  subst hd
  match s, t, q, hs, ht, hq with
  | [a], [b], [], _, _, _ =>
    simp [Cst.Sat, Row.Sat, aff, dot] at h
    exact ⟨0, a, b, by simp [Prog.timestamp, exGen, aff, dot], by simp [Prog.timestamp, exGen, aff, dot], by omega, by simp⟩

/-- The hypotheses of C63 are met by the example: the file can be read, code that runs `S(0); S(1); S(2);` is
generated code for it, and `S(0)` comes before `S(1)`. -/
example : ∃ inp, readCloog 0 1 (genCloogFile simpleOps [] [⟨1, []⟩] [⟨1, []⟩] (fun _ => []) exGen) = some inp ∧
    Generated inp exGen.dim [] [(0, [0]), (0, [1]), (0, [2])] ∧ exGen.Inst exGen.deps[0] [0] [1] [] ∧
    ComesBefore [((0 : Nat), [(0 : Int)]), (0, [1]), (0, [2])] (0, [0]) (0, [1]) := by
  have hc : ∀ c ∈ [(⟨1, []⟩ : Cst)], c.WF ∧ c.Fits 64 ∧ c.ncols = exGen.npar + 1 := by
    intro c hc
    rw [List.mem_singleton.mp hc]
    exact ⟨by decide, by simp [Cst.Fits], rfl⟩
  obtain ⟨inp, k1, -, -, k2, k3⟩ := C63_file simpleOps simpleOps_ok exGen exGen_ok [] rfl [⟨1, []⟩] [⟨1, []⟩] (by simp) hc hc (fun _ => [])
    (fun _ => rfl)
  have k3' := k3 0 _ rfl
  have hI : exGen.Inst exGen.deps[0] [0] [1] [] := ⟨rfl, rfl, rfl, by decide +kernel⟩
  have hG : Generated inp exGen.dim [] [(0, [0]), (0, [1]), (0, [2])] := by
    refine ⟨fun i x => ?_, by decide, ?_⟩
    · constructor
      · intro h
        simp only [List.mem_cons, List.not_mem_nil, or_false, Prod.mk.injEq] at h
        rcases h with ⟨rfl, rfl⟩ | ⟨rfl, rfl⟩ | ⟨rfl, rfl⟩ <;>
          exact ⟨rfl, ((k3' _ [] rfl rfl).1).mpr (by decide +kernel)⟩
      · rintro ⟨a, b⟩
        obtain ⟨u, hu, -⟩ := id b
        have hi : i < 1 := by
          have := (List.getElem?_eq_some_iff.mp hu).1
          rw [k2] at this
          exact this
        have : i = 0 := by omega
        subst this
        match x, a with
        | [v], _ =>
          have := ((k3' [v] [] rfl rfl).1).mp b
          simp [Cst.Sat, Row.Sat, aff, dot] at this
          have : v = 0 ∨ v = 1 ∨ v = 2 := by omega
          rcases this with rfl | rfl | rfl <;> simp
    · have ht : ∀ (v : Int) t, inp.At [] 0 [v] t ↔ t = [v] := by
        intro v t
        rw [(k3' [v] [] rfl rfl).2 t]
        simp [Prog.timestamp, exGen, aff, dot]
      have hl : ∀ a b : Int, a < b → ¬ LexBefore [b] [a] := by
        rintro a b hab ⟨l, x, y, h1, h2, h3, -⟩
        cases l with
        | zero => simp at h1 h2; omega
        | succ l => simp at h1
      refine List.Pairwise.cons ?_ (List.Pairwise.cons ?_ (List.Pairwise.cons (by simp) List.Pairwise.nil))
      · intro a ha t u
        simp only [List.mem_cons, List.not_mem_nil, or_false] at ha
        rcases ha with rfl | rfl <;>
        · rw [ht, ht]
          rintro rfl rfl
          exact hl _ _ (by omega)
      · intro a ha t u
        simp only [List.mem_cons, List.not_mem_nil, or_false] at ha
        subst ha
        rw [ht, ht]
        rintro rfl rfl
        exact hl _ _ (by omega)
  exact ⟨inp, k1, hG, hI, ((C63_order simpleOps simpleOps_ok exGen exGen_ok exGen_legal [] rfl [⟨1, []⟩] [⟨1, []⟩] (by simp) hc hc (fun _ => [])
    (fun _ => rfl) inp k1 [] rfl _ hG).2.2) exGen.deps[0] (by simp [exGen]) rfl [0] [1] hI (by simp [exGen]) (by simp [exGen])⟩

/-- C63 fails for a statement whose text has more than one line: the second line does not start with `#`, and the
file cannot be read. -/
theorem C63_violated_text : ∃ (p : Prog) (texts : Nat → List Line), p.OK ∧ p.Legal ∧ (∀ i, (texts i).length ≤ 1) ∧
    readCloog p.npar p.hProps.length (genCloogFile simpleOps [] [⟨1, []⟩] [⟨1, []⟩] texts p) = none := by
  refine ⟨exGen, fun _ => [.data [.name "+", .name "b[i];)"]], exGen_ok, exGen_legal, fun _ => by simp, ?_⟩
  decide +kernel

/-! ### Clauses -/

theorem splitComma_cons {w : List Char} (hw : ',' ∉ w) (s : List Char) : splitComma (w ++ ',' :: s) = w :: splitComma s := by
  induction w with
  | nil => simp [splitComma]
  | cons c w ih =>
    simp only [List.mem_cons, not_or] at hw
    simp only [List.cons_append, splitComma, if_neg (Ne.symm hw.1), ih hw.2]

theorem splitComma_last {w : List Char} (hw : ',' ∉ w) : splitComma w = [w] := by
  induction w with
  | nil => rfl
  | cons c w ih =>
    simp only [List.mem_cons, not_or] at hw
    simp only [splitComma, if_neg (Ne.symm hw.1), ih hw.2]

theorem repr_digit {k : Nat} {c : Char} (h : c ∈ (Nat.repr k).toList) : c.isDigit = true := by
  rw [Nat.toList_repr] at h
  exact Nat.isDigit_of_mem_toDigits (by decide) (by decide) h

theorem levelName_clean (k : Nat) : ',' ∉ levelName k ∧ (levelName k).filter (fun c => c != ' ') = levelName k := by
  unfold levelName
  constructor
  · intro h
    rcases List.mem_cons.mp h with h | h
    · exact absurd h (by decide)
    · exact absurd (repr_digit h) (by decide)
  · rw [List.filter_eq_self]
    intro c hc
    rcases List.mem_cons.mp hc with rfl | h
    · decide
    · simp only [bne_iff_ne, ne_eq]
      rintro rfl
      exact absurd (repr_digit h) (by decide)

theorem levelName_inj {a b : Nat} (h : levelName a = levelName b) : a = b := by
  unfold levelName at h
  obtain ⟨-, h⟩ := List.cons.inj h
  rw [Nat.toList_repr, Nat.toList_repr] at h
  have := congrArg (fun l => Nat.ofDigitChars 10 l 0) h
  simpa [Nat.ofDigitChars_ten_toDigits] using this

theorem commaLevels_split (w : List Char) (hw : ',' ∉ w) (ds : List Nat) : splitComma (w ++ commaLevels ds) = w :: ds.map levelName := by
  induction ds generalizing w with
  | nil => simp [commaLevels, splitComma_last hw]
  | cons d ds ih =>
    have : commaLevels (d :: ds) = ',' :: (levelName d ++ commaLevels ds) := by simp [commaLevels, levelName]
    rw [this, splitComma_cons hw, ih _ (levelName_clean d).1]
    rfl

theorem mem_innerLevels (p : Prog) (l : Loop) (k : Nat) :
    k ∈ innerLevels p l ↔ l.depth + 1 < k ∧ ∃ i ∈ l.stmts, ∃ st, p.stmts[i]? = some st ∧ k ≤ st.trans.length := by
  have key : ∀ (xs : List Nat) (a : Nat), 1 ≤ k → (k ≤ xs.foldl max a ↔ k ≤ a ∨ ∃ x ∈ xs, k ≤ x) := by
    intro xs
    induction xs with
    | nil => simp
    | cons x xs ih =>
      intro a hk
      rw [List.foldl_cons, ih _ hk, le_max_iff]
      simp [or_assoc]
  unfold innerLevels
  rw [List.mem_range'_1]
  constructor
  · rintro ⟨h1, h2⟩
    have hk : k ≤ maxDepth p l := by omega
    unfold maxDepth at hk
    rw [key _ _ (by omega)] at hk
    rcases hk with hk | ⟨x, hx, hk⟩
    · omega
    · simp only [List.mem_map, List.mem_filterMap] at hx
      obtain ⟨st, ⟨i, hi, hst⟩, rfl⟩ := hx
      exact ⟨by omega, i, hi, st, hst, hk⟩
  · rintro ⟨h1, i, hi, st, hst, hk⟩
    have : k ≤ maxDepth p l := by
      unfold maxDepth
      rw [key _ _ (by omega)]
      exact Or.inr ⟨_, List.mem_map.mpr ⟨st, List.mem_filterMap.mpr ⟨i, hi, hst⟩, rfl⟩, hk⟩
    omega

/-- C63, OpenMP. The private clause of a loop that `pluto_mark_parallel` marks names `lbv`, `ubv` and the iterators of
exactly the levels inside the loop (of its statements). -/
theorem C63_private (p : Prog) (l : Loop) (s : List Char) (h : markPrivate p l = some s) :
    clauseNames s = "lbv".toList :: "ubv".toList :: (innerLevels p l).map levelName ∧
    ∀ k, levelName k ∈ clauseNames s ↔ l.depth + 1 < k ∧ ∃ i ∈ l.stmts, ∃ st, p.stmts[i]? = some st ∧ k ≤ st.trans.length := by
  have e : clauseNames s = "lbv".toList :: "ubv".toList :: (innerLevels p l).map levelName := by
    unfold markPrivate at h
    simp only at h
    split_ifs at h
    cases h
    unfold clauseNames
    rw [show "lbv,ubv".toList = "lbv".toList ++ ',' :: "ubv".toList by decide, List.append_assoc, List.cons_append,
      splitComma_cons (by decide), commaLevels_split _ (by decide)]
    simp only [List.map_cons, List.map_map]
    refine congrArg₂ _ (by decide) (congrArg₂ _ (by decide) (List.map_congr_left fun k _ => (levelName_clean k).2))
  refine ⟨e, fun k => ?_⟩
  rw [e, ← mem_innerLevels]
  constructor
  · intro h
    rcases List.mem_cons.mp h with h | h
    · exact absurd (congrArg List.head? h) (by simp [levelName])
    · rcases List.mem_cons.mp h with h | h
      · exact absurd (congrArg List.head? h) (by simp [levelName])
      · obtain ⟨k', h1, h2⟩ := List.mem_map.mp h
        rwa [← levelName_inj h2]
  · intro h
    exact List.mem_cons_of_mem _ (List.mem_cons_of_mem _ (List.mem_map.mpr ⟨k, h, rfl⟩))

theorem levelsComma_split (d : Nat) (ds : List Nat) :
    splitComma (levelsComma (d :: ds)).dropLast = (d :: ds).map levelName := by
  induction ds generalizing d with
  | nil =>
    have : (levelsComma [d]).dropLast = levelName d := by simp [levelsComma, levelName, List.dropLast_cons_of_ne_nil]
    rw [this, splitComma_last (levelName_clean d).1]
    rfl
  | cons e ds ih =>
    have h : levelsComma (d :: e :: ds) = levelName d ++ ',' :: levelsComma (e :: ds) := by simp [levelsComma, levelName]
    have hne : levelsComma (e :: ds) ≠ [] := by simp [levelsComma]
    rw [h, List.dropLast_append_of_ne_nil (by simp), List.dropLast_cons_of_ne_nil hne, splitComma_cons (levelName_clean d).1, ih e]
    rfl

/-- C63. The private clause in the list of parallel loops that is attached to the scop names the iterators of exactly
the levels inside the loop, if there are no vector loops.
Missing: programs with vector loops, for which it is wrong (`C63_violated_private`). -/
theorem C63_private_list_partial (p : Prog) (l : Loop) (s : List Char) (h : listPrivate false p l = some s) (k : Nat) :
    levelName k ∈ clauseNames s ↔ l.depth + 1 < k ∧ ∃ i ∈ l.stmts, ∃ st, p.stmts[i]? = some st ∧ k ≤ st.trans.length := by
  rw [← mem_innerLevels]
  unfold listPrivate at h
  simp only [Bool.false_eq_true, if_false, List.nil_append] at h
  split_ifs at h
  cases h
  unfold clauseNames
  cases hds : innerLevels p l with
  | nil => simp [levelsComma, splitComma, levelName]
  | cons d ds =>
    rw [levelsComma_split, List.map_map]
    simp only [List.mem_map, Function.comp_apply, (levelName_clean _).2]
    constructor
    · rintro ⟨a, ha, e⟩
      rwa [← levelName_inj e]
    · exact fun hk => ⟨k, hk, rfl⟩

/-- A statement with `n` loops. -/
def exDeep (n : Nat) : Prog := ⟨n, 0, [⟨n, n, ⟨n + 1, []⟩, List.replicate n true, List.replicate n (List.replicate (n + 1) 0), List.replicate n .loop⟩], [], List.replicate n .loop⟩

/-- The strings of the clauses fit the arrays of 512 and 128 characters (with the final zero; the second string has a
comma more while it is built); when nothing is returned they would not fit. -/
theorem C63_private_fits (p : Prog) (l : Loop) :
    (∀ s, markPrivate p l = some s → s.length + 1 ≤ 512) ∧
    (markPrivate p l = none → 512 < ("lbv,ubv".toList ++ commaLevels (innerLevels p l)).length + 1) ∧
    (∀ s, listPrivate false p l = some s → innerLevels p l ≠ [] → s.length + 2 ≤ 128) ∧
    (listPrivate false p l = none → 128 < (levelsComma (innerLevels p l)).length + 1) := by
  unfold markPrivate listPrivate
  simp only [Bool.false_eq_true, if_false, List.nil_append]
  refine ⟨fun s h => ?_, fun h => ?_, fun s h hne => ?_, fun h => ?_⟩
  · split_ifs at h with h1
    rw [Option.some.injEq] at h
    rw [← h]; omega
  · split_ifs at h with h1
    omega
  · split_ifs at h with h1
    rw [Option.some.injEq] at h
    rw [← h, List.length_dropLast]
    have : 0 < (levelsComma (innerLevels p l)).length := by
      cases hl : innerLevels p l with
      | nil => exact absurd hl hne
      | cons a b => simp [levelsComma, levelName]
    omega
  · split_ifs at h with h1
    omega

/-- With vector loops the clause is wrong: there is no comma after `ubv`. For two nested loops, the outer one
parallel, the clause is `lbv, ubvt2`: neither `ubv` nor the inner iterator is private. -/
theorem C63_violated_private : ∃ (p : Prog) (l : Loop) (s : List Char), listPrivate true p l = some s ∧ 0 ∈ l.stmts ∧ l.depth = 0 ∧
    (∃ st, p.stmts[0]? = some st ∧ st.trans.length = 2) ∧ levelName 2 ∉ clauseNames s ∧ "ubv".toList ∉ clauseNames s :=
  ⟨exDeep 2, ⟨0, [0]⟩, "lbv, ubvt2".toList, by decide +kernel, by decide, rfl, ⟨_, rfl, rfl⟩, by decide +kernel, by decide +kernel⟩

/-- And the buffer of 128 bytes is too small for the outermost of 36 levels. -/
theorem C63_violated_overflow : listPrivate false (exDeep 36) ⟨0, [0]⟩ = none := by decide +kernel

/-- The clause of `pluto_mark_parallel` for the outer of three loops: `lbv,ubv,t2,t3`. -/
example : markPrivate (exDeep 3) ⟨0, [0]⟩ = some "lbv,ubv,t2,t3".toList ∧ listPrivate false (exDeep 3) ⟨0, [0]⟩ = some "t2,t3".toList := by
  decide +kernel

/-- C63, `.pragmas`. Every loop in the file written by `pluto_omp_parallelize` is parallel; it is the first parallel level
or, only with `--multipar`, the second. The iterators of outer levels are shared, all others are private. -/
theorem C63_pragmas (pv mp : Bool) (hyps : Nat) (par : Nat → Bool) :
    (ompParallelize pv mp hyps par).length = min (if mp then 2 else 1) ((List.range hyps).filter par).length ∧
    (ompParallelize pv mp hyps par).map (·.loop) = (((List.range hyps).filter par).take (if mp then 2 else 1)).map (· + 1) ∧
    ∀ g ∈ ompParallelize pv mp hyps par, ∃ l < hyps, par l = true ∧ g.loop = l + 1 ∧
      (∀ k < l, s!"t{k + 1}" ∈ g.shared) ∧ ∀ k < hyps, l ≤ k → s!"t{k + 1}" ∈ g.priv := by
  have key : ∀ (ls : List Nat) (n : Nat), n < (if mp then 2 else 1) →
      (ompLoop pv mp hyps par n ls).map (·.loop) = ((ls.filter par).take ((if mp then 2 else 1) - n)).map (· + 1) ∧
      ∀ g ∈ ompLoop pv mp hyps par n ls, ∃ m l, l ∈ ls ∧ par l = true ∧ g = pragma pv mp hyps m l := by
    intro ls
    induction ls with
    | nil => intro n hn; simp [ompLoop]
    | cons l ls ih =>
      intro n hn
      unfold ompLoop
      by_cases hp : par l = true
      · rw [if_pos hp, List.filter_cons_of_pos hp]
        by_cases hm : (mp && n + 1 != 2) = true
        · rw [if_pos hm]
          simp only [Bool.and_eq_true, bne_iff_ne, ne_eq] at hm
          rw [if_pos hm.1] at hn
          have hn0 : n = 0 := by omega
          subst hn0
          obtain ⟨a, b⟩ := ih 1 (by rw [if_pos hm.1]; omega)
          rw [if_pos hm.1] at a ⊢
          refine ⟨by simpa [pragma] using a, fun g hg => ?_⟩
          rcases List.mem_cons.mp hg with rfl | hg
          · exact ⟨0, l, List.mem_cons_self, hp, rfl⟩
          · obtain ⟨m, l', c1, c2, c3⟩ := b g hg
            exact ⟨m, l', List.mem_cons_of_mem _ c1, c2, c3⟩
        · rw [if_neg hm]
          have hl : (if mp then 2 else 1) - n = 1 := by
            cases mp with
            | false => simp at hn ⊢; omega
            | true => simp at hm hn ⊢; omega
          rw [hl]
          refine ⟨by simp [pragma], fun g hg => ?_⟩
          rw [List.mem_singleton.mp hg]
          exact ⟨n, l, List.mem_cons_self, hp, rfl⟩
      · rw [if_neg hp, List.filter_cons_of_neg hp]
        obtain ⟨a, b⟩ := ih n hn
        refine ⟨a, fun g hg => ?_⟩
        obtain ⟨m, l', c1, c2, c3⟩ := b g hg
        exact ⟨m, l', List.mem_cons_of_mem _ c1, c2, c3⟩
  obtain ⟨a, b⟩ := key (List.range hyps) 0 (by split_ifs <;> omega)
  refine ⟨?_, a, fun g hg => ?_⟩
  · have := congrArg List.length a
    unfold ompParallelize
    simpa using this
  · obtain ⟨m, l, c1, c2, rfl⟩ := b g hg
    refine ⟨l, List.mem_range.mp c1, c2, rfl, fun k hk => ?_, fun k hk hlk => ?_⟩
    · exact List.mem_append_left _ (List.mem_map.mpr ⟨k, List.mem_range.mpr hk, rfl⟩)
    · exact List.mem_append_right _ (List.mem_map.mpr ⟨k, by rw [List.mem_range'_1]; omega, rfl⟩)

example : ompParallelize true false 3 (fun l => l != 0) = [⟨2, ["t1", "lb1", "ub1"], ["ubv", "lbv", "t2", "t3"]⟩] := by decide +kernel

/-- C63, `-fs`. If a statement has a loop below its tile loops, then the level from which CLooG is told to optimize
is the outermost such level. -/
theorem C63_first_point (p : Prog) (st : Stmt) (hl : st.trans.length = p.hProps.length) (last : Int) (hlast : -1 ≤ last) (k : Nat)
    (hk : last < k) (hk' : k < st.trans.length) (hloop : st.hypTypes[k]? = some .loop) :
    let i := firstPointLoop p st last
    last < i ∧ i ≤ k ∧ st.hypTypes[i]? = some .loop ∧ ∀ j : Nat, last < j → j < i → st.hypTypes[j]? ≠ some .loop := by
  unfold firstPointLoop
  simp only
  have hmem : k ∈ List.range' (last + 1).toNat (st.trans.length - (last + 1).toNat) := by
    rw [List.mem_range'_1]; omega
  cases hf : (List.range' (last + 1).toNat (st.trans.length - (last + 1).toNat)).find? (fun i => st.hypTypes[i]? == some .loop) with
  | none =>
    have := List.find?_eq_none.mp hf k hmem
    simp [hloop] at this
  | some i =>
    have h1 := List.mem_of_find?_eq_some hf
    have h2 := List.find?_some hf
    rw [List.mem_range'_1] at h1
    simp only
    rw [if_pos (by omega)]
    rw [List.find?_eq_some_iff_getElem] at hf
    obtain ⟨-, n, hn, e, hbefore⟩ := hf
    rw [List.getElem_range'] at e
    have hall : ∀ j : Nat, last < j → j < i → st.hypTypes[j]? ≠ some .loop := by
      intro j hj1 hj2 hc
      have hlt : j - (last + 1).toNat < n := by omega
      have := hbefore (j - (last + 1).toNat) hlt
      rw [List.getElem_range'] at this
      rw [show (last + 1).toNat + 1 * (j - (last + 1).toNat) = j by omega, hc] at this
      simp at this
    refine ⟨by omega, ?_, by simpa using h2, hall⟩
    by_contra hki
    exact hall k hk (by omega) hloop

example : firstPointLoop (exDeep 4) ⟨4, 2, ⟨5, []⟩, [true, true, true, true], List.replicate 4 [], [.tileSpaceLoop, .tileSpaceLoop, .loop, .loop]⟩ 1 = 2 := by
  decide +kernel

/-- C54, marking. Every loop that `pluto_mark_unroll_jam` marks is a loop of the AST, and unroll-jam of it keeps all
dependences of its statements.
Missing: as for `C54_jam_partial`. -/
theorem C54_mark_partial (p : Prog) (hok : p.OK) (hleg : p.Legal) (hi : p.Info) (want : Loop → Bool) (ast ms : List AstLoop)
    (h : markUnrollJam p want ast = some ms) (hc : Complete p (List.range p.stmts.length)) (hn : ∀ stmts, NonnegToScalar p stmts)
    (e : Nat) (a : AstLoop) (ha : a ∈ ms) (hae : a.depth < e)
    (he : ∀ bands, innermostBands p 1 = some bands → ∀ b ∈ bands, e ≤ b.loop.depth + b.width) (u : Int) (hu : 0 < u) :
    a ∈ ast ∧ JamLegal p a.stmts a.depth e u := by
  unfold markUnrollJam at h
  obtain ⟨ls, h1, h2⟩ := Option.bind_eq_some_iff.mp h
  cases h2
  obtain ⟨xs, hx, hax⟩ := List.mem_flatten.mp ha
  obtain ⟨L, hL, rfl⟩ := List.mem_map.mp hx
  obtain ⟨y1, y2, y3⟩ := mem_clastFilter.mp hax
  obtain ⟨-, k⟩ := C54_jam_partial p hok hleg hi want ls h1 L hL hc hn e (by omega) (fun bands hb b hbb _ => he bands hb b hbb) u hu
  refine ⟨y1, ?_⟩
  intro d hd hr hs ht
  rw [y2]
  exact k d hd hr (y3 _ hs) (y3 _ ht)

/-- With the loops of the example for tiling in the AST, both outer loops are marked (the other hypotheses are as
for `C54_jam_partial`). -/
example : markUnrollJam exTile (fun _ => true) [⟨1, [0]⟩, ⟨1, [1]⟩, ⟨2, [0]⟩, ⟨2, [1]⟩] = some [⟨1, [0]⟩, ⟨1, [1]⟩] := by decide +kernel

end Pluto
