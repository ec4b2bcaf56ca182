import Verif.Model.ProgEdit
import Verif.Spec.ProgEdit
import Verif.Lemmas.Permute
import Verif.Lemmas.AutoEnd
import Verif.Spec.Tile
import Verif.Props.StmtEdit

/-! C73: adding a parameter, interchanging two levels, separating statements. -/

namespace Pluto

theorem mapM_eq_map {α β : Type} {f : α → Option β} {g : α → β} : ∀ {l : List α}, (∀ a ∈ l, f a = some (g a)) → l.mapM f = some (l.map g)
  | [], _ => rfl
  | a :: l, h => by
    rw [List.mapM_cons, h a (by simp), mapM_eq_map (fun b hb => h b (by simp [hb]))]
    rfl

theorem insert_param (x q : List Int) (pos : Nat) (v : Int) : x ++ q.insertIdx pos v = (x ++ q).insertIdx (x.length + pos) v := by
  induction x with
  | nil => simp
  | cons a x ih => simp only [List.cons_append, ih, List.length_cons]; rw [show x.length + 1 + pos = (x.length + pos) + 1 by omega, List.insertIdx_succ_cons]

theorem aff_param (r x q : List Int) (pos : Nat) (v : Int) (hr : r.length = x.length + q.length + 1) (hp : pos ≤ q.length) :
    aff (r.insertIdx (x.length + pos) 0) (x ++ q.insertIdx pos v) = aff r (x ++ q) := by
  rw [insert_param, aff_insertIdx _ _ _ _ (by rw [List.length_insertIdx_of_le_length (by omega), hr]; simp) (by simp; omega)]
  simp [List.getD_eq_getElem?_getD, List.getElem?_insertIdx_self, show x.length + pos ≤ r.length by omega]

theorem addParamDim_eq {npar pos : Nat} {c : Cst} (n : Nat) (h : c.ncols = n + npar + 1) (hp : pos ≤ npar) :
    addParamDim npar pos c = some (addDim c (n + pos)) := by
  unfold addParamDim
  rw [if_neg (by omega), show c.ncols - 1 - npar + pos = n + pos by omega]

/-- The statement after the edit. -/
def stWithParam (npar pos : Nat) (st : Stmt) : Stmt :=
  { st with domain := addDim st.domain (st.dim + pos), trans := st.trans.map (fun r => r.insertIdx (r.length - 1 - npar + pos) 0) }

/-- The dependence after the edit. -/
def depWithParam (npar pos : Nat) (d : Dep) : Dep := { d with dpoly := addDim d.dpoly (d.dpoly.ncols - 1 - npar + pos) }

theorem accsAddDim_eq {junk : Int} {ms : List Mat} {pos : Nat} (h : ∀ m ∈ ms, m.WF ∧ pos ≤ m.ncols) :
    accsAddDim junk ms pos = some (ms.map (fun m => ⟨m.ncols + 1, m.rows.map (fun r => r.insertIdx pos 0)⟩)) := by
  refine mapM_eq_map (fun m hm => ?_)
  rw [C45_add_col junk m pos (h m hm).1, if_pos (h m hm).2]

/-- C73. A new parameter at any position leaves everything as it was, whatever its value `v`: the domains, the times
of all instances, the subscripts of all accesses, the dependences, and both contexts; the names of the other
parameters keep their order. -/
theorem C73_param (junk : Int) (P : FullProg) (name : String) (pos : Nat) (hP : P.OK) (hpos : pos ≤ P.prog.npar) :
    ∃ P', progAddParam junk P name pos = some P' ∧ P'.OK ∧ P'.prog.npar = P.prog.npar + 1 ∧ P'.params = P.params.insertIdx pos name ∧
      P'.prog.stmts.length = P.prog.stmts.length ∧ P'.prog.deps.length = P.prog.deps.length ∧ P'.prog.hProps = P.prog.hProps ∧
      (∀ i, P'.prog.dim i = P.prog.dim i) ∧
      ∀ (q : List Int) (v : Int), q.length = P.prog.npar →
        (∀ (i : Nat) (x : List Int), x.length = P.prog.dim i → P'.prog.timestamp i x (q.insertIdx pos v) = P.prog.timestamp i x q) ∧
        (∀ (i : Nat) (st st' : Stmt) (x : List Int), P.prog.stmts[i]? = some st → P'.prog.stmts[i]? = some st' → x.length = st.dim →
          (st'.domain.Sat (x ++ q.insertIdx pos v) ↔ st.domain.Sat (x ++ q))) ∧
        (∀ (i k : Nat) (st : Stmt) (ms ms' : List Mat) (m m' : Mat) (x : List Int), P.prog.stmts[i]? = some st → P.accs[i]? = some ms →
          P'.accs[i]? = some ms' → ms[k]? = some m → ms'[k]? = some m' → x.length = st.dim →
          m'.apply (x ++ q.insertIdx pos v ++ [1]) = m.apply (x ++ q ++ [1])) ∧
        (∀ (k : Nat) (d d' : Dep), P.prog.deps[k]? = some d → P'.prog.deps[k]? = some d' →
          d'.src = d.src ∧ d'.dest = d.dest ∧ d'.rar = d.rar ∧ ∀ s t : List Int, s.length = P.prog.dim d.src → t.length = P.prog.dim d.dest →
            (d'.dpoly.Sat (s ++ t ++ q.insertIdx pos v) ↔ d.dpoly.Sat (s ++ t ++ q))) ∧
        (P'.paramCtx.Sat (q.insertIdx pos v) ↔ P.paramCtx.Sat q) ∧ (P'.codegenCtx.Sat (q.insertIdx pos v) ↔ P.codegenCtx.Sat q) := by
  obtain ⟨p, accs, pc, cc, params⟩ := P
  obtain ⟨hok, hal, hmat, hpw, hpn, hcw, hcn, hpar⟩ := hP
  simp only at *
  have e1 : p.stmts.mapM (stmtAddParam p.npar pos) = some (p.stmts.map (stWithParam p.npar pos)) := by
    refine mapM_eq_map (fun st hst => ?_)
    unfold stmtAddParam
    rw [addParamDim_eq _ (hok.stmts st hst).cols hpos]
    rfl
  have e3 : p.deps.mapM (depAddParam p.npar pos) = some (p.deps.map (depWithParam p.npar pos)) := by
    refine mapM_eq_map (fun d hd => ?_)
    unfold depAddParam depWithParam
    obtain ⟨-, -, hf⟩ := hok.deps d hd
    rw [addParamDim_eq _ hf.cols hpos, show d.dpoly.ncols - 1 - p.npar + pos = p.dim d.src + p.dim d.dest + pos by rw [hf.cols]; omega]
    rfl
  have e2 : (p.stmts.zip accs).mapM (accsAddParam junk pos) =
      some ((p.stmts.zip accs).map (fun y => y.2.map (fun m => ⟨m.ncols + 1, m.rows.map (fun r => r.insertIdx (y.1.dim + pos) 0)⟩))) := by
    refine mapM_eq_map (fun y hy => ?_)
    obtain ⟨i, hi⟩ := List.getElem?_of_mem hy
    obtain ⟨a, b⟩ := List.getElem?_zip_eq_some.mp hi
    refine accsAddDim_eq (fun m hm => ?_)
    obtain ⟨w, n⟩ := hmat i y.1 y.2 a b m hm
    exact ⟨w, by omega⟩
  have e4 := addParamDim_eq (pos := pos) 0 (show pc.ncols = 0 + p.npar + 1 by omega) hpos
  have e5 := addParamDim_eq (pos := pos) 0 (show cc.ncols = 0 + p.npar + 1 by omega) hpos
  rw [Nat.zero_add] at e4 e5
  have hdim : ∀ i, Prog.dim { p with npar := p.npar + 1, stmts := p.stmts.map (stWithParam p.npar pos), deps := p.deps.map (depWithParam p.npar pos) } i = p.dim i := by
    intro i
    simp only [Prog.dim, List.getElem?_map]
    cases p.stmts[i]? <;> rfl
  refine ⟨⟨{ p with npar := p.npar + 1, stmts := p.stmts.map (stWithParam p.npar pos), deps := p.deps.map (depWithParam p.npar pos) }, _, _, _, _⟩,
    by unfold progAddParam; simp only [e1, e2, e3, e4, e5]; rfl, ?_, rfl, rfl, by simp, by simp, rfl, hdim, ?_⟩
  · have sh : ∀ (c : Cst) (n : Nat), c.WF → c.ncols = n + p.npar + 1 → (addDim c (n + pos)).WF ∧ (addDim c (n + pos)).ncols = n + (p.npar + 1) + 1 := by
      intro c n hw hn
      obtain ⟨a, b, -⟩ := C27_add_dim_shape c (n + pos) hw (by omega)
      exact ⟨a, by rw [b, hn]; omega⟩
    refine ⟨⟨?_, ?_, ?_⟩, by simp [hal], ?_, ?_, ?_, ?_, ?_, ?_⟩
    · intro st' hst'
      obtain ⟨st, hst, rfl⟩ := List.mem_map.mp hst'
      have ho := hok.stmts st hst
      obtain ⟨a, b⟩ := sh st.domain st.dim ho.wf ho.cols
      refine ⟨a, b, fun r hr => ?_, by simp [stWithParam, ho.types]⟩
      simp only [stWithParam, List.mem_map] at hr ⊢
      obtain ⟨r0, h0, rfl⟩ := hr
      have := ho.trans r0 h0
      rw [List.length_insertIdx_of_le_length (by omega), this]
      omega
    · intro st' hst'
      obtain ⟨st, hst, rfl⟩ := List.mem_map.mp hst'
      simpa [stWithParam] using hok.levels st hst
    · intro d' hd'
      obtain ⟨d, hd, rfl⟩ := List.mem_map.mp hd'
      obtain ⟨a, b, hf⟩ := hok.deps d hd
      obtain ⟨w, n⟩ := sh d.dpoly _ hf.wf hf.cols
      have e : d.dpoly.ncols - 1 - p.npar + pos = p.dim d.src + p.dim d.dest + pos := by rw [hf.cols]; omega
      refine ⟨by simpa [depWithParam] using a, by simpa [depWithParam] using b, ⟨?_, ?_⟩⟩
      · show (addDim d.dpoly (d.dpoly.ncols - 1 - p.npar + pos)).WF
        rw [e]; exact w
      · show (addDim d.dpoly (d.dpoly.ncols - 1 - p.npar + pos)).ncols = _
        rw [e, n, hdim, hdim]
        rfl
    · intro i st' ms' h1 h2 m' hm'
      simp only [List.getElem?_map, Option.map_eq_some_iff] at h1 h2
      obtain ⟨st, h1, rfl⟩ := h1
      obtain ⟨⟨st2, ms⟩, h2, rfl⟩ := h2
      obtain ⟨a, b⟩ := List.getElem?_zip_eq_some.mp h2
      simp only at a b
      obtain rfl := Option.some.inj (h1.symm.trans a)
      obtain ⟨m, hm, rfl⟩ := List.mem_map.mp hm'
      obtain ⟨w, n⟩ := hmat i _ _ h1 b m hm
      refine ⟨fun r hr => ?_, by simp only [stWithParam]; omega⟩
      obtain ⟨r0, h0, rfl⟩ := List.mem_map.mp hr
      have := w r0 h0
      show (r0.insertIdx (st.dim + pos) 0).length = m.ncols + 1
      rw [List.length_insertIdx_of_le_length (by omega), this]
    · simpa using (sh pc 0 hpw (by omega)).1
    · simpa using (sh pc 0 hpw (by omega)).2
    · simpa using (sh cc 0 hcw (by omega)).1
    · simpa using (sh cc 0 hcw (by omega)).2
    · show (params.insertIdx pos name).length = p.npar + 1
      rw [List.length_insertIdx_of_le_length (by omega), hpar]
  intro q v hq
  refine ⟨?_, ?_, ?_, ?_, ?_, ?_⟩
  · intro i x hx
    simp only [Prog.timestamp, List.getElem?_map]
    cases hi : p.stmts[i]? with
    | none => rfl
    | some st =>
      simp only [Option.map_some, Option.getD_some, stWithParam, List.map_map]
      apply List.map_congr_left
      intro r hr
      have hl := (hok.stmts st (List.mem_of_getElem? hi)).trans r hr
      have hxd : x.length = st.dim := by rw [hx]; simp [Prog.dim, hi]
      simp only [Function.comp_apply]
      rw [show r.length - 1 - p.npar + pos = x.length + pos by omega]
      exact aff_param r x q pos v (by omega) (by omega)
  · intro i st st' x h1 h2 hx
    simp only [List.getElem?_map, h1, Option.map_some, Option.some.injEq] at h2
    subst h2
    have ho := hok.stmts st (List.mem_of_getElem? h1)
    rw [insert_param, hx]
    exact C27_add_dim st.domain (st.dim + pos) (x ++ q) v ho.wf (by rw [List.length_append, ho.cols]; omega) (by rw [List.length_append]; omega)
  · intro i k st ms ms' m m' x h1 h2 h3 h4 h5 hx
    simp only [List.getElem?_map, Option.map_eq_some_iff] at h3
    obtain ⟨⟨st2, ms2⟩, h3, rfl⟩ := h3
    obtain ⟨a, b⟩ := List.getElem?_zip_eq_some.mp h3
    simp only at a b
    obtain rfl := Option.some.inj (h1.symm.trans a)
    obtain rfl := Option.some.inj (h2.symm.trans b)
    simp only [List.getElem?_map, h4, Option.map_some, Option.some.injEq] at h5
    subst h5
    obtain ⟨w, n⟩ := hmat i _ _ h1 h2 m (List.mem_of_getElem? h4)
    simp only [Mat.apply, List.map_map]
    apply List.map_congr_left
    intro r hr
    have := aff_param r x q pos v (by rw [w r hr, n]; omega) (by omega)
    rw [hx] at this
    simpa [aff] using this
  · intro k d d' h1 h2
    simp only [List.getElem?_map, h1, Option.map_some, Option.some.injEq] at h2
    subst h2
    obtain ⟨-, -, hf⟩ := hok.deps d (List.mem_of_getElem? h1)
    refine ⟨rfl, rfl, rfl, fun s t hs ht => ?_⟩
    rw [insert_param]
    have e : d.dpoly.ncols - 1 - p.npar + pos = (s ++ t).length + pos := by rw [hf.cols, List.length_append]; omega
    simp only [depWithParam, e]
    exact C27_add_dim d.dpoly _ _ v hf.wf (by rw [List.length_append, List.length_append, hf.cols]; omega) (by simp; omega)
  · exact C27_add_dim pc pos q v hpw (by omega) (by omega)
  · exact C27_add_dim cc pos q v hcw (by omega) (by omega)

/-- C73. A new parameter keeps the schedule legal, and does not make an illegal one legal. -/
theorem C73_param_legal (junk : Int) (P P' : FullProg) (name : String) (pos : Nat) (hP : P.OK) (hpos : pos ≤ P.prog.npar)
    (h : progAddParam junk P name pos = some P') : P'.prog.Legal ↔ P.prog.Legal := by
  obtain ⟨P1, h1, hok', hn, -, -, hl, -, hdim, key⟩ := C73_param junk P name pos hP hpos
  obtain rfl := Option.some.inj (h.symm.trans h1)
  constructor
  · intro hleg d hd hr s t q hs ht hq hsat
    obtain ⟨k, hk⟩ := List.getElem?_of_mem hd
    have hk' : k < P'.prog.deps.length := by rw [hl]; exact (List.getElem?_eq_some_iff.mp hk).1
    obtain ⟨a, -, -, b, -, -⟩ := key q 0 hq
    obtain ⟨b1, b2, b3, b4⟩ := b k d _ hk (List.getElem?_eq_getElem hk')
    have := hleg _ (List.getElem_mem hk') (by rw [b3]; exact hr) s t (q.insertIdx pos 0) (by rw [b1, hdim]; exact hs) (by rw [b2, hdim]; exact ht)
      (by rw [List.length_insertIdx_of_le_length (by omega), hn, hq]) ((b4 s t hs ht).mpr hsat)
    rwa [b1, b2, a _ s hs, a _ t ht] at this
  · intro hleg d' hd' hr s t q' hs ht hq hsat
    obtain ⟨k, hk'⟩ := List.getElem?_of_mem hd'
    have hk : k < P.prog.deps.length := by rw [← hl]; exact (List.getElem?_eq_some_iff.mp hk').1
    have hpl : pos < q'.length := by omega
    have hq' : q' = (q'.eraseIdx pos).insertIdx pos q'[pos] := by rw [List.insertIdx_eraseIdx_self (by omega), List.set_getElem_self]
    have hlen : (q'.eraseIdx pos).length = P.prog.npar := by rw [List.length_eraseIdx_of_lt (by omega)]; omega
    obtain ⟨a, -, -, b, -, -⟩ := key (q'.eraseIdx pos) q'[pos] hlen
    obtain ⟨b1, b2, b3, b4⟩ := b k _ d' (List.getElem?_eq_getElem hk) hk'
    rw [hdim, b1] at hs
    rw [hdim, b2] at ht
    rw [hq'] at hsat ⊢
    have := hleg _ (List.getElem_mem hk) (by rw [← b3]; exact hr) s t _ hs ht hlen ((b4 s t hs ht).mp hsat)
    rwa [b1, b2, a _ s hs, a _ t ht]

/-! ### Interchange -/

theorem getD_getElem {α : Type} (l : List α) (d : α) {i : Nat} (h : i < l.length) : l.getD i d = l[i] := by
  simp [h]

theorem insertIdx_take_drop {α : Type} : ∀ (l : List α) (i : Nat) (a : α), i ≤ l.length → l.insertIdx i a = l.take i ++ a :: l.drop i
  | l, 0, a, _ => by simp
  | [], i + 1, a, h => by simp at h
  | b :: l, i + 1, a, h => by simp [insertIdx_take_drop l i a (by simpa using h)]

theorem set_insertIdx {α : Type} : ∀ (l : List α) (i : Nat) (a b : α), (l.insertIdx i a).set i b = l.insertIdx i b
  | l, 0, a, b => by simp
  | [], i + 1, a, b => by simp
  | c :: l, i + 1, a, b => by simp [set_insertIdx l i a b]

/-- The statement with rows `l1` and `l2` exchanged. -/
def stSwapped (l1 l2 : Nat) (st : Stmt) : Stmt :=
  { st with trans := (st.trans.set l1 (st.trans.getD l2 [])).set l2 (st.trans.getD l1 []) }

theorem getElem?_set_swap {α : Type} (l : List α) (i j : Nat) (a b : α) (hi : l[i]? = some a) (hj : l[j]? = some b) (k : Nat) :
    ((l.set i b).set j a)[k]? = l[Equiv.swap i j k]? := by
  have li := (List.getElem?_eq_some_iff.mp hi).1
  have lj := (List.getElem?_eq_some_iff.mp hj).1
  by_cases c1 : k = j
  · subst c1
    rw [List.getElem?_set_self (by simpa using lj), Equiv.swap_apply_right, hi]
  · rw [List.getElem?_set_ne (Ne.symm c1)]
    by_cases c2 : k = i
    · subst c2
      rw [List.getElem?_set_self li, Equiv.swap_apply_left, hj]
    · rw [List.getElem?_set_ne (Ne.symm c2), Equiv.swap_apply_of_ne_of_ne c2 c1]

/-- C73. Interchanging two levels that exist succeeds: every instance gets its old time with the two components
exchanged, the levels of the program exchange their types, and nothing else changes. -/
theorem C73_interchange (p : Prog) (l1 l2 : Nat) (hok : p.OK) (h1 : l1 < p.hProps.length) (h2 : l2 < p.hProps.length) :
    ∃ p', progInterchange p l1 l2 = some p' ∧ p'.OK ∧ p'.npar = p.npar ∧ p'.deps = p.deps ∧ p'.stmts.length = p.stmts.length ∧
      (∀ (i : Nat) (st st' : Stmt), p.stmts[i]? = some st → p'.stmts[i]? = some st' →
        st'.dim = st.dim ∧ st'.dimOrig = st.dimOrig ∧ st'.domain = st.domain ∧ st'.isOrig = st.isOrig) ∧
      (∀ l, p'.hProps[l]? = p.hProps[Equiv.swap l1 l2 l]?) ∧
      ∀ (i : Nat) (x q : List Int) (l : Nat), (p'.timestamp i x q)[l]? = (p.timestamp i x q)[Equiv.swap l1 l2 l]? := by
  have e1 : p.stmts.mapM (fun st => stmtInterchange st l1 l2) =
      some (p.stmts.map (stSwapped l1 l2)) := by
    refine mapM_eq_map (fun st hst => ?_)
    have hl := hok.levels st hst
    unfold stmtInterchange stSwapped
    rw [List.getElem?_eq_getElem (show l1 < st.trans.length by omega), List.getElem?_eq_getElem (show l2 < st.trans.length by omega),
      getD_getElem _ _ (show l1 < st.trans.length by omega), getD_getElem _ _ (show l2 < st.trans.length by omega)]
    rfl
  have hdim : ∀ (hp : List HypType) (i : Nat), Prog.dim { p with stmts := p.stmts.map (stSwapped l1 l2), hProps := hp } i = p.dim i := by
    intro hp i
    simp only [Prog.dim, List.getElem?_map]
    cases p.stmts[i]? <;> rfl
  refine ⟨{ p with stmts := p.stmts.map (stSwapped l1 l2), hProps := (p.hProps.set l1 p.hProps[l2]).set l2 p.hProps[l1] },
    by unfold progInterchange; rw [e1, List.getElem?_eq_getElem h1, List.getElem?_eq_getElem h2]; rfl, ⟨?_, ?_, ?_⟩, rfl, rfl, by simp, ?_, ?_, ?_⟩
  · intro st' hst'
    obtain ⟨st, hst, rfl⟩ := List.mem_map.mp hst'
    have ho := hok.stmts st hst
    have hl := hok.levels st hst
    refine ⟨ho.wf, ho.cols, fun r hr => ?_, by simp [stSwapped, ho.types]⟩
    have hm1 : st.trans.getD l1 [] ∈ st.trans := by rw [getD_getElem _ _ (by omega)]; exact List.getElem_mem _
    have hm2 : st.trans.getD l2 [] ∈ st.trans := by rw [getD_getElem _ _ (by omega)]; exact List.getElem_mem _
    rcases List.mem_or_eq_of_mem_set hr with hr | rfl
    · rcases List.mem_or_eq_of_mem_set hr with hr | rfl
      · exact ho.trans r hr
      · exact ho.trans _ hm2
    · exact ho.trans _ hm1
  · intro st' hst'
    obtain ⟨st, hst, rfl⟩ := List.mem_map.mp hst'
    simpa [stSwapped] using hok.levels st hst
  · intro d hd
    obtain ⟨a, b, hf⟩ := hok.deps d hd
    exact ⟨by simpa using a, by simpa using b, hf.wf, by rw [hdim, hdim]; exact hf.cols⟩
  · intro i st st' ha hb
    simp only [List.getElem?_map, ha, Option.map_some, Option.some.injEq] at hb
    subst hb
    exact ⟨rfl, rfl, rfl, rfl⟩
  · exact fun l => getElem?_set_swap _ l1 l2 _ _ (List.getElem?_eq_getElem h1) (List.getElem?_eq_getElem h2) l
  · intro i x q l
    simp only [Prog.timestamp, List.getElem?_map]
    cases hi : p.stmts[i]? with
    | none => simp
    | some st =>
      have hl := hok.levels st (List.mem_of_getElem? hi)
      simp only [Option.map_some, Option.getD_some, stSwapped]
      rw [getD_getElem _ _ (show l1 < st.trans.length by omega), getD_getElem _ _ (show l2 < st.trans.length by omega),
        getElem?_set_swap _ l1 l2 _ _ (List.getElem?_eq_getElem _) (List.getElem?_eq_getElem _) l]

/-- C73. Interchange keeps the schedule legal if the levels from one to the other can be permuted: no dependence
that is not ordered further out has a negative component at one of them. Missing for the full claim: the types that
the statements record for the levels, see `C73_violated_types`. -/
theorem C73_interchange_legal_partial (p p' : Prog) (l1 l2 : Nat) (hok : p.OK) (h12 : l1 ≤ l2) (h2 : l2 < p.hProps.length) (hleg : p.Legal)
    (hband : ∀ d ∈ p.deps, d.rar = false → ∀ s t q, p.Inst d s t q → p.TiedBelow d l1 s t q → ∀ l, l1 ≤ l → l ≤ l2 → 0 ≤ p.comp d l s t q)
    (h : progInterchange p l1 l2 = some p') : p'.Legal := by
  obtain ⟨p1, e, hok', hn, hd', hlen, hst, hh, ht⟩ := C73_interchange p l1 l2 hok (by omega) h2
  obtain rfl := Option.some.inj (h.symm.trans e)
  have hdim : ∀ i, p'.dim i = p.dim i := by
    intro i
    unfold Prog.dim
    by_cases hi : i < p.stmts.length
    · have g := List.getElem?_eq_getElem hi
      have g' := List.getElem?_eq_getElem (show i < p'.stmts.length by omega)
      rw [g, g']
      exact (hst i _ _ g g').1
    · rw [List.getElem?_eq_none (by omega), List.getElem?_eq_none (by omega)]
  intro d hd hr s t q hs ht' hq hsat
  rw [hd'] at hd
  rw [hdim] at hs ht'
  rw [hn] at hq
  obtain ⟨a, b, -⟩ := hok.deps d hd
  have ga := List.getElem?_eq_getElem a
  have gb := List.getElem?_eq_getElem b
  have la := hok.levels _ (List.mem_of_getElem? ga)
  have lb := hok.levels _ (List.mem_of_getElem? gb)
  have hinst : p.Inst d s t q := ⟨hs, ht', hq, hsat⟩
  have tg : ∀ l, l < p.hProps.length → (p.timestamp d.src s q)[l]? = some (p.phi d.src l s q) := fun l hl => timestamp_get ga (by omega) s q
  have tg' : ∀ l, l < p.hProps.length → (p.timestamp d.dest t q)[l]? = some (p.phi d.dest l t q) := fun l hl => timestamp_get gb (by omega) t q
  have sw : ∀ l, l < p.hProps.length → Equiv.swap l1 l2 l < p.hProps.length := by
    intro l hl
    rw [Equiv.swap_apply_def]
    split_ifs <;> omega
  obtain ⟨l0, x, y, g1, g2, hxy, heq⟩ := hleg d hd hr s t q hs ht' hq hsat
  have hl0 : l0 < p.hProps.length := by
    have := (List.getElem?_eq_some_iff.mp g1).1
    simp only [Prog.timestamp, ga, Option.map_some, Option.getD_some, List.length_map] at this
    omega
  rw [tg l0 hl0, Option.some.injEq] at g1
  rw [tg' l0 hl0, Option.some.injEq] at g2
  subst g1 g2
  have heq' : ∀ l' < l0, p.phi d.src l' s q = p.phi d.dest l' t q := by
    intro l' hl'
    have := heq l' hl'
    rw [tg l' (by omega), tg' l' (by omega)] at this
    exact Option.some.inj this
  have fin := lexBefore_of (a := p'.timestamp d.src s q) (b := p'.timestamp d.dest t q) (n := p.hProps.length)
    (fun l => p.phi d.src (Equiv.swap l1 l2 l) s q) (fun l => p.phi d.dest (Equiv.swap l1 l2 l) t q)
    (fun l hl => by rw [ht, tg _ (sw l hl)]) (fun l hl => by rw [ht, tg' _ (sw l hl)])
  by_cases c : l0 < l1
  · refine fin l0 hl0 ?_ ?_
    · rw [Equiv.swap_apply_of_ne_of_ne (by omega) (by omega)]; exact hxy
    · intro l' hl'
      rw [Equiv.swap_apply_of_ne_of_ne (by omega) (by omega)]
      exact (heq' l' hl').le
  · have hb := hband d hd hr s t q hinst (fun l hl => by unfold Prog.comp; rw [heq' l (by omega)]; omega)
    have hnn : ∀ l, l ≤ l2 → p.phi d.src l s q ≤ p.phi d.dest l t q := by
      intro l hl
      by_cases cl : l < l1
      · exact (heq' l (by omega)).le
      · have := hb l (by omega) hl
        unfold Prog.comp at this
        omega
    refine fin (Equiv.swap l1 l2 l0) (sw l0 hl0) (by rw [Equiv.swap_apply_self]; exact hxy) ?_
    intro l' hl'
    by_cases c2 : l0 ≤ l2
    · refine hnn _ ?_
      have : Equiv.swap l1 l2 l0 ≤ l2 := by rw [Equiv.swap_apply_def]; split_ifs <;> omega
      rw [Equiv.swap_apply_def]
      split_ifs <;> omega
    · rw [Equiv.swap_apply_of_ne_of_ne (by omega) (by omega)] at hl'
      refine (heq' _ ?_).le
      rw [Equiv.swap_apply_def]
      split_ifs <;> omega

/-! ### Separation -/

theorem aff_const_row (n : Nat) (c : Int) (x : List Int) (h : x.length = n) : aff (zrow n ++ [c]) x = c := by
  unfold aff
  have : ∀ (m : Nat) (y : List Int), y.length = m → dot (zrow m ++ [c]) (y ++ [1]) = c := by
    intro m
    induction m with
    | zero => intro y hy; simp [List.length_eq_zero_iff.mp hy, zrow, dot]
    | succ m ih =>
      intro y hy
      match y, hy with
      | a :: y, hy =>
        simp only [zrow, List.replicate_succ, List.cons_append, dot] at ih ⊢
        simpa using ih y (by simpa using hy)
  exact this n x h

/-- The statement with the new level. -/
def stWithLevel (npar level : Nat) (c : Int) (st : Stmt) : Stmt :=
  { st with trans := st.trans.insertIdx level (zrow (st.dim + npar) ++ [c]), hypTypes := st.hypTypes.insertIdx level .scalar }

theorem setOffsets_eq (npar level : Nat) (offset : Int) (ss : List Stmt) (hlev : ∀ st ∈ ss, level ≤ st.trans.length) :
    ∀ (is : List Nat) (k : Nat) (f : Nat → Int), is.Nodup → (∀ i ∈ is, i < ss.length) →
      setOffsets level offset is k (ss.mapIdx (fun i st => stWithLevel npar level (f i) st)) =
        some (ss.mapIdx (fun i st => stWithLevel npar level (if i ∈ is then offset + 1 + k + is.idxOf i else f i) st))
  | [], k, f, _, _ => by simp [setOffsets]
  | a :: is, k, f, hnd, hlt => by
    have ha := hlt a (by simp)
    have hmem := hlev _ (List.getElem_mem ha)
    unfold setOffsets
    have g : (ss.mapIdx (fun i st => stWithLevel npar level (f i) st))[a]? = some (stWithLevel npar level (f a) ss[a]) := by simp [ha]
    rw [g]
    have e : setLevelConst level (offset + 1 + k) (stWithLevel npar level (f a) ss[a]) = some (stWithLevel npar level (offset + 1 + k) ss[a]) := by
      unfold setLevelConst stWithLevel
      simp only [List.getElem?_insertIdx_self, if_pos hmem, Option.bind_eq_bind, Option.bind_some, pure, List.dropLast_concat]
      congr 2
      rw [set_insertIdx]
    simp only [Option.bind_eq_bind, Option.bind_some, e]
    have e2 : (ss.mapIdx (fun i st => stWithLevel npar level (f i) st)).set a (stWithLevel npar level (offset + 1 + k) ss[a]) =
        ss.mapIdx (fun i st => stWithLevel npar level (if i = a then offset + 1 + k else f i) st) := by
      apply List.ext_getElem?
      intro i
      rw [List.getElem?_set]
      by_cases c : a = i
      · subst c; simp [ha]
      · simp [c, Ne.symm c]
    rw [e2, setOffsets_eq npar level offset ss hlev is (k + 1) _ (List.nodup_cons.mp hnd).2 (fun i hi => hlt i (by simp [hi]))]
    congr 1
    apply List.ext_getElem?
    intro i
    simp only [List.getElem?_mapIdx]
    cases hi : ss[i]? with
    | none => rfl
    | some st =>
      simp only [Option.map_some]
      congr 2
      have hna := (List.nodup_cons.mp hnd).1
      by_cases c : i = a
      · subst c
        simp [hna]
      · by_cases c2 : i ∈ is
        · simp only [c2, if_true, List.mem_cons, or_true, List.idxOf_cons_ne _ (Ne.symm c)]
          push_cast
          ring
        · simp [c, c2]

/-- C73. Separating statements succeeds: every instance gets its old time with the number of its statement inserted
at the new level; the new level is scalar, for the program and for every statement. -/
theorem C73_separate (p : Prog) (is : List Nat) (level : Nat) (offset : Int) (hok : p.OK) (hl : level ≤ p.hProps.length)
    (hnd : is.Nodup) (his : ∀ i ∈ is, i < p.stmts.length) :
    ∃ p', separateStmts p is level offset = some p' ∧ p'.OK ∧ p'.npar = p.npar ∧ p'.deps = p.deps ∧ p'.stmts.length = p.stmts.length ∧
      (∀ (i : Nat) (st st' : Stmt), p.stmts[i]? = some st → p'.stmts[i]? = some st' →
        st'.dim = st.dim ∧ st'.dimOrig = st.dimOrig ∧ st'.domain = st.domain ∧ st'.isOrig = st.isOrig ∧
        st'.hypTypes = st.hypTypes.insertIdx level .scalar) ∧
      p'.hProps = p.hProps.insertIdx level .scalar ∧
      ∀ (i : Nat) (x q : List Int), i < p.stmts.length → x.length = p.dim i → q.length = p.npar →
        p'.timestamp i x q = (p.timestamp i x q).insertIdx level (sepNumber is offset i) := by
  have e1 : p.stmts.mapM (stmtAddLevel p.npar .scalar level) = some (p.stmts.mapIdx (fun _ st => stWithLevel p.npar level 0 st)) := by
    rw [mapM_eq_map (g := stWithLevel p.npar level 0)]
    · congr 1
      apply List.ext_getElem?
      intro i
      simp
    · intro st hst
      have := hok.levels st hst
      unfold stmtAddLevel stWithLevel
      rw [if_neg (by omega)]
      have z : zrow (st.dim + p.npar + 1) = zrow (st.dim + p.npar) ++ [0] := by simp [zrow, List.replicate_succ']
      rw [z]
  have e2 := setOffsets_eq p.npar level offset p.stmts (fun st hst => by rw [hok.levels st hst]; exact hl) is 0 (fun _ => 0) hnd his
  simp only [Nat.cast_zero, add_zero] at e2
  have e3 : (fun (i : Nat) (st : Stmt) => stWithLevel p.npar level (if i ∈ is then offset + 1 + is.idxOf i else 0) st) =
      fun i st => stWithLevel p.npar level (sepNumber is offset i) st := rfl
  rw [e3] at e2
  have hdim : ∀ (hp : List HypType) (i : Nat), Prog.dim { p with stmts := p.stmts.mapIdx (fun i st => stWithLevel p.npar level (sepNumber is offset i) st), hProps := hp } i = p.dim i := by
    intro hp i
    simp only [Prog.dim, List.getElem?_mapIdx]
    cases p.stmts[i]? <;> rfl
  refine ⟨{ p with stmts := p.stmts.mapIdx (fun i st => stWithLevel p.npar level (sepNumber is offset i) st), hProps := p.hProps.insertIdx level .scalar },
    by unfold separateStmts; simp only [e1, e2, Option.bind_eq_bind, Option.bind_some]; rw [if_neg (by omega)]; rfl, ⟨?_, ?_, ?_⟩, rfl, rfl, by simp, ?_, rfl, ?_⟩
  · intro st' hst'
    obtain ⟨i, hi, rfl⟩ := List.mem_mapIdx.mp hst'
    have hst := List.getElem_mem hi
    have ho := hok.stmts _ hst
    have hlv := hok.levels _ hst
    refine ⟨ho.wf, ho.cols, fun r hr => ?_, ?_⟩
    · rcases List.eq_or_mem_of_mem_insertIdx hr with rfl | hr
      · simp [zrow, stWithLevel]
      · exact ho.trans r hr
    · simp only [stWithLevel]
      rw [List.length_insertIdx_of_le_length (by rw [ho.types]; omega), List.length_insertIdx_of_le_length (by omega), ho.types]
  · intro st' hst'
    obtain ⟨i, hi, rfl⟩ := List.mem_mapIdx.mp hst'
    have hlv := hok.levels _ (List.getElem_mem hi)
    simp only [stWithLevel]
    rw [List.length_insertIdx_of_le_length (by omega), List.length_insertIdx_of_le_length (by omega), hlv]
  · intro d hd
    obtain ⟨a, b, hf⟩ := hok.deps d hd
    exact ⟨by simpa using a, by simpa using b, hf.wf, by rw [hdim, hdim]; exact hf.cols⟩
  · intro i st st' ha hb
    simp only [List.getElem?_mapIdx, ha, Option.map_some, Option.some.injEq] at hb
    subst hb
    exact ⟨rfl, rfl, rfl, rfl, rfl⟩
  · intro i x q hi hx hq
    have g := List.getElem?_eq_getElem hi
    simp only [Prog.timestamp, List.getElem?_mapIdx, g, Option.map_some, Option.getD_some, stWithLevel]
    rw [List.map_insertIdx]
    congr 1
    exact aff_const_row _ _ _ (by rw [List.length_append, hx, hq]; simp [Prog.dim, g])

/-- C73. Separation of a legal program is legal exactly if no dependence between instances that are not ordered
outside the new level goes from a statement with a larger number to one with a smaller number. -/
theorem C73_separate_legal (p p' : Prog) (is : List Nat) (level : Nat) (offset : Int) (hok : p.OK) (hl : level ≤ p.hProps.length)
    (hnd : is.Nodup) (his : ∀ i ∈ is, i < p.stmts.length) (hleg : p.Legal) (h : separateStmts p is level offset = some p') :
    p'.Legal ↔ ∀ d ∈ p.deps, d.rar = false → ∀ s t q, p.Inst d s t q → p.TiedBelow d level s t q →
      sepNumber is offset d.src ≤ sepNumber is offset d.dest := by
  obtain ⟨p1, e, hok', hn, hd', hlen, hst, hh, ht⟩ := C73_separate p is level offset hok hl hnd his
  obtain rfl := Option.some.inj (h.symm.trans e)
  have hdim : ∀ i, p'.dim i = p.dim i := by
    intro i
    unfold Prog.dim
    by_cases hi : i < p.stmts.length
    · have g := List.getElem?_eq_getElem hi
      have g' := List.getElem?_eq_getElem (show i < p'.stmts.length by omega)
      rw [g, g']
      exact (hst i _ _ g g').1
    · rw [List.getElem?_eq_none (by omega), List.getElem?_eq_none (by omega)]
  have core : ∀ d ∈ p.deps, d.rar = false → ∀ s t q, p.Inst d s t q →
      (LexBefore (p'.timestamp d.src s q) (p'.timestamp d.dest t q) ↔
        (p.TiedBelow d level s t q → sepNumber is offset d.src ≤ sepNumber is offset d.dest)) := by
    intro d hd hr s t q hi
    obtain ⟨a, b, -⟩ := hok.deps d hd
    have ga := List.getElem?_eq_getElem a
    have gb := List.getElem?_eq_getElem b
    have la := hok.levels _ (List.mem_of_getElem? ga)
    have lb := hok.levels _ (List.mem_of_getElem? gb)
    have hx := hleg d hd hr s t q hi.hs hi.ht hi.hp hi.sat
    rw [ht _ s q a hi.hs hi.hp, ht _ t q b hi.ht hi.hp]
    have lA : (p.timestamp d.src s q).length = p.hProps.length := by rw [timestamp_eq ga]; simp [Stmt.time, la]
    have lB : (p.timestamp d.dest t q).length = p.hProps.length := by rw [timestamp_eq gb]; simp [Stmt.time, lb]
    have tied : p.TiedBelow d level s t q ↔ (p.timestamp d.src s q).take level = (p.timestamp d.dest t q).take level := by
      refine ⟨fun hT => ?_, tied_of_take ga gb (by omega) (by omega)⟩
      apply List.ext_getElem?
      intro l
      by_cases c : l < level
      · rw [List.getElem?_take_of_lt c, List.getElem?_take_of_lt c, timestamp_get ga (by omega), timestamp_get gb (by omega)]
        have := hT l c
        unfold Prog.comp at this
        congr 1
        omega
      · rw [List.getElem?_eq_none (by simp; omega), List.getElem?_eq_none (by simp; omega)]
    rw [tied]
    generalize p.timestamp d.src s q = A at *
    generalize p.timestamp d.dest t q = B at *
    generalize sepNumber is offset d.src = m
    generalize sepNumber is offset d.dest = n
    have eA : A.insertIdx level m = A.take level ++ m :: A.drop level := insertIdx_take_drop _ _ _ (by omega)
    have eB : B.insertIdx level n = B.take level ++ n :: B.drop level := insertIdx_take_drop _ _ _ (by omega)
    rw [eA, eB]
    have hx' : LexBefore (A.take level ++ A.drop level) (B.take level ++ B.drop level) := by simpa using hx
    rcases lex_split (by simp; omega) hx' with hlt | ⟨heq, hrest⟩
    · refine ⟨fun _ hc => ?_, fun _ => lex_append hlt _ _⟩
      exfalso
      rw [hc] at hlt
      obtain ⟨l, x, y, g1, g2, g3, -⟩ := hlt
      rw [g1] at g2
      have := Option.some.inj g2
      omega
    · rw [heq, lex_prefix]
      constructor
      · rintro ⟨l, x, y, g1, g2, g3, g4⟩ -
        rcases l with _ | l
        · simp only [List.getElem?_cons_zero, Option.some.injEq] at g1 g2
          omega
        · have := g4 0 (by omega)
          simp only [List.getElem?_cons_zero, Option.some.injEq] at this
          omega
      · intro hc
        rcases (hc rfl).lt_or_eq with hlt | rfl
        · exact ⟨0, m, n, rfl, rfl, hlt, fun l hl => by omega⟩
        · exact (lex_prefix [m]).mpr hrest
  constructor
  · intro hL d hd hr s t q hi
    refine (core d hd hr s t q hi).mp ?_
    exact hL d (by rw [hd']; exact hd) hr s t q (by rw [hdim]; exact hi.hs) (by rw [hdim]; exact hi.ht) (by rw [hn]; exact hi.hp) hi.sat
  · intro H d hd hr s t q hs ht' hq hsat
    rw [hd'] at hd
    have hi : p.Inst d s t q := ⟨by rw [← hdim]; exact hs, by rw [← hdim]; exact ht', by rw [← hn]; exact hq, hsat⟩
    exact (core d hd hr s t q hi).mpr (H d hd hr s t q hi)

/-- C73. Separating one statement places it after all others at the new level. -/
theorem C73_separate_one (p : Prog) (i level : Nat) : separateStmt p i level = separateStmts p [i] level 0 := by
  unfold separateStmt separateStmts
  simp only [setOffsets, Option.bind_eq_bind]
  cases p.stmts.mapM (stmtAddLevel p.npar .scalar level) with
  | none => rfl
  | some ss =>
    simp only [Option.bind_some]
    cases ss[i]? with
    | none => rfl
    | some st =>
      simp only [Option.bind_some, Nat.cast_zero, add_zero, zero_add]
      cases setLevelConst level 1 st with
      | none => rfl
      | some st' => rfl

end Pluto
