import Verif.Spec.Mark
import Verif.Model.Mark
import Verif.Lemmas.TileBands

/-! Lemmas about the loops that are marked parallel. -/

namespace Pluto

theorem undominated_spec {p : Prog} {ls us : List Loop} (h : undominated p ls = some us) :
    us.Sublist ls ∧ ∀ L ∈ ls, (L ∈ us ∨ ∃ M ∈ ls, isLoopDominated p L M = some true) ∧
      (L ∈ us → ∀ M ∈ ls, isLoopDominated p L M = some false) := by
  unfold undominated at h
  simp only [Option.bind_eq_bind, Option.bind_eq_some_iff, pure, Option.some.injEq] at h
  obtain ⟨bs, h1, rfl⟩ := h
  have hf := mapM_forall₂ _ _ _ h1
  have hd : ∀ L b, dominatedByAny p ls L = some b →
      (b = true → ∃ M ∈ ls, isLoopDominated p L M = some true) ∧ (b = false → ∀ M ∈ ls, isLoopDominated p L M = some false) := by
    intro L b hb
    unfold dominatedByAny at hb
    simp only [Option.bind_eq_bind, Option.bind_eq_some_iff, pure, Option.some.injEq] at hb
    obtain ⟨cs, k1, rfl⟩ := hb
    have hf := mapM_forall₂ _ _ _ k1
    constructor
    · intro hc
      obtain ⟨c, c1, c2⟩ := List.any_eq_true.mp hc
      obtain ⟨M, m1, m2⟩ := forall₂_mem_right hf c1
      simp only [id_eq] at c2
      subst c2
      exact ⟨M, m1, m2⟩
    · intro hc M hM
      rw [List.any_eq_false] at hc
      obtain ⟨n, hn, rfl⟩ := List.getElem_of_mem hM
      have hn' : n < cs.length := by rw [← hf.length_eq]; exact hn
      have hg := hf.get hn hn'
      simp only [List.get_eq_getElem] at hg
      have := hc cs[n] (List.getElem_mem _)
      simp only [id_eq, Bool.not_eq_true] at this
      rw [hg, this]
  have hz : ∀ x ∈ ls.zip bs, dominatedByAny p ls x.1 = some x.2 := fun x hx => (List.forall₂_iff_zip.mp hf).2 hx
  refine ⟨?_, fun L hL => ⟨?_, ?_⟩⟩
  · have : (ls.zip bs).map (·.1) = ls := List.map_fst_zip (le_of_eq hf.length_eq)
    calc _ = ((ls.zip bs).filter _).map (·.1) := rfl
      List.Sublist _ ((ls.zip bs).map (·.1)) := List.filter_sublist.map _
      _ = ls := this
  · obtain ⟨n, hn, rfl⟩ := List.getElem_of_mem hL
    have hn' : n < bs.length := by rw [← hf.length_eq]; exact hn
    have hm : (ls[n], bs[n]) ∈ ls.zip bs := by
      rw [List.mem_iff_getElem]
      exact ⟨n, by simp; omega, by simp⟩
    cases hb : bs[n] with
    | true => right; exact (hd _ _ (hz _ hm)).1 hb
    | false =>
      left
      exact List.mem_map.mpr ⟨_, List.mem_filter.mpr ⟨hm, by simp [hb]⟩, rfl⟩
  · intro hL M hM
    simp only [List.mem_map, List.mem_filter] at hL
    obtain ⟨x, ⟨x1, x2⟩, rfl⟩ := hL
    exact (hd _ _ (hz x x1)).2 (by simpa using x2) M hM

section
variable {p : Prog} {all : List Loop} (ha : getAllLoops p = some all)
  (hU : Uniform p 0 p.hProps.length (List.range p.stmts.length))

theorem dominated_agree {p : Prog} {L M : Loop} (h : isLoopDominated p L M = some true) : M.depth < L.depth ∧
    ∃ s1 s2, L.stmts[0]? = some s1 ∧ M.stmts[0]? = some s2 ∧ Agree p 0 (M.depth + 1) s1 s2 := by
  unfold isLoopDominated at h
  split_ifs at h with c
  · cases h
  simp only [Option.bind_eq_bind, Option.bind_eq_some_iff, pure, Option.some.injEq] at h
  obtain ⟨s1, h1, s2, h2, bs, h3, h4⟩ := h
  refine ⟨by omega, s1, s2, h1, h2, ?_⟩
  intro l _ hl sc1 sc2
  have hf := mapM_forall₂ _ _ _ h3
  have hlen := hf.length_eq
  simp only [List.length_range] at hlen
  have hg := hf.get (i := l) (by simpa using hl) (by omega)
  simp only [List.get_eq_getElem, List.getElem_range, Option.bind_eq_some_iff] at hg
  obtain ⟨c1, g1, c2, g2, hg⟩ := hg
  have e1 := (scalarAt_iff g1).mpr sc1
  have e2 := (scalarAt_iff g2).mpr sc2
  subst e1 e2
  rw [if_pos (show (true && true) = true from rfl)] at hg
  simp only [Option.bind_eq_some_iff, Option.some.injEq] at hg
  obtain ⟨v1, g3, v2, g4, hg⟩ := hg
  have := List.all_eq_true.mp h4 bs[l] (List.getElem_mem _)
  rw [← hg] at this
  simp only [id_eq, decide_eq_true_eq] at this
  rw [← constAt_eq g3, ← constAt_eq g4, this]

include ha hU

/-- A dominated loop lies inside the other. -/
theorem dominated_iff {L M : Loop} (hL : L ∈ all) (hM : M ∈ all) (h : isLoopDominated p L M = some true) :
    M.depth < L.depth ∧ ∀ i ∈ L.stmts, i ∈ M.stmts := by
  obtain ⟨hd, s1, s2, h1, h2, hag⟩ := dominated_agree h
  have hs := all_spec ha
  have m1 := List.mem_of_getElem? h1
  have m2 := List.mem_of_getElem? h2
  have hag' : Agree p 0 M.depth s2 s1 := fun l a b x y => (hag l a (by omega) y x).symm
  have hr := hs.hi M hM
  have hmem : s1 ∈ M.stmts := hs.join M hM s2 m2 s1 (hs.sub L hL s1 m1).1 (fun hsc =>
    (hs.sub M hM s2 m2).2 (hU M.depth (Nat.zero_le _) (by omega) s1 (hs.sub L hL s1 m1).1 s2 (hs.sub M hM s2 m2).1
      (fun l a b x y => hag l a (by omega) x y) hsc)) hag'
  exact ⟨hd, nested ha hU hL hM hd m1 hmem⟩

/-- The converse. -/
theorem dominated_of_share {L M : Loop} (hL : L ∈ all) (hM : M ∈ all) (hd : M.depth < L.depth) {i : Nat} (h1 : i ∈ L.stmts)
    (h2 : i ∈ M.stmts) {b : Bool} (h : isLoopDominated p L M = some b) : b = true := by
  have hs := all_spec ha
  obtain ⟨s1, r1, e1⟩ := List.exists_cons_of_ne_nil (hs.ne L hL)
  obtain ⟨s2, r2, e2⟩ := List.exists_cons_of_ne_nil (hs.ne M hM)
  have hm1 : s1 ∈ L.stmts := by rw [e1]; simp
  have hm2 : s2 ∈ M.stmts := by rw [e2]; simp
  have hn := nested ha hU hL hM hd h1 h2 s1 hm1
  refine isLoopDominated_eq h hd (s1 := s1) (s2 := s2) (by rw [e1]; rfl) (by rw [e2]; rfl) ?_
  have hag := hs.share (by simpa using hU) M hM s1 hn s2 hm2
  intro l a b x y
  rcases Nat.lt_or_ge l M.depth with hlt | hge
  · exact hag l a hlt x y
  · have : l = M.depth := by omega
    subst this
    exact absurd y (hs.sub M hM s2 hm2).2

/-- Undominated loops of any list of loops: no two share a statement, and every loop of the list lies
inside one of them. -/
theorem undominated_cover {ls us : List Loop} (hls : ∀ L ∈ ls, L ∈ all) (h : undominated p ls = some us) :
    (∀ L ∈ us, L ∈ ls) ∧ (∀ L ∈ us, ∀ M ∈ us, ∀ i ∈ L.stmts, i ∈ M.stmts → L = M) ∧
    ∀ L ∈ ls, ∃ M ∈ us, M.depth ≤ L.depth ∧ ∀ i ∈ L.stmts, i ∈ M.stmts := by
  obtain ⟨h1, h2⟩ := undominated_spec h
  have hs := all_spec ha
  refine ⟨fun L hL => h1.subset hL, ?_, ?_⟩
  · have key : ∀ L ∈ us, ∀ M ∈ us, ∀ i ∈ L.stmts, i ∈ M.stmts → ¬ M.depth < L.depth := by
      intro L hL M hM i hi1 hi2 hlt
      have := (h2 L (h1.subset hL)).2 hL M (h1.subset hM)
      have := dominated_of_share ha hU (hls _ (h1.subset hL)) (hls _ (h1.subset hM)) hlt hi1 hi2 this
      cases this
    intro L hL M hM i hi1 hi2
    have k1 := key L hL M hM i hi1 hi2
    have k2 := key M hM L hL i hi2 hi1
    exact same_loop ha (hls _ (h1.subset hL)) (hls _ (h1.subset hM)) (by omega) hi1 hi2
  · intro L hL
    induction hn : L.depth using Nat.strongRecOn generalizing L with
    | _ n ih =>
      rcases (h2 L hL).1 with hin | ⟨M, hM, hdom⟩
      · exact ⟨L, hin, by omega, fun i hi => hi⟩
      · obtain ⟨d1, d2⟩ := dominated_iff ha hU (hls L hL) (hls M hM) hdom
        obtain ⟨N, n1, n2, n3⟩ := ih M.depth (by omega) M hM rfl
        exact ⟨N, n1, by omega, fun i hi => n3 i (d2 i hi)⟩

end

theorem parallelEnd_spec {p : Prog} {l : Loop} : ∀ {n depth e : Nat}, parallelEnd p l n depth = some e →
    depth ≤ e ∧ e ≤ depth + n ∧ ∀ k, depth ≤ k → k < e → ∀ d ∈ p.deps, breaksParallel l k d = some false := by
  intro n
  induction n with
  | zero =>
    intro depth e h
    simp only [parallelEnd, Option.some.injEq] at h
    subst h
    exact ⟨le_refl _, by omega, fun k a b => absurd b (by omega)⟩
  | succ n ih =>
    intro depth e h
    simp only [parallelEnd, Option.bind_eq_bind, Option.bind_eq_some_iff] at h
    obtain ⟨bs, h1, h2⟩ := h
    split_ifs at h2 with c
    · simp only [pure, Option.some.injEq] at h2
      subst h2
      exact ⟨le_refl _, by omega, fun k a b => absurd b (by omega)⟩
    · obtain ⟨a1, a2, a3⟩ := ih h2
      refine ⟨by omega, by omega, fun k k1 k2 d hd => ?_⟩
      rcases Nat.lt_or_ge depth k with hlt | hge
      · exact a3 k (by omega) k2 d hd
      · have : k = depth := by omega
        subst this
        have hf := mapM_forall₂ _ _ _ h1
        obtain ⟨m, hm, rfl⟩ := List.getElem_of_mem hd
        have hm' : m < bs.length := by rw [← hf.length_eq]; exact hm
        have hg := hf.get hm hm'
        simp only [List.get_eq_getElem] at hg
        simp only [List.any_eq_true, id_eq, exists_eq_right] at c
        rw [hg]
        cases hb : bs[m] with
        | false => rfl
        | true => exact absurd (hb ▸ List.getElem_mem hm') c

theorem peelParallel_le {p : Prog} {l : Loop} : ∀ {n w : Nat}, peelParallel p l n = some w →
    w ≤ n ∧ (0 < w → isDepthScalar p l (l.depth + (w - 1)) = some false) := by
  intro n
  induction n with
  | zero => intro w h; simp only [peelParallel, Option.some.injEq] at h; subst h; simp
  | succ n ih =>
    intro w h
    simp only [peelParallel, Option.bind_eq_bind, Option.bind_eq_some_iff] at h
    obtain ⟨sc, h1, h2⟩ := h
    split_ifs at h2 with c
    · have := ih h2
      exact ⟨by omega, this.2⟩
    · simp only [pure, Option.some.injEq] at h2
      subst h2
      exact ⟨le_refl _, fun _ => by simpa [c] using h1⟩

theorem splitLevel_spec {p : Prog} {l : Loop} : ∀ {n d e : Nat}, splitLevel p l n d = some e →
    d ≤ e ∧ e ≤ d + n ∧ (∀ k, d < k → k ≤ e → isDepthScalar p l k = some false) ∧
      (e < d + n → isDepthScalar p l (e + 1) = some true) := by
  intro n
  induction n with
  | zero =>
    intro d e h
    simp only [splitLevel, Option.some.injEq] at h
    subst h
    exact ⟨le_refl _, by omega, fun k a b => absurd b (by omega), fun h => absurd h (by omega)⟩
  | succ n ih =>
    intro d e h
    simp only [splitLevel, Option.bind_eq_bind, Option.bind_eq_some_iff] at h
    obtain ⟨sc, h1, h2⟩ := h
    split_ifs at h2 with c
    · simp only [pure, Option.some.injEq] at h2
      subst h2 c
      exact ⟨le_refl _, by omega, fun k a b => absurd b (by omega), fun _ => h1⟩
    · obtain ⟨a1, a2, a3, a4⟩ := ih h2
      refine ⟨by omega, by omega, fun k k1 k2 => ?_, fun h => a4 (by omega)⟩
      rcases Nat.lt_or_ge (d + 1) k with hlt | hge
      · exact a3 k hlt k2
      · have : k = d + 1 := by omega
        subst this
        simpa [c] using h1

theorem parallelBand_spec {p : Prog} {L : Loop} {b : Band} {sp : Nat} (h : parallelBand p L = some (b, sp)) :
    b.loop = L ∧ (¬ ∀ i ∈ L.stmts, p.Scalar L.depth i) ∧
    (L.depth < p.hProps.length → L.depth + b.width ≤ p.hProps.length) ∧
    (0 < b.width → ¬ ∀ i ∈ L.stmts, p.Scalar (L.depth + (b.width - 1)) i) ∧
    (∀ m < b.width, ∀ d ∈ p.deps, breaksParallel L (L.depth + m) d = some false) ∧
    splitLevel p L (b.width - 1) L.depth = some sp := by
  unfold parallelBand at h
  simp only [Option.bind_eq_bind, Option.bind_eq_some_iff] at h
  obtain ⟨sc, h1, h2⟩ := h
  split_ifs at h2 with c
  simp only [Option.bind_eq_some_iff, pure, Option.some.injEq, Prod.mk.injEq] at h2
  obtain ⟨e, h2, w, h3, sp', h4, h5, rfl⟩ := h2
  subst h5
  obtain ⟨a1, a2, a3⟩ := parallelEnd_spec h2
  obtain ⟨b1, b2⟩ := peelParallel_le h3
  refine ⟨rfl, fun hall => c ((isDepthScalar_iff h1).mpr hall), fun hlt => ?_, fun hw hall => ?_, fun m hm => ?_, h4⟩
  · show L.depth + w ≤ _; omega
  · have := (isDepthScalar_iff (b2 hw)).mpr hall
    cases this
  · have hm : m < w := hm
    exact a3 _ (by omega) (by omega)

/-- Every level of a parallel band carries no dependence. -/
theorem parallelBand_none {p : Prog} (hi : p.Info) {L : Loop} {b : Band} {sp : Nat} (h : parallelBand p L = some (b, sp))
    (hd : L.depth < p.hProps.length) (hc : Complete p L.stmts) {m : Nat} (hm : m < b.width) :
    CarriesNone p L.stmts (L.depth + m) := by
  obtain ⟨_, _, hle, _, hbr, _⟩ := parallelBand_spec h
  have hle := hle hd
  intro d hdm hr hs ht s t q hin htied
  have hsat := hc d hdm hr hs ht
  classical
  obtain ⟨hl0, hfull⟩ := Nat.find_spec hsat
  have hmin : ∀ l' < Nat.find hsat, ¬ ∀ s t q, p.Inst d s t q → 1 ≤ p.comp d l' s t q := by
    intro l' hl' hf'
    exact Nat.find_min hsat hl' ⟨by omega, hf'⟩
  generalize Nat.find hsat = l0 at *
  have hlev : d.satLevel = (l0 : Int) := (hi.level d hdm l0).mpr ⟨hl0, hfull, hmin⟩
  have hge : L.depth + m ≤ l0 := by
    by_contra hlt
    have := hfull s t q hin
    rw [htied l0 (by omega)] at this
    omega
  have hb := hbr m hm d hdm
  unfold breaksParallel at hb
  rw [if_neg (by simp [hr]), if_neg (by simp [hs, ht]), if_neg (by rw [hlev]; omega)] at hb
  by_contra hne
  have := ((hi.vec d hdm hr).2 (L.depth + m) (by omega)).mpr ⟨⟨s, t, q, hin, by unfold Prog.comp; omega⟩,
    fun l' hl' => hmin l' (by omega)⟩
  rw [hb] at this
  cases this

theorem mem_clastFilter {ast : List AstLoop} {l : Loop} {a : AstLoop} :
    a ∈ clastFilter ast l ↔ a ∈ ast ∧ a.depth = l.depth ∧ ∀ s ∈ a.stmts, s ∈ l.stmts := by
  simp [clastFilter]

theorem loopsImmediatelyInner_mem {p : Prog} {l m : Loop} {ms : List Loop} (hnd : l.stmts.Nodup)
    (h : loopsImmediatelyInner p l = some ms) (hm : m ∈ ms) :
    m.depth = l.depth + 1 ∧ (∀ s ∈ m.stmts, s ∈ l.stmts) ∧ m.stmts.Nodup := by
  unfold loopsImmediatelyInner at h
  rw [Option.map_eq_some_iff] at h
  obtain ⟨ls, h1, rfl⟩ := h
  simp only [List.mem_filter, decide_eq_true_eq] at hm
  have hs := loopsUnder_spec _ _ _ _ hnd h1
  exact ⟨hm.2, fun s hx => (hs.sub m hm.1 s hx).1, hs.nodup m hm.1⟩

/-- What the search for a loop of a band in the AST returns. -/
theorem markBand_spec {p : Prog} {ast : List AstLoop} {b : Band} : ∀ {n : Nat} {l : Loop} {ms : List AstLoop},
    markBand p ast b n l = some ms → l.stmts.Nodup → b.loop.depth ≤ l.depth → l.depth ≤ b.loop.depth + b.width →
    (∀ s ∈ l.stmts, s ∈ b.loop.stmts) →
    (∀ a ∈ ms, a ∈ ast ∧ (∀ s ∈ a.stmts, s ∈ b.loop.stmts) ∧ l.depth ≤ a.depth ∧ a.depth ≤ b.loop.depth + b.width) ∧
    (∀ a ∈ ms, ∀ a' ∈ ms, a.depth = a'.depth) ∧ (0 < n → clastFilter ast l ≠ [] → ms = clastFilter ast l) := by
  intro n
  induction n with
  | zero => intro l ms h _ _ _ _; simp only [markBand, Option.some.injEq] at h; subst h; simp
  | succ n ih =>
    intro l ms h hnd h1 h2 h3
    rw [markBand] at h
    split_ifs at h with c
    · simp only [Option.some.injEq] at h
      subst h
      refine ⟨fun a hm => ?_, fun a hm a' hm' => ?_, fun _ _ => rfl⟩
      · obtain ⟨x1, x2, x3⟩ := mem_clastFilter.mp hm
        exact ⟨x1, fun s hs => h3 s (x3 s hs), by omega, by omega⟩
      · have := (mem_clastFilter.mp hm).2.1
        have := (mem_clastFilter.mp hm').2.1
        omega
    · simp only [Option.bind_eq_bind, Option.bind_eq_some_iff] at h
      obtain ⟨inner, k1, k2⟩ := h
      match inner with
      | [] =>
        simp only [pure, Option.some.injEq] at k2
        subst k2
        exact ⟨by simp, by simp, fun _ hh => absurd hh c⟩
      | m :: rest =>
        simp only at k2
        obtain ⟨m1, m2, m3⟩ := loopsImmediatelyInner_mem hnd k1 (m := m) (by simp)
        split_ifs at k2 with c2
        · simp only [pure, Option.some.injEq] at k2
          subst k2
          exact ⟨by simp, by simp, fun _ hh => absurd hh c⟩
        · obtain ⟨x1, x2, _⟩ := ih k2 m3 (by omega) (by omega) (fun s hs => h3 s (m2 s hs))
          exact ⟨fun a hm => by have := x1 a hm; exact ⟨this.1, this.2.1, by omega, this.2.2.2⟩, x2, fun _ hh => absurd hh c⟩

/-- Where marked loops come from. -/
theorem markParallel_spec {p : Prog} {ast ms : List AstLoop} (h : markParallel p ast = some ms) :
    ∃ ls bands, domParallelLoops p = some ls ∧ List.Forall₂ (fun L b => parallelBand p L = some b) ls bands ∧
      (∀ b ∈ bands, b.1.width ≠ 0) ∧
      (∀ a ∈ ms, ∃ b ∈ bands, ∃ xs, markBand p ast b.1 (p.hProps.length + 1) b.1.loop = some xs ∧ a ∈ xs) ∧
      ∀ b ∈ bands, ∃ xs, markBand p ast b.1 (p.hProps.length + 1) b.1.loop = some xs ∧ ∀ a ∈ xs, a ∈ ms := by
  unfold markParallel at h
  simp only [Option.bind_eq_bind, Option.bind_eq_some_iff] at h
  obtain ⟨ls, h1, bands, h2, h3⟩ := h
  split_ifs at h3 with c
  simp only [Option.bind_eq_some_iff, pure, Option.some.injEq] at h3
  obtain ⟨xss, h3, rfl⟩ := h3
  have hf := mapM_forall₂ _ _ _ h3
  refine ⟨ls, bands, h1, mapM_forall₂ _ _ _ h2, ?_, ?_, ?_⟩
  · intro b hb hw
    exact c (List.any_eq_true.mpr ⟨b, hb, by simpa using hw⟩)
  · intro a ha
    obtain ⟨xs, hx, ha⟩ := List.mem_flatten.mp ha
    obtain ⟨b, hb, hm⟩ := forall₂_mem_right hf hx
    exact ⟨b, hb, xs, hm, ha⟩
  · intro b hb
    obtain ⟨n, hn, rfl⟩ := List.getElem_of_mem hb
    have hn' : n < xss.length := by rw [← hf.length_eq]; exact hn
    have hg := hf.get hn hn'
    simp only [List.get_eq_getElem] at hg
    exact ⟨xss[n], hg, fun a ha => List.mem_flatten.mpr ⟨_, List.getElem_mem _, ha⟩⟩

end Pluto
