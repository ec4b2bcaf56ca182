import Verif.Lemmas.Semantics
import Verif.Props.Pet
import Verif.Props.Codegen

/-! C65: the transformed program computes what the source program computes. -/

namespace Pluto

theorem comesBefore_split {α : Type*} {l : List α} {a b : α} (h : ComesBefore l a b) : ∃ u v w, l = u ++ a :: v ++ b :: w := by
  obtain ⟨i, j, hij, hi, hj⟩ := h
  obtain ⟨hi', rfl⟩ := List.getElem?_eq_some_iff.mp hi
  obtain ⟨hj', rfl⟩ := List.getElem?_eq_some_iff.mp hj
  refine ⟨l.take i, (l.drop (i + 1)).take (j - i - 1), l.drop (j + 1), ?_⟩
  have e1 : l = l.take i ++ l[i] :: l.drop (i + 1) := by
    rw [← List.drop_eq_getElem_cons hi', List.take_append_drop]
  have e2 : l.drop (i + 1) = (l.drop (i + 1)).take (j - i - 1) ++ l[j] :: l.drop (j + 1) := by
    conv_lhs => rw [← List.take_append_drop (j - i - 1) (l.drop (i + 1))]
    rw [List.drop_drop, show i + 1 + (j - i - 1) = j by omega, List.drop_eq_getElem_cons hj']
  conv_lhs => rw [e1]
  rw [List.append_assoc, List.cons_append]
  congr 2

theorem ComesBefore.of_pairwise {α : Type*} {R : α → α → Prop} {l : List α} (h : l.Pairwise R) {a b : α} (hab : ComesBefore l a b) : R a b := by
  obtain ⟨u, v, w, rfl⟩ := comesBefore_split hab
  rw [List.append_assoc, List.cons_append] at h
  have := (List.pairwise_append.mp h).2.1
  exact (List.pairwise_cons.mp this).1 b (by simp)

theorem ComesBefore.trans {α : Type*} {l : List α} (hn : l.Nodup) {a b c : α} (h1 : ComesBefore l a b) (h2 : ComesBefore l b c) : ComesBefore l a c := by
  obtain ⟨i, j, hij, hi, hj⟩ := h1
  obtain ⟨j', k, hjk, hj', hk⟩ := h2
  have : j = j' := (List.getElem?_inj (List.getElem?_eq_some_iff.mp hj).1 hn).mp (hj.trans hj'.symm)
  exact ⟨i, k, by omega, hi, hk⟩

theorem pairwise_comesBefore {α : Type*} (l : List α) : l.Pairwise (fun a b => ComesBefore l a b) := by
  rw [List.pairwise_iff_getElem]
  intro i j hi hj hij
  exact ⟨i, j, hij, List.getElem?_eq_getElem hi, List.getElem?_eq_getElem hj⟩

/-- C65. Two runs of the same instances have the same effect on memory if instances of which one may write what the
other may access come in the same order. -/
theorem C65_order {I L V : Type*} (act : I → Action L V) (l r : List I) (hl : l.Nodup) (hr : r.Nodup) (hm : ∀ i, i ∈ l ↔ i ∈ r)
    (ho : ∀ a b, ComesBefore l a b → (act a).Conflicts (act b) → ComesBefore r a b) (m : L → V) : execute act l m = execute act r m := by
  refine execute_perm act l r hl ((List.perm_ext_iff_of_nodup hl hr).mpr hm) ?_ m
  refine List.Pairwise.imp (R := fun a b => ComesBefore l a b) ?_ (pairwise_comesBefore l)
  intro a b hab hc
  obtain ⟨e, h⟩ := hc
  exact comesBefore_split (ho a b hab ⟨e, h.symm⟩)

/-- C65. Without order, the effect may differ: two instances that write different values. -/
theorem C65_needed : ∃ (act : Nat → Action Unit Nat) (l r : List Nat), l.Nodup ∧ r.Nodup ∧ (∀ i, i ∈ l ↔ i ∈ r) ∧
    execute act l (fun _ => 0) ≠ execute act r (fun _ => 0) := by
  refine ⟨fun i => ⟨fun _ _ => i, fun _ => False, fun _ => True, fun _ _ h => absurd trivial h, fun _ _ _ _ _ => rfl⟩, [0, 1], [1, 0], by decide, by decide,
    fun i => by simp [or_comm], fun h => ?_⟩
  have := congrFun h ()
  simp [execute] at this

/-- The instances of `orig` are those of the statements, in the order of the source program. -/
structure SourceRun (ps : List PetStmt) (q : List Int) (orig : List Pt) : Prop where
  once : orig.Nodup
  all : ∀ a, a ∈ orig ↔ PetRuns ps q a
  order : orig.Pairwise (PetBefore ps q)

/-- The instances read and write what the access relations say. -/
def ActsAs {V : Type*} (ps : List PetStmt) (q : List Int) (act : Pt → Action Pt V) : Prop :=
  ∀ a e, ((act a).reads e → PetReadsElem ps q a e) ∧ ((act a).writes e → PetWritesElem ps q a e)

/-- C65. Running the instances in any order that respects the dependences of the program that the front end made
computes what the source program computes. -/
theorem C65_pet {V : Type*} (ops : IslOps) (ho : ops.OK) (fo : FlowOps) (o : FlowOpts) (accs : Bool) (func : BMap → List (List Int)) (npar : Nat)
    (ps : List PetStmt) (hok : PetOK npar (petLive ps)) (hne : accs = true → ∀ s ∈ petLive ps, ∀ a ∈ s.reads ++ s.writes, a.parts ≠ [])
    (hfo : fo.OK (petReads (petLive ps)) (petWrites (petLive ps)) (petTimes (petLive ps)))
    (hn : ∀ d, computeDeps fo o true (petReads (petLive ps)) (petWrites (petLive ps)) (petTimes (petLive ps)) = some d → FlowNamesOK npar (petLive ps) d)
    (p : Prog) (ds : List PetDep) (h : petToProg ops fo o accs func npar ps = some (p, ds)) (q : List Int)
    (orig : List Pt) (hor : SourceRun (petLive ps) q orig) (act : Pt → Action Pt V) (hact : ActsAs (petLive ps) q act)
    (run : List Pt) (hnd : run.Nodup) (hall : ∀ a, a ∈ run ↔ PetRuns (petLive ps) q a)
    (hdeps : ∀ d ∈ p.deps, d.rar = false → ∀ s t, p.Inst d s t q → (d.src, s) ∈ run → (d.dest, t) ∈ run → ComesBefore run (d.src, s) (d.dest, t))
    (m : Pt → V) :
    execute act run m = execute act orig m := by
  refine (C65_order act orig run hor.once hnd (fun i => by rw [hor.all, hall]) (fun a b hab hc => ?_) m).symm
  have hfin : {a | PetRuns (petLive ps) q a}.Finite := by
    refine (orig.finite_toSet).subset fun a ha => (hor.all a).mpr ha
  have hconf : PetConflict (petLive ps) q a b := by
    obtain ⟨e, ⟨h1, h2⟩ | ⟨h1, h2⟩⟩ := hc
    · exact ⟨e, .inl ⟨(hact a e).2 h1, h2.imp (hact b e).1 (hact b e).2⟩⟩
    · rcases h2 with h2 | h2
      · exact ⟨e, .inr ⟨(hact a e).1 h2, (hact b e).2 h1⟩⟩
      · exact ⟨e, .inl ⟨(hact a e).2 h2, .inr ((hact b e).2 h1)⟩⟩
  have hch := C64_complete ops ho fo o accs func npar ps hok hne hfo hn p ds h q hfin a b (hab.of_pairwise hor.order) hconf
  have link : ∀ x y, (PetRuns (petLive ps) q x ∧ PetRuns (petLive ps) q y ∧ ∃ d ∈ p.deps, d.rar = false ∧ d.src = x.1 ∧ d.dest = y.1 ∧ p.Inst d x.2 y.2 q) →
      ComesBefore run x y := by
    rintro x y ⟨hx, hy, d, hd, r, e1, e2, hI⟩
    have := hdeps d hd r _ _ hI
    rw [e1, e2] at this
    exact this ((hall x).mpr hx) ((hall y).mpr hy)
  clear hab hc hconf
  induction hch with
  | single hr => exact link _ _ hr
  | tail _ hr ih => exact ComesBefore.trans hnd ih (link _ _ hr)

end Pluto
