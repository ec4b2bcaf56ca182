import Verif.Model.Dfp
/-! Skewing in the search with `--dfp`: `introduce_skew`, lib/framework-dfp.c. Arrays indexed by loop
number (`skew_dims`, `src_dims`) have `nvar` entries; an access outside is `none`. -/
namespace Pluto

/-- `get_negative_components`, lib/framework-dfp.c:3038-3062: number of the first loop at or below `level` at which
the dependence may be negative. The list holds the types of levels `i, i+1, ...`; `n` is `loop_dims`. -/
def negComponent (dirvec : List Dir) (level : Nat) : List HypType → Nat → Nat → Option Nat
  | [], _, _ => none
  | h :: hs, i, n =>
    if h = .scalar then negComponent dirvec level hs (i + 1) n
    else if h = .loop ∧ i < level then negComponent dirvec level hs (i + 1) (n + 1)
    else if dirvec[i]? = some .minus ∨ dirvec[i]? = some .star then some n
    else negComponent dirvec level hs (i + 1) (n + 1)

/-- `a[n] = 1` for an array of Booleans. -/
def setTrue (a : List Bool) (n : Nat) : Option (List Bool) := if n < a.length then some (a.set n true) else none

/-- Body of the loop of `dims_to_be_skewed`, lib/framework-dfp.c:3126-3152, for dependence `i`; state: `dims_with_neg_components`
and `tile_preventing_deps`. -/
def skewDimsStep (rar : Bool) (a : Auto) (k level : Nat) (s : List Bool × List Bool) (x : Dep × Nat) :
    Option (List Bool × List Bool) :=
  if rar = false ∧ x.1.rar = true then some s
  else if a.scc x.1.src ≠ (k : Int) ∨ a.scc x.1.dest ≠ (k : Int) then some s
  else if x.1.satisfied then
    match negComponent x.1.dirvec level a.p.hProps 0 0 with
    | some n => do
      let dims ← setTrue s.1 n
      let tpd ← setTrue s.2 x.2
      return (dims, tpd)
    | none => some s
  else some s

/-- `dims_to_be_skewed`, lib/framework-dfp.c:3126-3152, for component `k`: the loops to be skewed and the new value of
`tile_preventing_deps`. -/
def skewDims (rar : Bool) (a : Auto) (k level : Nat) (tpd : List Bool) : Option (List Bool × List Bool) :=
  a.p.deps.zipIdx.foldlM (skewDimsStep rar a k level) (List.replicate a.p.nvar false, tpd)

/-- Body of the loop of `get_dep_satisfaction_dims`, lib/framework-dfp.c:3155-3177. -/
def satDimsStep (p : Prog) (tpd : List Bool) (s : List Bool) (x : Dep × Nat) : Option (List Bool) :=
  if tpd.getD x.2 false then
    if 0 ≤ x.1.satLevel ∧ x.1.satLevel < (p.hProps.length : Int) then
      setTrue s ((p.hProps.take x.1.satLevel.toNat).countP (fun h => decide (h = .loop)))
    else some s
  else some s

/-- `get_dep_satisfaction_dims`, lib/framework-dfp.c:3155-3177. -/
def satDims (p : Prog) (tpd : List Bool) : Option (List Bool) :=
  p.deps.zipIdx.foldlM (satDimsStep p tpd) (List.replicate p.nvar false)

/-- Loop body of `get_skewing_constraints`, lib/framework-dfp.c:3181-3227, for statement `i`; `outer` is `outer_skew_dim`. -/
def skewStmtCst (a : Auto) (src : List Bool) (outer k level : Nat) (cst : Cst) (x : Stmt × Nat) : Option Cst :=
  let off := stmtOffset a.p.nvar a.p.npar x.2
  if outer ≥ x.1.dimOrig ∧ a.scc x.2 = (k : Int) then
    some (addLb ((List.range x.1.dimOrig).foldl (fun c j => addLb c (off + j) 0) cst) (off + a.p.nvar) 0)
  else do
    let row ← x.1.trans[level]?
    return addLb ((List.range x.1.dimOrig).foldl (fun c j =>
      if src.getD j false = true ∧ a.scc x.2 = (k : Int) then addLb c (off + j) 1
      else setVar c (off + j) (coef row j)) cst) (off + a.p.nvar) 0

/-- `get_skewing_constraints`, lib/framework-dfp.c:3181-3227. -/
def skewCst (a : Auto) (src skew : List Bool) (k level : Nat) (cst : Cst) : Option Cst :=
  let outer := (skew.findIdx? id).getD a.p.nvar
  a.p.stmts.zipIdx.foldlM (skewStmtCst a src outer k level) cst

/-- `get_outermost_sat_level`, lib/framework-dfp.c:3232-3242: the list holds the types of levels `i, i+1, ...`, `j` loops
are before level `i`. -/
def outermostSat (src : List Bool) (maxDim : Int) : List HypType → Nat → Nat → Option Nat
  | [], _, _ => none
  | h :: hs, i, j =>
    if (j : Int) < maxDim then
      if h = .loop then
        if src.getD j false then some i else outermostSat src maxDim hs (i + 1) (j + 1)
      else outermostSat src maxDim hs (i + 1) j
    else none

/-- `get_cc_permutability_constraints`, lib/framework.cpp:320-345 (`none`: no dependence, the C function returns NULL). -/
def ccPermCst (nodepbound : Bool) (p : Prog) (cc : Nat → Int) (c : Int) : Option Cst :=
  match p.deps.filter (fun d => !d.satisfied && decide (cc d.src = c) && decide (cc d.src = cc d.dest)) with
  | [] => none
  | ds => some (ds.foldl (fun cst d => addCst cst (depCst nodepbound p d)) ⟨cstWidth p.nvar p.npar p.stmts.length, []⟩)

/-- Setting the rows of all statements at a level from a solution, with their types, lib/framework-dfp.c:3262-3447. -/
def setLevel (p : Prog) (level : Nat) (sol : List Int) : Prog :=
  { p with stmts := p.stmts.mapIdx (fun j st =>
      let row := hyperplaneRow p.nvar p.npar sol j
      { st with
        trans := st.trans.set level row
        hypTypes := st.hypTypes.set level (if (row.take st.dim).all (fun a => decide (a = 0)) then HypType.scalar else HypType.loop) }) }

/-- Exchange of two rows. -/
def swapRows (t : List (List Int)) (i j : Nat) : List (List Int) := (t.set i (t.getD j [])).set j (t.getD i [])

/-- `swap_trans_for_cc`, lib/framework-dfp.c:3246-3258. -/
def swapTrans (p : Prog) (cc : Nat → Int) (c : Int) (l1 l2 : Nat) : Option Prog :=
  if l1 < l2 ∧ p.hProps[l1]? = some .loop ∧ p.hProps[l2]? = some .loop then
    some { p with stmts := p.stmts.mapIdx (fun i st => if cc i = c then { st with trans := swapRows st.trans l1 l2 } else st) }
  else none

/-- `is_ilp_solution_parallel`, lib/framework-dfp.c:118-126. -/
def solParallel (sol : List Int) (npar : Nat) : Bool := decide ((sol.take (npar + 1)).sum = 0)

/-- The loop over `j` of `introduce_skew`: the first loop level that is to be skewed. The list holds the types of levels
`l, l+1, ...`, before which there are `n` loops. (The C loop starts after the leading scalar levels.) -/
def nextSkewLevel (skew : List Bool) : List HypType → Nat → Nat → Option Nat
  | [], _, _ => none
  | h :: hs, l, n =>
    if h = .loop then (if skew.getD n false then some l else nextSkewLevel skew hs (l + 1) (n + 1))
    else nextSkewLevel skew hs (l + 1) n

/-- State of `introduce_skew`: the program with the components, `tile_preventing_deps`, `is_skew_introduced`. -/
structure Skew where
  a : Auto
  tpd : List Bool
  done : Bool

/-- What is done for a new row at `level`: set it, exchange it with an outer one if it is parallel, and update
satisfaction and directions; lib/framework-dfp.c:3262-3447. -/
def Skew.apply (isEmpty : Cst → Bool) (cc : Nat → Int) (c : Int) (k level : Nat) (src : List Bool) (sol : List Int) (s : Skew) :
    Option Skew := do
  let p := setLevel s.a.p level sol
  let p ← if solParallel sol p.npar then do
      let l ← outermostSat src (s.a.maxDim k) p.hProps 0 0
      swapTrans p cc c l level
    else some p
  let (p, _) ← depSatUpdate isEmpty p level
  let p ← computeDepDirections isEmpty p
  return { s with a := { s.a with p := p }, done := true }

/-- The loop over levels of `introduce_skew`, lib/framework-dfp.c:3262-3447, for component `k`, with the constraints `perm` of its connected
component `c`. The first argument bounds the number of iterations (there are at most as many as levels). -/
def skewLevels (o : SearchOpts) (L : Libs) (lex : Lex) (cc : Nat → Int) (c : Int) (perm : Cst) (k : Nat) :
    Nat → Nat → List Bool → List Bool → Skew → Option Skew
  | 0, _, _, _, s => some s
  | f + 1, level, skew, src, s =>
    if level ≥ s.a.p.hProps.length then some s
    else if s.a.p.hProps[level]? ≠ some .loop then skewLevels o L lex cc c perm k f (level + 1) skew src s
    else match nextSkewLevel skew s.a.p.hProps 0 0 with
      | none => some s
      | some l => do
        let cst ← skewCst s.a src skew k l perm
        match (← lex s.a cst) with
        | none => some s
        | some sol => do
          let s ← s.apply L.isEmpty cc c k l src sol
          if l ≥ s.a.p.hProps.length - 1 then some s
          else do
            let (skew, tpd) ← skewDims o.rar s.a k (l + 1) s.tpd
            let src ← satDims s.a.p tpd
            skewLevels o L lex cc c perm k f (l + 1) skew src { s with tpd := tpd }

/-- The body of the loop over components of `introduce_skew`; `perm c` are the constraints computed for connected component `c`
before the loop, `cuts` the number of scalar levels at the start. -/
def skewScc (o : SearchOpts) (L : Libs) (lex : Lex) (cc : Nat → Int) (perm : Int → Option Cst) (cuts : Nat) (s : Skew) (k : Nat) : Option Skew :=
  let c := cc (s.a.firstStmt k)
  match perm c with
  | none => some s
  | some cst => do
    let (skew, tpd) ← skewDims o.rar s.a k cuts s.tpd
    let src ← satDims s.a.p tpd
    skewLevels o L lex cc c cst k s.a.p.hProps.length (cuts + 1) skew src { s with tpd := tpd }

/-- `introduce_skew`, lib/framework-dfp.c:3262-3447: the new program and whether a skew was introduced. The graph of the program is
exchanged for a new one during the call; in the case without loops it is not put back. -/
def introduceSkew (o : SearchOpts) (L : Libs) (lex : Lex) (a : Auto) : Option (Auto × Bool) :=
  if a.p.hProps.length ≤ 1 then some (a, false)
  else do
    let p ← computeDepDirections L.isEmpty a.p
    let p := depSatReset p
    let g := ddgCreate p
    let cuts := (p.hProps.takeWhile (fun h => decide (h ≠ .loop))).length
    let p ← satUpdates L.isEmpty p cuts
    if cuts = p.hProps.length then return ({ a with p := p, g := g }, false)
    else do
      let g := ddgUpdate g p
      let b ← ({ a with p := p, g := g } : Auto).computeScc
      let (cc, _) ← ddgComputeCc g b.d
      let perm := fun c => ccPermCst o.nodepbound p cc c
      let (p, _) ← depSatUpdate L.isEmpty p cuts
      let s ← (List.range b.num).foldlM (skewScc o L lex cc perm cuts) ⟨{ b with p := p }, List.replicate p.deps.length false, false⟩
      return ({ s.a with g := a.g, num := a.num }, s.done)

/-- The argument `skew` of `dfpTransform` as it is in the code (lib/pluto.c:1674). -/
def dfpSkew (o : SearchOpts) (L : Libs) (lex : Lex) (a : Auto) : Option Auto := (introduceSkew o L lex a).map (·.1)

/-- The same, but only for calls that introduce no skew: `none` if one is introduced. Runs of `dfpTransform` with this argument
are the runs of `pluto_auto_transform` in which `is_skewed` is false. -/
def quietSkew (o : SearchOpts) (L : Libs) (lex : Lex) (a : Auto) : Option Auto :=
  (introduceSkew o L lex a).bind (fun r => if r.2 then none else some r.1)

end Pluto
