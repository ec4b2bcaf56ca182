import Verif.Model.Extent
import Verif.Spec.Bounds

/-! What the printed expressions mean in C (with exact arithmetic), and what bounds and extents are. -/

namespace Pluto

/-- The value of a term for the parameters `q`. -/
def CTerm.value (q : List Int) : CTerm → Int
  | .par c i => c * q.getD i 0
  | .num c => c

/-- The value of terms one after the other. -/
def termsValue (q : List Int) (l : List CTerm) : Int := (l.map (CTerm.value q)).sum

/-- The first operand of the text in a sum: a minus sign before the text applies to this. -/
def CExpr.first (q : List Int) : CExpr → Int
  | .lin (t :: _) => t.value q
  | .lin [] => 0
  | .floorDiv l d => termsValue q l / d
  | .ceilDiv l d => -(-(termsValue q l) / d)

/-- The sum of the other operands. -/
def CExpr.others (q : List Int) : CExpr → Int
  | .lin l => termsValue q l.tail
  | _ => 0

def CExpr.value (q : List Int) (e : CExpr) : Int := e.first q + e.others q

def CBound.value (q : List Int) : CBound → Int
  | .one e => e.value q
  | .fn true e b => max (e.value q) (b.value q)
  | .fn false e b => min (e.value q) (b.value q)

def CBound.first (q : List Int) : CBound → Int
  | .one e => e.first q
  | b => b.value q

def CBound.others (q : List Int) : CBound → Int
  | .one e => e.others q
  | _ => 0

/-- The value of `ub - lb + 1`: subtraction associates to the left and applies to the first operand of the text of `lb` only. -/
def CExtent.value (q : List Int) : CExtent → Int
  | .num k => k
  | .diff ub lb => ub.value q - lb.first q + lb.others q + 1

/-- The value of a printed sum of products. -/
def boxValue (q : List Int) (l : List (List CExtent)) : Int := (l.map (fun es => (es.map (CExtent.value q)).prod)).sum

/-- The text is a single operand: one term, or a call of `max`, `min`, `floorf` or `ceilf`. -/
def CBound.Single : CBound → Prop
  | .one (.lin l) => l.length ≤ 1
  | _ => True

/-- Different points of the dimensions `pre.length, ..., pre.length + num - 1` of `c`, for the values `pre` of the dimensions before and the
parameters `q`. -/
def BlockPoints (c : Cst) (num : Nat) (q pre : List Int) (pts : List (List Int)) : Prop :=
  pts.Nodup ∧ ∀ t ∈ pts, t.length = num ∧ ∃ mid : List Int, pre.length + num + mid.length + q.length + 1 = c.ncols ∧
    c.Sat (pre ++ t ++ mid ++ q)

end Pluto
