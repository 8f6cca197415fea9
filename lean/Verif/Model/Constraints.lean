import Mathlib.Data.Rat.Defs
import Mathlib.Algebra.Order.Field.Rat

/-! # Weight constraints (`src/hgq/constraints/__init__.py`) -/
namespace HGQ

/-- The four constraint classes: `MinMax` (L11-24), `Constant` (L27-39), `Min` (L42-54), `Max` (L57-69). -/
inductive Constraint
  | minMax (lo hi : ℚ)
  | constant (v : ℚ)
  | min (lo : ℚ)
  | max (hi : ℚ)
  deriving DecidableEq, Repr

/-- `__call__` of each constraint: `ops.clip(w, lo, hi)` (L19-21), `full_like(w, v)` (L34-36),
`ops.maximum(w, lo)` (L49-51), `ops.minimum(w, hi)` (L64-66). -/
def Constraint.apply (c : Constraint) (w : ℚ) : ℚ :=
  match c with
  | .minMax lo hi => Min.min (Max.max w lo) hi
  | .constant v => v
  | .min lo => Max.max w lo
  | .max hi => Min.min w hi

/-- An optional constraint as used at fixed_point_quantizer.py L284-285, L291-292, L411-412, L416-417:
`if self._i.constraint is not None: new_i = self._i.constraint(new_i)`. -/
def applyC (c : Option Constraint) (w : ℚ) : ℚ :=
  match c with
  | none => w
  | some c => c.apply w

end HGQ
