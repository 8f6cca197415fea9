import Verif.Model.FixedPoint
import Mathlib.Analysis.SpecialFunctions.Pow.Real

/-!
# The minifloat quantizer

Models `FloatPointQuantizer` (`src/hgq/quantizer/internal/float_point_quantizer.py`): the reported quantities of one
bit-width cell, and the call, which delegates to `float_quantize` of the external `quantizers` package.  Numbers are
real, because `2 ** x` is taken with exponents that need not be integers.
-/
namespace HGQ

/-- Variables of one cell: `_m`, `_e`, `_e0` (raw, before rounding), float_point_quantizer.py L66-92. -/
structure FloatState where
  mw : ℚ
  ew : ℚ
  e0w : ℚ

/-- Property `m`: `round_conv` of the variable, float_point_quantizer.py L95-97. -/
def FloatState.m (s : FloatState) : ℤ := roundHalfEven s.mw
/-- Property `e`, float_point_quantizer.py L100-101. -/
def FloatState.e (s : FloatState) : ℤ := roundHalfEven s.ew
/-- Property `e0`, float_point_quantizer.py L104-105. -/
def FloatState.e0 (s : FloatState) : ℤ := roundHalfEven s.e0w

/-- Property `bits` (and `fbits`): `m + e + 1`, float_point_quantizer.py L107-113. -/
def FloatState.bits (s : FloatState) : ℤ := s.m + s.e + 1

/-- Property `max`: `2.0 ** (2 ** (e - 1.0) + e0 - 1) * (2 - 2.0 ** -m)`, float_point_quantizer.py L119-121. -/
noncomputable def FloatState.max (s : FloatState) : ℝ :=
  (2 : ℝ) ^ ((2 : ℝ) ^ ((s.e : ℝ) - 1) + (s.e0 : ℝ) - 1) * (2 - (2 : ℝ) ^ (-(s.m : ℝ)))

/-- Property `min`: `-self.max`, float_point_quantizer.py L115-117. -/
noncomputable def FloatState.min (s : FloatState) : ℝ := -s.max

/-- Property `epsilon`: `2.0 ** (-(2 ** (e - 1)) + e0 + 1) * (2.0 ** -m)`, float_point_quantizer.py L123-125. -/
noncomputable def FloatState.epsilon (s : FloatState) : ℝ :=
  (2 : ℝ) ^ (-((2 : ℝ) ^ ((s.e : ℝ) - 1)) + (s.e0 : ℝ) + 1) * (2 : ℝ) ^ (-(s.m : ℝ))

/-- `call`, float_point_quantizer.py L127-131: every element goes to the external `float_quantize(x, m, e, e0)`
(parameter `fq`) with the widths of its cell. -/
def FloatState.call (fq : ℝ → ℤ → ℤ → ℤ → ℝ) (s : FloatState) (xs : List ℝ) : List ℝ :=
  xs.map fun x => fq x s.m s.e s.e0

end HGQ
