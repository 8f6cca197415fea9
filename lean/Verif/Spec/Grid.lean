import Mathlib.Data.Rat.Defs
import Mathlib.Algebra.Order.Field.Rat
import Mathlib.Algebra.Order.Group.Unbundled.Abs

/-!
# Specification vocabulary for fixed-point numbers

Nothing here refers to the model of the code.
-/
namespace HGQ.Spec

/-- `v` is an integer multiple of `2^-f`. -/
def OnGrid (f : ℤ) (v : ℚ) : Prop := ∃ n : ℤ, v = n * 2 ^ (-f)

/-- `v` and `w` differ by an integer multiple of `M`. -/
def CongrMod (M : ℚ) (v w : ℚ) : Prop := ∃ n : ℤ, v = w + n * M

/-- Total width: sign bit + integer bits + fractional bits. -/
def width (k : Bool) (i f : ℤ) : ℤ := (if k then 1 else 0) + i + f

/-- Lower end of the two's-complement (or unsigned, if `k = false`) range with `i` integer bits. -/
def lowTC (k : Bool) (i : ℤ) : ℚ := if k then - 2 ^ i else 0
/-- Largest value of the format. -/
def high (i f : ℤ) : ℚ := 2 ^ i - 2 ^ (-f)
/-- Lower end of the symmetric format. -/
def lowSym (k : Bool) (i f : ℤ) : ℚ := if k then - (2 ^ i - 2 ^ (-f)) else 0

/-- `v` is on the grid `2^-f` and in the closed interval `[lo, hi]`. -/
def Representable (f : ℤ) (lo hi v : ℚ) : Prop := OnGrid f v ∧ lo ≤ v ∧ v ≤ hi

/-- `v` is `x` rounded to the nearest multiple of `2^-f`, ties towards +∞. -/
def IsNearestTiesUp (f : ℤ) (x v : ℚ) : Prop :=
  OnGrid f v ∧ x - 2 ^ (-f) / 2 < v ∧ v ≤ x + 2 ^ (-f) / 2

/-- `v` is `x` rounded to the nearest multiple of `2^-f`, ties to an even multiple. -/
def IsNearestTiesEven (f : ℤ) (x v : ℚ) : Prop :=
  ∃ n : ℤ, v = n * 2 ^ (-f) ∧ |v - x| ≤ 2 ^ (-f) / 2 ∧ (|v - x| = 2 ^ (-f) / 2 → n % 2 = 0)

/-- `v` is `x` rounded down to a multiple of `2^-f`. -/
def IsFloor (f : ℤ) (x v : ℚ) : Prop := OnGrid f v ∧ v ≤ x ∧ x < v + 2 ^ (-f)

end HGQ.Spec
