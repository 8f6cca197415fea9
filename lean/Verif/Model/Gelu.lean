import Mathlib.Analysis.SpecialFunctions.Gaussian.GaussianIntegral
import Mathlib.MeasureTheory.Integral.IntervalIntegral.Basic
import Mathlib.Analysis.Complex.Trigonometric

/-!
# `gelu` in Keras and in the tracers
-/
namespace HGQ
open Real

/-- The error function. -/
noncomputable def erf (z : ℝ) : ℝ := 2 / √π * ∫ s in (0 : ℝ)..z, exp (-s ^ 2)

/-- `keras.activations.gelu` with its default `approximate=False` (documented: `0.5 * x * (1 + erf(x / sqrt(2)))`). -/
noncomputable def geluKeras (x : ℝ) : ℝ := 1 / 2 * x * (1 + erf (x / √2))

/-- `keras_act_to_numpy`, `_dais_tracer/layers/table.py` L32-33 and `_alkaid_keras_plugin/table.py` L37-38. -/
noncomputable def geluNumpy (x : ℝ) : ℝ := 0.5 * x * (1 + tanh (√(2 / π) * (x + 0.044715 * x ^ 3)))

end HGQ
