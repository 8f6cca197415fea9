import Verif.Model.Trace

/-! # `Quantizer` wrapper layer and its hardware replay -/
namespace HGQ

/-- `Quantizer.call`, `src/hgq/quantizer/quantizer.py` L49-60, on one element; `qf` is the internal quantizer
(`self.quantizer.call(·, training)`).  Note that L51 rebinds `inputs` to the scaled value, which L57 then uses. -/
def quantizerCall (scaler : Option ℚ) (affine : Option (ℚ × ℚ)) (qnoise : Option ℚ) (fl : Flag) (qf : ℚ → ℚ) (x : ℚ) : ℚ :=
  let inputs := match scaler with | some s => x / s | none => x
  let outputs := qf inputs
  let outputs := match scaler with | some s => outputs * s | none => outputs
  let outputs := match qnoise with
    | some r => if fl.truthy then inputs + r * (outputs - inputs) else outputs
    | none => outputs
  match affine with
  | some (a, b) => outputs * a + b
  | none => outputs

/-- `astype(np.int8)` of an integer (two's complement; numpy leaves out-of-range floats undefined). -/
def int8 (z : ℤ) : ℤ := (z + 128) % 256 - 128

/-- `mirror_quantizer`, `src/hgq/_dais_tracer/layers/_base.py` L20-34 and `src/hgq/_alkaid_keras_plugin/_base.py` L15-28.
The external `quantize` of da4ml/alkaid is modelled by the same fixed-point quantization as the Keras one
(with zero for total width <= 0): trusted base. -/
def mirrorQuantizer (scaler : Option ℚ) (affine : Option (ℚ × ℚ)) (rm : RoundMode) (om : OverflowMode)
    (k : Bool) (i f : ℤ) (v : ℚ) : ℚ :=
  let v := match scaler with | some s => v * (1 / s) | none => v
  let rq := quantize rm om k (int8 i) (int8 f) v
  match affine with
  | some (a, b) => rq * a + b
  | none => rq

/-- What `HardTanhConfig` fixes (`src/hgq/quantizer/config.py` L647-669): k0=1, i pinned to 0 by `Constant(0)`,
overflow SAT_SYM if symmetric else SAT, no affine.  `f` and the rounding mode are free. -/
def hardTanhQ (symmetric : Bool) (rm : RoundMode) (f : ℤ) (x : ℚ) : ℚ :=
  quantizerCall none none none .false (quantize rm (if symmetric then .SAT_SYM else .SAT) true 0 f) x

/-- What `HardSigmoidConfig` fixes (config.py L687-707): k0=1, i pinned to 1, SAT, affine (0.25, 0.5). -/
def hardSigmoidQ (rm : RoundMode) (f : ℤ) (x : ℚ) : ℚ :=
  quantizerCall none (some (1 / 4, 1 / 2)) none .false (quantize rm .SAT true 1 f) x

end HGQ
