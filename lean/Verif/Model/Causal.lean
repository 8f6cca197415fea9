import Verif.Model.Trace
import Mathlib.Data.Real.Basic
import Mathlib.Algebra.BigOperators.Fin

/-!
# `QConv1D` with causal padding as a stateful object

One output filter, one group; the quantized kernel and bias are given.  Tensors are functions of position and channel; a read outside
the tensor never happens in the real code and is irrelevant here because all index sets are bounded by the shapes.
-/
namespace HGQ
open Finset

/-- The attribute `padding`. -/
inductive Pad | valid | same | causal
  deriving DecidableEq, Repr

/-- A built layer.  `iqTime = none`: the bit widths are shared along time; `some n`: the bit-width tensor has size `n` along time
(the default `datalane` quantizer, built with the length of the UNPADDED input, core/base.py L254-273). -/
structure Conv1D (c : ℕ) where
  k : ℕ
  dil : ℕ
  stride : ℕ
  kernel : Fin k → Fin c → ℝ
  bias : ℝ
  enableEbops : Bool
  iqTime : Option ℕ
  iq : ℕ → Fin c → ℝ → ℝ

/-- `left_pad`, conv.py L155. -/
def Conv1D.left {c : ℕ} (L : Conv1D c) : ℕ := L.dil * (L.k - 1)

/-- `ops.pad` with `[[0, 0], [left_pad, 0], [0, 0]]`, conv.py L154-160, L167. -/
def padLeft {c : ℕ} (p : ℕ) (x : ℕ → Fin c → ℝ) : ℕ → Fin c → ℝ := fun t => if t < p then fun _ => 0 else x (t - p)

/-- `broadcast_to` of the bit widths to the input (`bw_to_x`, quantizer/internal/base.py L182-183): possible iff the time size is
the length or one. -/
def Conv1D.iqFits {c : ℕ} (L : Conv1D c) (T : ℕ) : Bool :=
  match L.iqTime with
  | none => true
  | some n => n = T || n = 1

/-- Left padding of 'same' in Keras (all backends): total `max ((ceil (T/s) - 1) * s + eff - T) 0`, the smaller half on the left. -/
def sameLeft (T s eff : ℕ) : ℕ := (((T + s - 1) / s - 1) * s + eff - T) / 2

/-- A convolution without padding at output `t`. -/
def Conv1D.window {c : ℕ} (L : Conv1D c) (x : ℕ → Fin c → ℝ) (t : ℕ) : ℝ :=
  ∑ j : Fin L.k, ∑ i : Fin c, x (t * L.stride + j * L.dil) i * L.kernel j i

/-- `convolution_op` → `keras.ops.conv` with the given padding string on an input of length `T`: the output length and values, or
`none` when it raises.  Keras documents `padding` as "valid" or "same" only; a valid convolution needs at least one window. -/
def Conv1D.convOp {c : ℕ} (L : Conv1D c) (pad : Pad) (T : ℕ) (x : ℕ → Fin c → ℝ) : Option (ℕ × (ℕ → ℝ)) :=
  let eff := L.dil * (L.k - 1) + 1
  match pad with
  | .causal => none
  | .valid =>
    if T < eff then none
    else some ((T - eff) / L.stride + 1, L.window x)
  | .same =>
    let l := sameLeft T L.stride eff
    some ((T + L.stride - 1) / L.stride, L.window fun u i => if l ≤ u ∧ u < l + T then x (u - l) i else 0)

/-- `QBaseConv.call`, conv.py L72-89 (no activation): quantize, convolve with the CURRENT padding attribute, add the bias. -/
def Conv1D.baseCall {c : ℕ} (L : Conv1D c) (pad : Pad) (T : ℕ) (x : ℕ → Fin c → ℝ) : Option (ℕ × (ℕ → ℝ)) :=
  if L.iqFits T then (L.convOp pad T (fun t i => L.iq t i (x t i))).map fun r => (r.1, fun t => r.2 t + L.bias) else none

/-- `_compute_ebops`, conv.py L91-102: `convolution_op` on the bit widths, with the current padding attribute and the unpadded
shape; here only whether it succeeds. -/
def Conv1D.ebopsOk {c : ℕ} (L : Conv1D c) (pad : Pad) (T : ℕ) : Bool :=
  L.iqFits T && (L.convOp pad T (fun _ _ => 0)).isSome

/-- `QConv1D.call`, conv.py L162-172: the result (`none` = exception) and the `padding` attribute afterwards.  The attribute is set
to 'valid' at L168 and restored at L171 only if L169 returned. -/
def Conv1D.padCall {c : ℕ} (L : Conv1D c) (pad : Pad) (T : ℕ) (x : ℕ → Fin c → ℝ) : Option (ℕ × (ℕ → ℝ)) × Pad :=
  if pad = .causal then
    let r := L.baseCall .valid (T + L.left) (padLeft L.left x)
    (r, if r.isSome then .causal else .valid)
  else (L.baseCall pad T x, pad)

/-- The wrapper of the metaclass around it (core/base.py L88-110): in training or calibration with EBOPs enabled, `_compute_ebops` runs
after the call, and an exception in it is an exception of the call. -/
def Conv1D.call {c : ℕ} (L : Conv1D c) (pad : Pad) (T : ℕ) (x : ℕ → Fin c → ℝ) (fl : Flag) : Option (ℕ × (ℕ → ℝ)) × Pad :=
  let r := L.padCall pad T x
  if (fl.truthy || fl.eqTracing) && L.enableEbops && !L.ebopsOk r.2 T then (none, r.2) else r

/-- A history of calls: lengths, inputs and flags. -/
def Conv1D.run {c : ℕ} (L : Conv1D c) (pad : Pad) (h : List (ℕ × (ℕ → Fin c → ℝ) × Flag)) : Pad :=
  h.foldl (fun p e => (L.call p e.1 e.2.1 e.2.2).2) pad

end HGQ
