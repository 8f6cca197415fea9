import Verif.Model.Layers
import Verif.Model.Wrapper
import Mathlib.Algebra.BigOperators.Intervals
import Mathlib.Data.Fintype.BigOperators

/-!
# Hardware replay of convolution, pooling, fused attention projections, ReLU and softmax

Arrays are functions of flat or per-axis indices; exact rationals (reals for softmax, whose tables are arbitrary functions).
-/
namespace HGQ
open Finset

/-! ## Patch extraction -/

/-- What `keras.ops.image.extract_patches` does: entry `j` of the result is entry `idx j` of the image, or 0 for padding.  `idx`
depends on geometry only (size, strides, dilation, padding). -/
def extractPatches {V : Type} (pad : V) (idx : ℕ → Option ℕ) (img : ℕ → V) (j : ℕ) : V :=
  match idx j with | some i => img i | none => pad

/-- `symbolic_extract_patches_3d`, _dais_tracer/layers/conv.py L15-46: extract patches of the image of encoded indices `-i-1`
(exact in float32 up to `2^24`, `f32` is the rounding to float32), decode, and gather. -/
def symbolicExtract {V : Type} (f32 : ℤ → ℤ) (pad : V) (idx : ℕ → Option ℕ) (img : ℕ → V) (j : ℕ) : V :=
  let imgTensor : ℕ → ℤ := fun i => f32 (-(f32 i) - 1)
  let outTensor := extractPatches 0 idx imgTensor j
  if outTensor = 0 then pad else img (-outTensor - 1).toNat

/-- Rounding of an integer below `2^25` in absolute value to float32 (24-bit significand, ties to even). -/
def f32Int (n : ℤ) : ℤ := if |n| ≤ 2 ^ 24 then n else 2 * roundHalfEven ((n : ℚ) / 2)

/-! ## Grouped convolution -/

/-- Keras convolution at one output position: `x` is the patch, flat over (kernel position, input channel); `K` the kernel, flat
over (kernel position, channel within group, output channel).  `P` kernel positions, `G` groups, `a` input channels and `b`
output channels per group.  Output channel `o` belongs to group `o / b`, which sees input channels `(o/b)*a ...`. -/
def kerasConv (P G a b : ℕ) (x K : ℕ → ℚ) (o : ℕ) : ℚ :=
  ∑ p ∈ range P, ∑ c ∈ range a, x (p * (G * a) + ((o / b) * a + c)) * K ((p * a + c) * (G * b) + o)

/-- `ReplayQConv.call`, _dais_tracer/layers/conv.py L133-141, at one output position: `x.reshape(-1, groups)`,
`kernel.reshape(-1, groups, ch_out // groups)`, `einsum('...ig,igo->...go')`, `reshape(-1)`; row-major.  Bias left out. -/
def replayConv (P G a b : ℕ) (x K : ℕ → ℚ) (o : ℕ) : ℚ :=
  let g := o / b
  let o' := o % b
  ∑ i ∈ range (P * a), x (i * G + g) * K ((i * G + g) * b + o')

/-! ## Pooling -/

/-- `ReplayPool.call` for windowed pooling, _dais_tracer/layers/pool.py L71-103: one window of one channel as `w` entries, `m` the
extracted mask of ones (`none` for an entry that is padding; `valid` padding has no such entries).  Maximum branch: padding
replaced by -2147483648. -/
def replayMaxPool {w : ℕ} (x : Fin (w + 1) → Option ℚ) : ℚ :=
  univ.sup' univ_nonempty fun i => (x i).getD (-2147483648)

/-- Average branch: `sum(x) / sum(mask)`, with padded entries extracted as 0. -/
def replayAvgPool {w : ℕ} (x : Fin (w + 1) → Option ℚ) : ℚ :=
  (∑ i, (x i).getD 0) / ((∑ i, if (x i).isSome then 1 else 0 : ℕ) : ℚ)

/-! ## Fused attention projections -/

/-- One projection at one (position, head): `x @ kernel + bias` along the model dimension. -/
def proj {R : Type} [CommRing R] (d : ℕ) (x : ℕ → R) (kernel : ℕ → ℕ → R) (bias : ℕ → R) (h : ℕ) : R := ∑ a ∈ range d, x a * kernel a h + bias h

/-- `np.concatenate([...], axis=-1)` of blocks of the given widths, at column `h`. -/
def concatCols {V : Type} (default : V) : List (ℕ × (ℕ → V)) → ℕ → V
  | [], _ => default
  | (n, f) :: r, h => if h < n then f h else concatCols default r (h - n)

/-- `np.split(x, k, axis=-1)` of a row of width `w`: `k` equal parts; an error if the width is not divisible. -/
def npSplit {R : Type} (k w : ℕ) (x : ℕ → R) : Option (List (ℕ × (ℕ → R))) :=
  if k ≠ 0 ∧ w % k = 0 then some ((List.range k).map fun s => (w / k, fun h => x (s * (w / k) + h))) else none

/-- `_fused_qkv_proj`, _dais_tracer/layers/attn.py L17-60 and _alkaid_keras_plugin/attn.py, before the output quantizers: the
kernels and biases of the given projections concatenated on the last axis, one einsum, split into equal parts.  `fuse="qkv"` uses
the three projections, `fuse="kv"` the last two. -/
def fusedProj {R : Type} [CommRing R] (d : ℕ) (x : ℕ → R) (parts : List (ℕ × (ℕ → ℕ → R) × (ℕ → R))) : Option (List (ℕ × (ℕ → R))) :=
  let kernel : ℕ → ℕ → R := fun a => concatCols 0 (parts.map fun p => (p.1, p.2.1 a))
  let bias := concatCols 0 (parts.map fun p => (p.1, p.2.2))
  npSplit parts.length ((parts.map (·.1)).sum) (proj d x kernel bias)

/-! ## ReLU -/

/-- Keras `ReLU(max_value, negative_slope, threshold)` (also LeakyReLU and, element-wise, PReLU, with threshold 0 and no maximum):
`x > threshold ↦ clip(x, 0, max)`, else `negative_slope * (x - threshold)`.  The layer rejects negative threshold and max. -/
def kerasReLU (th neg : ℚ) (maxv : Option ℚ) (x : ℚ) : ℚ :=
  if x > th then (match maxv with | some m => clip 0 m x | none => x) else neg * (x - th)

/-- `relu` of the tracer. -/
def tracerRelu (x : ℚ) : ℚ := max x 0

/-- `ReplayReLU.call`, _dais_tracer/layers/activation.py L19-43, for an element with `f` fractional bits; `msb_mux` picks its
first argument for a negative selector. -/
def replayReLU (th neg : ℚ) (maxv : Option ℚ) (f : ℤ) (x : ℚ) : ℚ :=
  if th = 0 ∧ neg = 0 ∧ maxv = none then tracerRelu x
  else
    let posPart := match maxv with | some m => min x m | none => x
    let zCond := if th ≠ 0 then x - (th + 2 ^ (-f - 1)) else x
    let negPart := (x - th) * neg
    if zCond < 0 then negPart else posPart

/-! ## Softmax -/

/-- `ReplayQSoftmax.call`, _dais_tracer/layers/activation.py L63-85 and _alkaid_keras_plugin/activation.py L27-52: masked inputs are
replaced by `low`, the smallest lower bound of all traced inputs minus one.  Tables as in `softmaxCall`. -/
noncomputable def replaySoftmax {n : ℕ} (iq expT invT : ℝ → ℝ) (stable : Bool) (mask : Option (Fin (n + 1) → Bool)) (low : ℝ)
    (x : Fin (n + 1) → ℝ) : Fin (n + 1) → ℝ :=
  let inputs := fun i => iq (x i)
  let t := if stable then
      let y := match mask with | some m => fun i => if m i then inputs i else low | none => inputs
      fun i => univ.sup' univ_nonempty y - y i
    else inputs
  let e := fun i => expT (t i)
  let e := match mask with | some m => fun i => (if m i then 1 else 0) * e i | none => e
  let d := invT (∑ i, e i)
  fun i => e i * d

end HGQ
