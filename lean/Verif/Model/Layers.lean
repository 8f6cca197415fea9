import Mathlib.Analysis.SpecialFunctions.Pow.Real
import Mathlib.Analysis.SpecialFunctions.Log.Base
import Mathlib.Algebra.BigOperators.Fin
import Mathlib.Data.Finset.Max
import Mathlib.Algebra.Order.Round

/-!
# Layer arithmetic: batch normalisation, softmax, power-of-two means, einsum labels

Real arithmetic; quantizers are functions `ℝ → ℝ`.
-/
namespace HGQ
open Finset

/-! ## Batch normalisation -/

/-- `_scaler_and_offset`, batch_normalization.py L100-117: the scale.  `1` when `scale=False`. -/
noncomputable def bnScale (scaleOn : Bool) (gamma var eps : ℝ) : ℝ := (if scaleOn then gamma else 1) / Real.sqrt (var + eps)

/-- L109-115: the offset; note the code's `bn_beta = 1` when `center=False`. -/
noncomputable def bnOffset (center : Bool) (beta mean scale : ℝ) : ℝ := (if center then beta else 1) - mean * scale

/-- `QBatchNormalization.call` at inference, L151-188, one channel. -/
noncomputable def bnCall (kq bq : ℝ → ℝ) (scaleOn center : Bool) (gamma beta mean var eps x : ℝ) : ℝ :=
  let s := bnScale scaleOn gamma var eps
  x * kq s + bq (bnOffset center beta mean s)

/-- `QBatchNormDense.call` at inference, core/dense.py L192-204, L206-229, output unit `j`: the statistics are those of the
INPUTS (L163), the kernel is scaled per input, the offset uses the unscaled kernel (L201). -/
noncomputable def bnDenseCall {n : ℕ} (kq bq : ℝ → ℝ) (scaleOn : Bool) (gamma mean var : Fin n → ℝ) (eps : ℝ)
    (kernel : Fin n → ℝ) (bias : ℝ) (x : Fin n → ℝ) : ℝ :=
  let s := fun i => bnScale scaleOn (gamma i) (var i) eps
  (∑ i, x i * kq (s i * kernel i)) + bq (bias + -(∑ i, mean i * kernel i))

/-- `keras.backend.epsilon()`. -/
noncomputable def backendEps : ℝ := 1e-7

/-- The value of an einsum `in,ker->out` at output index `o`: the sum over all assignments `a` of an index to every label that
agree with `o` on the output labels.  Labels `L`, extents `dim`; tensors are functions of index lists. -/
noncomputable def einsum2 {L : Type} [Fintype L] [DecidableEq L] (dim : L → ℕ) (inA kerA outA : List L) (x k : List ℕ → ℝ)
    (o : List ℕ) : ℝ :=
  ∑ a ∈ univ.filter (fun a : (l : L) → Fin (dim l) => outA.map (fun l => (a l : ℕ)) = o),
    x (inA.map fun l => (a l : ℕ)) * k (kerA.map fun l => (a l : ℕ))

/-- The entry of the statistics (`moving_mean`, `moving_variance`, `gamma`) used for the offset of output index `o`:
`norm_shape` (einsum_dense_batchnorm.py L115) and the cast shape (L104, L171) keep the order of the OUTPUT axes. -/
def bnStatIdx {L : Type} [DecidableEq L] (norm outA : List L) (o : List ℕ) : List ℕ :=
  ((outA.zip o).filter (fun p => p.1 ∈ norm)).map (·.2)

/-- The entry of the scale multiplied into kernel index `k` by `fused_kernel_equation` (einsum_dense_batchnorm.py L112, L119): the normalised labels in
the order of the KERNEL axes. -/
def bnKernelIdx {L : Type} [DecidableEq L] (norm kerA : List L) (k : List ℕ) : List ℕ :=
  ((kerA.zip k).filter (fun p => p.1 ∈ norm)).map (·.2)

/-- `QEinsumDenseBatchnorm` at inference, einsum_dense_batchnorm.py L100-124 (`_compute_fused_einsum_specs`), L158-173
(`get_fused_qkernel_and_qbias`), L185-211 (`call`, no activation), at output index `o`.  `self.epsilon` is not used: the code
calls `keras.backend.epsilon()`.  `bias` is given after broadcasting to the output. -/
noncomputable def einsumBnCall {L : Type} [Fintype L] [DecidableEq L] (kq bq : ℝ → ℝ) (dim : L → ℕ) (inA kerA outA norm : List L)
    (scaleOn : Bool) (gamma mean var : List ℕ → ℝ) (kernel bias x : List ℕ → ℝ) (o : List ℕ) : ℝ :=
  let s := fun n => bnScale scaleOn (gamma n) (var n) backendEps
  einsum2 dim inA kerA outA x (fun k => kq (kernel k * s (bnKernelIdx norm kerA k))) o +
    bq (bias o + -mean (bnStatIdx norm outA o) * s (bnStatIdx norm outA o))

/-! ## Softmax -/

/-- Masked input in stable mode, softmax.py L118-120. -/
noncomputable def smMask (m : Bool) (x : ℝ) : ℝ := (if m then 1 else 0) * x - (1 - (if m then 1 else 0)) * 1e9

/-- L118-125: argument of the exponential table; `mask = none` means no mask given. -/
noncomputable def smArg {n : ℕ} (stable : Bool) (mask : Option (Fin (n + 1) → Bool)) (x : Fin (n + 1) → ℝ) : Fin (n + 1) → ℝ :=
  if stable then
    let y := match mask with | some m => fun i => smMask (m i) (x i) | none => x
    fun i => univ.sup' univ_nonempty y - y i
  else x

/-- `QSoftmax.call`, softmax.py L114-132, along the (flattened) softmax axes of size `n+1`; `expT`, `invT` are the two quantized
tables (one table for all positions, the default `allow_heterogeneous_table=False`), `iq` the optional input quantizer. -/
noncomputable def softmaxCall {n : ℕ} (iq expT invT : ℝ → ℝ) (stable : Bool) (mask : Option (Fin (n + 1) → Bool))
    (x : Fin (n + 1) → ℝ) : Fin (n + 1) → ℝ :=
  let t := smArg stable mask (fun i => iq (x i))
  let e := fun i => expT (t i)
  let e := match mask with | some m => fun i => (if m i then 1 else 0) * e i | none => e
  let d := invT (∑ i, e i)
  fun i => e i * d

/-! ## Power-of-two means -/

/-- `2.0 ** round(log2(1.0 / n))`: `QMeanPow2.build` (ops/accum.py L73-76), `QAveragePow2.build` (ops/merge.py L34-36). -/
noncomputable def pow2Scale (n : ℕ) : ℝ := (2 : ℝ) ^ round (Real.logb 2 (1 / n))

/-- `QMeanPow2.call`/`QAveragePow2._merge_function`: the sum times the scale. -/
noncomputable def meanPow2 {n : ℕ} (x : Fin n → ℝ) : ℝ := (∑ i, x i) * pow2Scale n

/-- The constructor check of `QSum`, ops/accum.py L22 (`log2` raises for a non-positive argument). -/
def qsumAccepts (scale : ℝ) : Prop := 0 < scale ∧ ∃ k : ℤ, Real.logb 2 scale = k

/-! ## `QEinsum` ellipsis expansion -/

/-- An operand of the equation before/after expansion: explicit labels before the ellipsis, whether there is one, labels after
(labels are characters; spaces are stripped, ops/einsum.py L29-30). -/
structure Operand where
  pre : List Char
  dots : Bool
  post : List Char
  deriving DecidableEq

/-- `len(inp_idx)`: the string length, an ellipsis counting 3. -/
def Operand.len (o : Operand) : ℕ := o.pre.length + (if o.dots then 3 else 0) + o.post.length
/-- `set(inp_idx.replace('...', ''))`. -/
def Operand.labels (o : Operand) : List Char := o.pre ++ o.post
/-- `inp_idx.replace('...', rep)`. -/
def Operand.expand (o : Operand) (rep : List Char) : List Char := if o.dots then o.pre ++ rep ++ o.post else o.pre ++ o.post

/-- The 52 letters, L36. -/
def letters : List Char := "abcdefghijklmnopqrstuvwxyzABCDEFGHIJKLMNOPQRSTUVWXYZ".toList

/-- The loop L37-43: the common number of wildcard dimensions (`none`: still unset) and the letters excluded; an `error`
is a failed assertion. -/
def ellipsisScan : List (Operand × ℕ) → Option ℕ → List Char → Except Unit (Option ℕ × List Char)
  | [], w, used => .ok (w, used)
  | (o, nd) :: r, w, used =>
    if o.len ≠ nd then
      if o.dots then
        let k : ℤ := (nd : ℤ) - ((o.len : ℤ) - 3)
        match w with
        | none => if 0 ≤ k then ellipsisScan r (some k.toNat) (used ++ o.labels) else .error ()
        | some w => if (w : ℤ) = k then ellipsisScan r (some w) (used ++ o.labels) else .error ()
      else .error ()
    else ellipsisScan r w used

/-- `QEinsum.build`, ops/einsum.py L27-54: the expanded operands and output.  `order` is the arbitrary iteration order of the
Python set of letters (`list(available_idxs)[:n]`, sorted); the result is `none` when an assertion fails. -/
def qeinsumBuild (order : List Char) (ins : List (Operand × ℕ)) (out : Operand) : Option (List (List Char) × List Char) :=
  match ellipsisScan ins none [] with
  | .error () => none
  | .ok (none, _) => some (ins.map (fun p => p.1.expand "...".toList), out.expand "...".toList)
  | .ok (some w, used) =>
    let rep := ((order.filter (fun c => !used.contains c)).take w).mergeSort (fun a b => decide (a ≤ b))
    some (ins.map (fun p => p.1.expand rep), out.expand rep)

end HGQ
