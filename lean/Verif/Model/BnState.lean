import Verif.Model.Layers
import Verif.Model.Trace

/-!
# Batch-norm layers over a history of calls: running statistics, freezing, training-mode output

Real arithmetic; quantizers of weights are functions `ℝ → ℝ`; the inputs are those after the input quantizer.
A layer keeps statistics for `n` normalised indices; one output value (one output channel) is modelled.
-/
namespace HGQ
open Finset

/-- `moving_mean`, `moving_variance` of one normalised index; also the pair returned by `ops.moments`. -/
structure BnStats where
  mean : ℝ
  var : ℝ

/-- `ops.moments`, first component, over the values reduced. -/
noncomputable def batchMean (b : List ℝ) : ℝ := b.sum / b.length

/-- `ops.moments`, second component (biased variance). -/
noncomputable def batchVar (b : List ℝ) : ℝ := (b.map fun x => (x - batchMean b) ^ 2).sum / b.length

/-- A layer with running statistics.  `feat x j` are the values sample `x` contributes to the statistics of index `j`;
`out st x` is the output on `x` computed with the statistics `st`; `checksTrainable` says whether the guard is
`training and self.trainable` (core/dense.py L210, einsum_dense_batchnorm.py L189, table/dense.py L361) or only `training`
(batch_normalization.py L171). -/
structure BnLayer (X : Type) (n : ℕ) where
  checksTrainable : Bool
  momentum : ℝ
  feat : X → Fin n → List ℝ
  out : (Fin n → BnStats) → X → ℝ

/-- One call: flag `training`, current value of `trainable`, and the batch. -/
structure BnEvent (X : Type) where
  trainable : Bool
  flag : Flag
  batch : List X

/-- The assignment to the moving statistics, batch_normalization.py L129-134, core/dense.py L212-217,
einsum_dense_batchnorm.py L197-202, table/dense.py L363-364. -/
noncomputable def BnStats.update (mu : ℝ) (s batch : BnStats) : BnStats :=
  ⟨s.mean * mu + batch.mean * (1 - mu), s.var * mu + batch.var * (1 - mu)⟩

/-- `ops.moments` of a batch for index `j`, batch_normalization.py L128 (without mask), core/dense.py L211,
einsum_dense_batchnorm.py L191-196, table/dense.py L362. -/
noncomputable def BnLayer.moments {X : Type} {n : ℕ} (L : BnLayer X n) (batch : List X) (j : Fin n) : BnStats :=
  let b := batch.flatMap fun x => L.feat x j
  ⟨batchMean b, batchVar b⟩

/-- `call`: the running statistics afterwards and the outputs, batch_normalization.py L151-188, core/dense.py L206-229,
einsum_dense_batchnorm.py L185-211, table/dense.py L356-392. -/
noncomputable def BnLayer.call {X : Type} {n : ℕ} (L : BnLayer X n) (st : Fin n → BnStats) (e : BnEvent X) :
    (Fin n → BnStats) × List ℝ :=
  if e.flag.truthy && (e.trainable || !L.checksTrainable) then
    (fun j => (st j).update L.momentum (L.moments e.batch j), e.batch.map (L.out (L.moments e.batch)))
  else (st, e.batch.map (L.out st))

/-- The statistics after a history of calls. -/
noncomputable def BnLayer.run {X : Type} {n : ℕ} (L : BnLayer X n) (st : Fin n → BnStats) (h : List (BnEvent X)) : Fin n → BnStats :=
  h.foldl (fun s e => (L.call s e).1) st

/-- `QBatchNormalization`, one channel: guard `if training` (batch_normalization.py L171), scale and offset L137-147 (training)
and L100-117 (inference), output L180-184. -/
noncomputable def qbnLayer (kq bq : ℝ → ℝ) (scaleOn center : Bool) (gamma beta eps mu : ℝ) : BnLayer ℝ 1 where
  checksTrainable := false
  momentum := mu
  feat x _ := [x]
  out st x := bnCall kq bq scaleOn center gamma beta (st 0).mean (st 0).var eps x

/-- `QBatchNormDense`, one output unit: statistics of the inputs, core/dense.py L206-229. -/
noncomputable def bnDenseLayer {n : ℕ} (kq bq : ℝ → ℝ) (scaleOn : Bool) (gamma : Fin n → ℝ) (eps mu : ℝ) (kernel : Fin n → ℝ)
    (bias : ℝ) : BnLayer (Fin n → ℝ) n where
  checksTrainable := true
  momentum := mu
  feat x j := [x j]
  out st x := bnDenseCall kq bq scaleOn gamma (fun i => (st i).mean) (fun i => (st i).var) eps kernel bias x

/-- `QEinsumDenseBatchnorm`, one output unit of a plain dense equation (general equations: `einsumBnCall`): statistics of the
product with the UNQUANTIZED kernel, einsum_dense_batchnorm.py L158-173, L185-207. -/
noncomputable def einsumBnLayer {n : ℕ} (kq bq : ℝ → ℝ) (scaleOn : Bool) (gamma mu : ℝ) (kernel : Fin n → ℝ) (bias : ℝ) :
    BnLayer (Fin n → ℝ) 1 where
  checksTrainable := true
  momentum := mu
  feat x _ := [∑ i, x i * kernel i]
  out st x :=
    let s := bnScale scaleOn gamma (st 0).var backendEps
    (∑ i, x i * kq (kernel i * s)) + bq (bias + -(st 0).mean * s)

/-- `QEinsumDenseT` with `batch_norm=True`, one output unit with `n` tables whose raw outputs are the sample: all tables of the
unit share one pair of statistics (`normalize_axes` defaults to the output axes of the kernel, table/dense.py L296-309), output
L366-378 and L389-390 (sum of the quantized table outputs).  `QDenseT` uses `keras.layers.BatchNormalization` (L108-113), whose
guard is the same `training and self.trainable`. -/
noncomputable def tableBnLayer {n : ℕ} (toq : ℝ → ℝ) (scaleOn center : Bool) (gamma beta eps mu : ℝ) : BnLayer (Fin n → ℝ) 1 where
  checksTrainable := true
  momentum := mu
  feat x _ := List.ofFn x
  out st x :=
    let s := bnScale scaleOn gamma (st 0).var eps
    let off := if center then -(st 0).mean * s + beta else -(st 0).mean * s
    ∑ i, toq ((x i * s + off) / Real.sqrt n)

end HGQ
