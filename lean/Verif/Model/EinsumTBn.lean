import Verif.Model.EinsumTArr

/-!
# Batch normalization of `QEinsumDenseT` in training

`layers/table/dense.py` L296-342 (weights) and L361-385 (`_apply_batch_norm`).  Axes are labels: `P` the labels of the array before the sum
(`presum_idxs`), `norm` those of `normalize_axes`.  Exact rationals; the square root is any function.
-/
namespace HGQ

/-- The weights, L311-342; all of shape `bn_shape`: the sizes of the labels in the order of `normalize_axes` (L303). -/
structure BnW where
  norm : List ℕ
  gamma : Option (Arr ℚ)
  beta : Option (Arr ℚ)
  mean : Arr ℚ
  var : Arr ℚ
  momentum : ℚ

/-- `normalize_axes` if none is given, L297-299: `bias_axes or ...`, so an empty string counts as none; else the kernel labels that are in the output, in the order of the kernel. -/
def defaultNorm (biasAxes : Option (List ℕ)) (kernel output : List ℕ) : List ℕ :=
  match biasAxes with
  | some (a :: l) => a :: l
  | _ => kernel.filter fun c => decide (c ∈ output)

/-- Mean of a list. -/
def npMean (l : List ℚ) : ℚ := l.sum / l.length

/-- Variance of a list. -/
def npVar (l : List ℚ) : ℚ := npMean (l.map fun v => (v - npMean l) ^ 2)

/-- `bn_reduction_axes`, L307-310, as one flag per axis. -/
def bnFlags (P norm : List ℕ) : List Bool := P.map fun c => decide (c ∉ norm)

/-- `variable.assign(value)`: the shapes must agree. -/
def assignArr (old new : Arr ℚ) : Option (Arr ℚ) := if new.shape = old.shape then some new else none

/-- `moving.assign(moving * momentum + value * (1 - momentum))`, L369-370. -/
def bnUpdate (momentum : ℚ) (moving value : Arr ℚ) : Option (Arr ℚ) :=
  (npArith (· + ·) (moving.mapQ (· * momentum)) (value.mapQ (· * (1 - momentum)))).bind (assignArr moving)

/-- L374-377: `gamma / sqrt(var + eps)`, `1 / sqrt(var + eps)` without gamma. -/
def bnScaler (gamma : Option (Arr ℚ)) (std : Arr ℚ) : Option (Arr ℚ) :=
  match gamma with
  | some g => npArith (· / ·) g std
  | none => some (std.mapQ (1 / ·))

/-- L379-380. -/
def bnShift (beta : Option (Arr ℚ)) (offset : Arr ℚ) : Option (Arr ℚ) :=
  match beta with
  | some b => npArith (· + ·) offset b
  | none => some offset

/-- L374-385: scaler and offset from mean and variance, reshaped, applied.  `sq v` is `sqrt(v + epsilon)`, `root` is `sqrt(n_in)`. -/
def bnAffine (P : List ℕ) (size : ℕ → ℕ) (sq : ℚ → ℚ) (root : ℚ) (n : BnW) (mean var x : Arr ℚ) : Option (Arr ℚ) :=
  (bnScaler n.gamma (var.mapQ sq)).bind fun scaler =>
  (npArith (· * ·) (mean.mapQ (- ·)) scaler).bind fun offset =>
  (bnShift n.beta offset).bind fun offset =>
  (npReshape (bnBroadcast P size n.norm) scaler).bind fun scaler =>
  (npReshape (bnBroadcast P size n.norm) offset).bind fun offset =>
  (npArith (· * ·) x scaler).bind fun y => (npArith (· + ·) y offset).map (Arr.mapQ (· / root))

/-- `_apply_batch_norm`, L361-385: result and new weights; `none` is an exception. -/
def bnEinsumT (training trainable : Bool) (P : List ℕ) (size : ℕ → ℕ) (sq : ℚ → ℚ) (root : ℚ) (n : BnW) (x : Arr ℚ) : Option (Arr ℚ × BnW) :=
  if training && trainable then
    let mean := npReduce npMean false (bnFlags P n.norm) x
    let var := npReduce npVar false (bnFlags P n.norm) x
    (bnUpdate n.momentum n.mean mean).bind fun m => (bnUpdate n.momentum n.var var).bind fun v =>
    (bnAffine P size sq root n mean var x).map fun y => (y, { n with mean := m, var := v })
  else (bnAffine P size sq root n n.mean n.var x).map fun y => (y, n)

end HGQ
