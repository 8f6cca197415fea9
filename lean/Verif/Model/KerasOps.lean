import Verif.Model.ReplayOps

/-!
# Keras operations on tensors: arithmetic, reductions, matrix products, reshapes

`_dais_tracer/layers/ops.py`.  The Keras side is numpy on arrays with batch axis, the tracer numpy on one sample.  An argument of an operation
is a tensor of the model or a constant, which `replace_tensors` (main.py L55-64) hands over unchanged.  `none` is an exception.
-/
namespace HGQ

/-- numpy element-wise operation: leading axes are added to the argument of lower rank, then axes are broadcast. -/
def npArith (op : ℚ → ℚ → ℚ) (a b : Arr ℚ) : Option (Arr ℚ) :=
  npBin op (a.pad (max a.shape.length b.shape.length - a.shape.length)) (b.pad (max a.shape.length b.shape.length - b.shape.length))

/-- The operations `keras.ops.add` etc. -/
inductive ArithOp | add | subtract | multiply | divide | maximum | minimum

/-- What Keras computes per element. -/
def ArithOp.fn : ArithOp → ℚ → ℚ → ℚ
  | .add, x, y => x + y
  | .subtract, x, y => x - y
  | .multiply, x, y => x * y
  | .divide, x, y => x / y
  | .maximum, x, y => max x y
  | .minimum, x, y => min x y

/-- `keras.ops.<op>(x1, x2)` on arrays. -/
def kerasArith (op : ArithOp) (x1 x2 : Arr ℚ) : Option (Arr ℚ) := npArith op.fn x1 x2

/-- `ReplayArithmetic.call`, ops.py L136-152. -/
def daArith (op : ArithOp) (x1 x2 : Arr ℚ) : Option (Arr ℚ) :=
  match op with
  | .add => npArith (· + ·) x1 x2
  | .subtract => npArith (· - ·) x1 x2
  | .multiply => npArith (· * ·) x1 x2
  | .divide => npArith (· / ·) x1 x2
  | .maximum => npArith max x1 x2
  | .minimum => npArith min x1 x2

/-! ## Reductions -/

/-- numpy `x[0]`, an exception for an array without axes. -/
def npFirst? (x : Arr ℚ) : Option (Arr ℚ) := if x.shape = [] then none else some (x.sample 0)

/-- `ReplayReduction.call(x, axis=None, keepdims=False)`, ops.py L114-121; `fl` flags the axes of `x[None]`, `none` stands for `axis=None`. -/
def daReduceCall (red : List ℚ → ℚ) (x : Arr ℚ) (fl : Option (List Bool) := none) (keep : Bool := false) : Option (Arr ℚ) :=
  npFirst? (npReduce red keep (fl.getD (List.replicate (x.shape.length + 1) true)) (npExpand x))

/-- The reduction as called by the tracer: `keras.ops.sum(x, axis, keepdims)` on a tensor of a model creates an operation that stores `axis` and
`keepdims` as attributes, the arguments of its node are `[x]` only (main.py L41-50, L101-122). -/
def daReduction (red : List ℚ → ℚ) (_opAxis : List Bool) (_opKeep : Bool) (x : Arr ℚ) : Option (Arr ℚ) := daReduceCall red x

/-! ## Matrix products -/

/-- numpy `a @ b` for arrays with at least two axes. -/
def npMatmul2 (a b : Arr ℚ) : Option (Arr ℚ) :=
  let R := max a.shape.length b.shape.length
  let a' := a.pad (R - a.shape.length)
  let b' := b.pad (R - b.shape.length)
  if a'.shape.getD (R - 1) 0 = b'.shape.getD (R - 2) 0 then
    (bcDims (a'.shape.take (R - 2)) (b'.shape.take (R - 2))).map fun sh =>
      ⟨sh ++ [a'.shape.getD (R - 2) 0, b'.shape.getD (R - 1) 0], fun idx =>
        ((List.range (a'.shape.getD (R - 1) 0)).map fun t =>
          a'.get (bcastIdx (a'.shape.take (R - 2)) (idx.take (R - 2)) ++ [idx.getD (R - 2) 0, t]) *
          b'.get (bcastIdx (b'.shape.take (R - 2)) (idx.take (R - 2)) ++ [t, idx.getD (R - 1) 0])).sum⟩
  else none

/-- numpy `a @ b`: a vector on the left is a row, on the right a column; the axis is dropped from the result. -/
def npMatmul (a b : Arr ℚ) : Option (Arr ℚ) :=
  if a.shape.length = 0 ∨ b.shape.length = 0 then none
  else if a.shape.length = 1 ∧ b.shape.length = 1 then
    (npMatmul2 (a.pad 1) ⟨b.shape ++ [1], fun idx => b.get idx.dropLast⟩).map fun r => ⟨[], fun _ => r.get [0, 0]⟩
  else if a.shape.length = 1 then
    (npMatmul2 (a.pad 1) b).map fun r => ⟨r.shape.eraseIdx (r.shape.length - 2), fun idx => r.get (idx.insertIdx (r.shape.length - 2) 0)⟩
  else if b.shape.length = 1 then
    (npMatmul2 a ⟨b.shape ++ [1], fun idx => b.get idx.dropLast⟩).map fun r => ⟨r.shape.dropLast, fun idx => r.get (idx ++ [0])⟩
  else npMatmul2 a b

/-- `keras.ops.dot` on arrays with at least two axes: the last axis of `a` with the last but one of `b`, all other axes kept. -/
def npDot (a b : Arr ℚ) : Option (Arr ℚ) :=
  if 2 ≤ a.shape.length ∧ 2 ≤ b.shape.length ∧ a.shape.getLastD 0 = b.shape.getD (b.shape.length - 2) 0 then
    some ⟨a.shape.dropLast ++ b.shape.eraseIdx (b.shape.length - 2), fun idx =>
      ((List.range (a.shape.getLastD 0)).map fun t =>
        a.get (idx.take (a.shape.length - 1) ++ [t]) * b.get ((idx.drop (a.shape.length - 1)).insertIdx (b.shape.length - 2) t)).sum⟩
  else none

/-- `ReplayMatmul.call`, ops.py L235-236, for `Matmul` and `Dot`. -/
def daMatmul (x1 x2 : Arr ℚ) : Option (Arr ℚ) := npMatmul x1 x2

/-! ## Reshapes -/

/-- A target shape with at most one `-1`, for an array of `n` entries. -/
def resolveShape (t : List ℤ) (n : ℕ) : Option (List ℕ) :=
  if t.count (-1) = 0 then
    if (∀ z ∈ t, 0 ≤ z) ∧ (t.map Int.toNat).prod = n then some (t.map Int.toNat) else none
  else if t.count (-1) = 1 then
    let p := ((t.filter (· ≠ -1)).map Int.toNat).prod
    if (∀ z ∈ t, -1 ≤ z) ∧ p ≠ 0 ∧ n % p = 0 then some (t.map fun z => if z = -1 then n / p else z.toNat) else none
  else none

/-- `np.reshape(x, t)`. -/
def npReshapeNeg (t : List ℤ) (a : Arr ℚ) : Option (Arr ℚ) := (resolveShape t a.shape.prod).bind fun u => npReshape u a

/-- `keras.layers.Reshape(t)`: `t` is resolved against the size of one sample. -/
def kerasReshapeLayer (t : List ℤ) (a : Arr ℚ) : Option (Arr ℚ) :=
  (resolveShape t a.shape.tail.prod).bind fun u => npReshape (a.shape.headD 0 :: u) a

/-- `ReplayReshape.call` for `keras.layers.Reshape`, ops.py L54-55. -/
def daReshapeLayer (t : List ℤ) (v : Arr ℚ) : Option (Arr ℚ) := npReshapeNeg t v

/-- `ReplayReshape.call` for `keras.ops.reshape(x, newshape)`, ops.py L56-57: `newshape[1:]`. -/
def daReshapeOp (t : List ℤ) (v : Arr ℚ) : Option (Arr ℚ) := npReshapeNeg t.tail v

/-- `keras.ops.ravel`. -/
def kerasRavel (a : Arr ℚ) : Option (Arr ℚ) := npReshape [a.shape.prod] a

/-- `ReplayReshape.call` for `Ravel`, ops.py L52-53. -/
def daRavel (v : Arr ℚ) : Option (Arr ℚ) := npReshape [v.shape.prod] v

end HGQ
