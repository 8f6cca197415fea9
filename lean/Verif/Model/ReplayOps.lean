import Verif.Model.Arr
import Mathlib.Algebra.Order.Field.Rat

/-!
# Replay of structural operations, merges, dot products and global pooling

`_dais_tracer/layers/ops.py`, `_dais_tracer/layers/pool.py`, `_alkaid_keras_plugin/ops.py`.  The da4ml tracer works on arrays without
the batch axis, Alkaid on arrays with a batch axis of size 1.  `none` is an exception.
-/
namespace HGQ
variable {V : Type}

/-! ## Operations written as `f(x[None])[0]` -/

/-- `ReplayConcatenate.call`, _dais_tracer/layers/ops.py L158-160. -/
def daConcatOp (z : ℤ) (xs : List (Arr V)) : Option (Arr V) := (npConcat z (xs.map npExpand)).map npFirst
/-- `ReplayRepeat.call`, L166-168. -/
def daRepeat (n : ℕ) (z : ℤ) (x : Arr V) : Option (Arr V) := (npRepeat n z (npExpand x)).map npFirst
/-- `ReplayMoveaxis.call`, L182-184 (one axis). -/
def daMoveaxis (s d : ℤ) (x : Arr V) : Option (Arr V) := (npMoveaxis s d (npExpand x)).map npFirst
/-- `ReplayGetItem.call`, L105-108. -/
def daGetItem (ks : List IdxKey) (x : Arr V) : Option (Arr V) := (npGetItem ks (npExpand x)).map npFirst
/-- `ReplayQReduction.call`, L127-130: `fl` marks `layer.axes` (of the array with batch axis). -/
def daQSum (keep : Bool) (fl : List Bool) (scale : ℚ) (x : Arr ℚ) : Arr ℚ :=
  let r := npFirst (npReduce List.sum keep fl (npExpand x))
  ⟨r.shape, fun idx => r.get idx * scale⟩

/-- `QSum.call`, layers/ops/accum.py L45-49, without the input quantizer. -/
def qSum (keep : Bool) (fl : List Bool) (scale : ℚ) (x : Arr ℚ) : Arr ℚ :=
  let r := npReduce List.sum keep fl x
  ⟨r.shape, fun idx => r.get idx * scale⟩

/-! ## Operations on the array without batch axis -/

/-- `ReplayReshape.call`, _dais_tracer/layers/ops.py L51-59, for a target shape without -1. -/
def daReshape (t : List ℕ) (x : Arr V) : Option (Arr V) := npReshape t x
/-- `Flatten`, L52-53. -/
def daFlatten (x : Arr V) : Option (Arr V) := npReshape [x.shape.prod] x
/-- Keras `Reshape`: the batch axis is kept. -/
def kerasReshape (t : List ℕ) (a : Arr V) : Option (Arr V) := npReshape (a.shape.headD 0 :: t) a

/-- `ReplayTranspose.call`, L174-176: the axes of the operation refer to the array with batch axis. -/
def daTranspose (p : List ℕ) (x : Arr V) : Option (Arr V) := npTranspose p x

/-- `ReplayRepeatVector.call`, L95-99. -/
def daRepeatVector (n : ℕ) (x : Arr V) : Option (Arr V) :=
  if n = 1 then some x else (npRepeat n 0 (npExpand x)).map npFirst
/-- Keras `RepeatVector(n)`: `(B, F)` to `(B, n, F)`. -/
def kerasRepeatVector (n : ℕ) (a : Arr V) : Arr V :=
  ⟨[a.shape.headD 0, n, a.shape.getD 1 0], fun idx => a.get [idx.headD 0, idx.getD 2 0]⟩

/-! ## Merges -/

/-- `np.broadcast_arrays(*xs)`: leading axes are added up to the largest rank. -/
def npBroadcastArrays (xs : List (Arr V)) : Option (List (Arr V)) :=
  let rank := (xs.map fun x => x.shape.length).foldl max 0
  let ps := xs.map fun x => x.pad (rank - x.shape.length)
  match ps with
  | [] => none
  | p :: r => (r.foldlM (fun s q => bcDims s q.shape) p.shape).map fun sh =>
      ps.map fun q => ⟨sh, fun idx => q.get (bcastIdx q.shape idx)⟩

/-- `ReplayMerge.call` for Add, Multiply, Maximum, Minimum, L65-84: reduce the stack of the broadcast inputs. -/
def daMerge (red : List V → V) (xs : List (Arr V)) : Option (Arr V) :=
  (npBroadcastArrays xs).map fun bs => ⟨(bs.map (·.shape)).headD [], fun idx => red (bs.map fun q => q.get idx)⟩

/-- Keras `ops.expand_dims(x, axis=1)`, `r` times. -/
def Arr.padBatch (r : ℕ) (a : Arr V) : Arr V :=
  ⟨a.shape.headD 0 :: (List.replicate r 1 ++ a.shape.tail), fun idx => a.get (idx.headD 0 :: idx.tail.drop r)⟩

/-- Keras merging layers: bring all inputs to the largest rank by axes after the batch axis, then apply the binary operation from
left to right. -/
def kerasMerge (op : V → V → V) (xs : List (Arr V)) : Option (Arr V) :=
  let rank := (xs.map fun x => x.shape.length).foldl max 0
  match xs.map fun x => x.padBatch (rank - x.shape.length) with
  | [] => none
  | p :: r => r.foldlM (npBin op) p

/-- `ReplayMerge.call` for `keras.layers.Concatenate`, L70, L85-86: the stack of the broadcast inputs is concatenated along the axis
number of the layer, which refers to the array with batch axis. -/
def daConcatLayer (z : ℤ) (xs : List (Arr V)) : Option (Arr V) := (npBroadcastArrays xs).bind (npConcat z)

/-! ## Dot products -/

/-- Contraction of axis `i` of `x` with axis `j` of `y`, all other axes kept in order. -/
def tdot (i j : ℕ) (x y : Arr ℚ) : Arr ℚ :=
  ⟨x.shape.eraseIdx i ++ y.shape.eraseIdx j, fun idx =>
    ((List.range (x.shape.getD i 0)).map fun t =>
      x.get ((idx.take (x.shape.length - 1)).insertIdx i t) * y.get ((idx.drop (x.shape.length - 1)).insertIdx j t)).sum⟩

/-- Keras `Dot(axes=(i+1, j+1))` on one sample: a scalar result gets an axis of size 1. -/
def kerasDotSample (i j : ℕ) (x y : Arr ℚ) : Arr ℚ :=
  let r := tdot i j x y
  if r.shape = [] then ⟨[1], fun _ => r.get []⟩ else r

/-- `ReplayEinsum.call` for `QDot` and `Dot`, _dais_tracer/layers/ops.py L217-229: all letters are distinct except the contracted one, so the batch axes of
size 1 of both inputs are kept; axes `i+1`, `j+1`. -/
def daDot (i j : ℕ) (x y : Arr ℚ) : Arr ℚ := npFirst (tdot (i + 1) (j + 1) (npExpand x) (npExpand y))

/-- `_QEinsum.call` for `QDot`, _alkaid_keras_plugin/ops.py L47-58: the batch letter is shared; arrays with batch axis 1, result
likewise. -/
def alkaidDot (i j : ℕ) (x y : Arr ℚ) : Arr ℚ :=
  ⟨x.shape.eraseIdx (i + 1) ++ (y.shape.eraseIdx (j + 1)).tail, fun idx =>
    ((List.range (x.shape.getD (i + 1) 0)).map fun t =>
      x.get ((idx.take (x.shape.length - 1)).insertIdx (i + 1) t) *
      y.get ((idx.headD 0 :: idx.drop (x.shape.length - 1)).insertIdx (j + 1) t)).sum⟩

/-! ## Global pooling -/

/-- `ReplayPool.call` for global pooling layers, pool.py L43-65 and L106-107; `red n l` reduces the list `l`, `n` the number of pooled
positions (`prod(inputs.shape[:-1])`). -/
def daGlobalPool (red : ℕ → List ℚ → ℚ) (channelsFirst keep : Bool) (x : Arr ℚ) : Option (Arr ℚ) := do
  let x ← if channelsFirst then npMoveaxis 1 (-1) x else some x
  let out := npReduce (red x.shape.dropLast.prod) keep (List.replicate (x.shape.length - 1) true ++ [false]) x
  if channelsFirst then npMoveaxis (-1) 1 out else some out

/-- Average: `np.sum(...) / pool_size`. -/
def poolAvg (n : ℕ) (l : List ℚ) : ℚ := l.sum / n
/-- Maximum: `np.amax`. -/
def poolMax (_ : ℕ) (l : List ℚ) : ℚ := l.tail.foldl max (l.headD 0)

end HGQ
