import Verif.Model.ReplayOps
import Verif.Model.Wrapper
import Verif.Model.Replay
import Verif.Model.Graph
import Verif.Model.Mapper

/-!
# Tracing a whole model

Keras side: a functional model at inference on a batch (arrays with batch axis).  Tracer side: `_dais_tracer` on one sample.  An array has
no entries outside its shape, so both sides normalise (`Arr.norm`) every result.  `none` is an exception.
-/
namespace HGQ

/-- `idx` is a valid index for the shape. -/
def inShapeB : List ℕ → List ℕ → Bool
  | [], [] => true
  | i :: idx, n :: sh => decide (i < n) && inShapeB idx sh
  | _, _ => false

/-- The array with 0 outside its shape. -/
def Arr.norm (a : Arr ℚ) : Arr ℚ := ⟨a.shape, fun idx => if inShapeB idx a.shape then a.get idx else 0⟩

/-! ## Quantizers -/

/-- A `Quantizer` with fixed-point internals at inference: bit widths are tensors of shape `ws` (batch axis included). -/
structure ArrQuant where
  rm : RoundMode
  om : OverflowMode
  scaler : Option ℚ
  affine : Option (ℚ × ℚ)
  ws : List ℕ
  k : List ℕ → Bool
  i : List ℕ → ℤ
  f : List ℕ → ℤ

/-- `ops.broadcast_to` from `ws` to a shape of the same rank is possible (`bw_to_x`, quantizer/internal/base.py L182-183). -/
def bcastOk : List ℕ → List ℕ → Bool
  | [], [] => true
  | w :: ws, n :: sh => (decide (w = 1) || decide (w = n)) && bcastOk ws sh
  | _, _ => false

/-- `Quantizer.call` on a batch at inference, quantizer.py L49-60 and fixed_point_quantizer.py L142-150. -/
def ArrQuant.keras (q : ArrQuant) (x : Arr ℚ) : Option (Arr ℚ) :=
  if bcastOk q.ws x.shape then
    some ⟨x.shape, fun idx => let j := bcastIdx q.ws idx
      quantizerCall q.scaler q.affine none .false (quantize q.rm q.om (q.k j) (q.i j) (q.f j)) (x.get idx)⟩
  else none

/-- `mirror_quantizer`, _dais_tracer/layers/_base.py L20-34: bit widths are broadcast to `(1,) + v.shape`, then entry 0 is taken. -/
def ArrQuant.mirror (q : ArrQuant) (v : Arr ℚ) : Option (Arr ℚ) :=
  if bcastOk q.ws (1 :: v.shape) then
    some ⟨v.shape, fun idx => let j := bcastIdx q.ws (0 :: idx)
      mirrorQuantizer q.scaler q.affine q.rm q.om (q.k j) (q.i j) (q.f j) (v.get idx)⟩
  else none

/-! ## Cores of the quantized layers -/

/-- Binary merges. -/
inductive MergeOp | add | sub | mul | max | min
  deriving DecidableEq

/-- The operation Keras applies from left to right (keras.layers.Add etc.; `QMerge.call`, layers/ops/merge.py L11-15). -/
def MergeOp.bin : MergeOp → ℚ → ℚ → ℚ
  | .add => (· + ·) | .sub => (· - ·) | .mul => (· * ·) | .max => Max.max | .min => Min.min

/-- The reduction of the stacked inputs in `ReplayMerge.call`, _dais_tracer/layers/ops.py L65-89. -/
def MergeOp.red : MergeOp → List ℚ → ℚ
  | .add => List.sum
  | .sub => fun l => l.getD 0 0 - l.getD 1 0
  | .mul => List.prod
  | .max => poolMax 0
  | .min => fun l => l.tail.foldl Min.min (l.headD 0)

/-- What a quantized layer computes between its input quantizers and its activation; weights are the quantized ones, which both sides
read from the same properties (`qkernel`, `qbias`, `qscaler_and_qoffset`). -/
inductive Core
  /-- `QDense`, `QBatchNormDense` with bias. -/
  | dense (n m : ℕ) (kernel : ℕ → ℕ → ℚ) (bias : ℕ → ℚ)
  /-- `QConv1D/2D/3D` with bias, channels last: `osp` output positions, `geo p j` the flat index in the sample of patch entry `j` at `p`. -/
  | conv (P G a b : ℕ) (osp : List ℕ) (geo : List ℕ → ℕ → Option ℕ) (kernel : ℕ → ℚ) (bias : ℕ → ℚ)
  | merge (op : MergeOp)
  /-- `QSum`, `QMeanPow2` over the flagged non-batch axes. -/
  | sum (keep : Bool) (fl : List Bool) (scale : ℚ)
  /-- `QBatchNormalization` along axis `ax` of the batch array. -/
  | bn (ax C : ℕ) (scale offset : ℕ → ℚ)
  /-- `QUnaryFunctionLUT`. -/
  | lut (f : ℚ → ℚ)
  /-- `QMaxPooling1D/2D/3D`, `QAveragePooling1D/2D/3D`, channels last: `osp` output positions, window of `w + 1` entries, `geo p j` the flat
  spatial position of entry `j` of the window at `p`, `none` for padding. -/
  | pool (isMax : Bool) (w : ℕ) (osp : List ℕ) (geo : List ℕ → ℕ → Option ℕ)
  /-- `QGlobalMaxPooling*`, `QGlobalAveragePooling*`, channels last. -/
  | globalPool (isMax keep : Bool)
  /-- `QSoftmax` without mask, over the flagged non-batch axes.  `expT`, `invT` are the two tables (with their quantizers, C18 and C74) at
  an index of the sample. -/
  | softmax (stable : Bool) (fl : List Bool) (expT invT : List ℕ → ℚ → ℚ)
  /-- `QEinsumDense`, `QEinsumDenseBatchnorm` with bias; labels of the input, kernel and output after expansion of an ellipsis. -/
  | einsumDense (inL kerL outL : List ℕ) (kernel : Arr ℚ) (bias : List ℕ → ℚ)
  /-- `QEinsum` of two inputs. -/
  | einsum (aL bL outL : List ℕ)
  /-- `QAveragePow2`. -/
  | avgPow2 (scale : ℚ)

/-- `ops.matmul(x, kernel)` plus bias on the last axis (QDense.call, core/dense.py L60-65); also the einsum `...c,cC->...C`. -/
def lastAxisDense (n m : ℕ) (kernel : ℕ → ℕ → ℚ) (bias : ℕ → ℚ) (x : Arr ℚ) : Option (Arr ℚ) :=
  if x.shape.getLast? = some n then
    some ⟨x.shape.dropLast ++ [m], fun idx =>
      ((List.range n).map fun c => x.get (idx.dropLast ++ [c]) * kernel c (idx.getLastD 0)).sum + bias (idx.getLastD 0)⟩
  else none

/-- Multiply and add along axis `ax` (the parameters reshaped to `[1, .., C, .., 1]`), batch_normalization.py L176-184 and
_dais_tracer/layers/batchnorm.py L12-16. -/
def axisAffine (ax C : ℕ) (s o : ℕ → ℚ) (x : Arr ℚ) : Option (Arr ℚ) :=
  if x.shape[ax]? = some C then some ⟨x.shape, fun idx => x.get idx * s (idx.getD ax 0) + o (idx.getD ax 0)⟩ else none

/-- Size of a label of an einsum: as it occurs in the first operand, else in the second. -/
def labelSize (aL bL as bs : List ℕ) (l : ℕ) : ℕ := if l ∈ aL then as.getD (aL.idxOf l) 0 else bs.getD (bL.idxOf l) 0

/-- Labels that are summed. -/
def summedLabels (aL bL outL : List ℕ) : List ℕ := ((aL ++ bL).filter (· ∉ outL)).dedup

/-- Value of a label for the output index `idx` and the values `s` of the summed labels. -/
def labelVal (aL bL outL idx s : List ℕ) (l : ℕ) : ℕ :=
  if l ∈ outL then idx.getD (outL.idxOf l) 0 else s.getD ((summedLabels aL bL outL).idxOf l) 0

/-- `einsum(equation, x, y)` for explicit labels, equal sizes for equal labels (no broadcasting of axes of size 1); `none` is an exception. -/
def npEinsum (aL bL outL : List ℕ) (x y : Arr ℚ) : Option (Arr ℚ) :=
  if x.shape = aL.map (labelSize aL bL x.shape y.shape) ∧ y.shape = bL.map (labelSize aL bL x.shape y.shape) ∧
      (∀ l ∈ outL, l ∈ aL ∨ l ∈ bL) then
    some ⟨outL.map (labelSize aL bL x.shape y.shape), fun idx =>
      ((indices ((summedLabels aL bL outL).map (labelSize aL bL x.shape y.shape))).map fun s =>
        x.get (aL.map (labelVal aL bL outL idx s)) * y.get (bL.map (labelVal aL bL outL idx s))).sum⟩
  else none

/-- `x + y` for arrays of the same shape, or a bias that does not depend on the batch axis. -/
def addBias (bias : List ℕ → ℚ) (x : Arr ℚ) : Arr ℚ := ⟨x.shape, fun idx => x.get idx + bias idx.tail⟩

/-- Maximum or average of the listed values. -/
def poolRed (isMax : Bool) (n : ℕ) (l : List ℚ) : ℚ := if isMax then poolMax n l else poolAvg n l

/-- `QSoftmax.call` on a batch without mask, softmax.py L114-132; reductions with `keepdims` are broadcast back. -/
def kerasSoftmax (stable : Bool) (fl : List Bool) (expT invT : List ℕ → ℚ → ℚ) (x : Arr ℚ) : Arr ℚ :=
  let y : Arr ℚ := if stable then ⟨x.shape, fun idx => (npReduce (poolMax 0) true (false :: fl) x).get idx - x.get idx⟩ else x
  let e : Arr ℚ := ⟨x.shape, fun idx => expT idx.tail (y.get idx)⟩
  let sums := npReduce List.sum true (false :: fl) e
  ⟨x.shape, fun idx => e.get idx * invT (dropKept true fl idx.tail) (sums.get idx)⟩

/-- `ReplayQSoftmax.call` without mask, _dais_tracer/layers/activation.py L67-85. -/
def traceSoftmax (stable : Bool) (fl : List Bool) (expT invT : List ℕ → ℚ → ℚ) (v : Arr ℚ) : Arr ℚ :=
  let inputs := npExpand v
  let inputs : Arr ℚ := if stable then
      ⟨inputs.shape, fun idx => (npReduce (poolMax 0) true (false :: fl) inputs).get idx - inputs.get idx⟩ else inputs
  let e : Arr ℚ := ⟨(npFirst inputs).shape, fun idx => expT idx ((npFirst inputs).get idx)⟩
  let sums := npFirst (npReduce List.sum true (false :: fl) (npExpand e))
  ⟨e.shape, fun idx => e.get idx * invT (dropKept true fl idx) (sums.get idx)⟩

/-- One argument only. -/
def single (f : Arr ℚ → Option (Arr ℚ)) : List (Arr ℚ) → Option (Arr ℚ)
  | [x] => f x
  | _ => none

/-- Two arguments. -/
def double (f : Arr ℚ → Arr ℚ → Option (Arr ℚ)) : List (Arr ℚ) → Option (Arr ℚ)
  | [x, y] => f x y
  | _ => none

/-- Windowed pooling by Keras at batch entry `b`, position `p`, channel `c`: the maximum, or the mean, of the window entries that are not padding
(keras.layers.MaxPooling*, AveragePooling*). -/
def kerasPool (isMax : Bool) (w : ℕ) (geo : List ℕ → ℕ → Option ℕ) (C : ℕ) (img : ℕ → ℚ) (p : List ℕ) (c : ℕ) : ℚ :=
  let vals := (List.range (w + 1)).filterMap fun j => (geo p j).map fun s => img (s * C + c)
  poolRed isMax vals.length vals

/-- `ReplayPool.call`, pool.py L43-109, at one position and channel: patches of the sample and of an array of ones, both extracted symbolically. -/
def tracePool (isMax : Bool) (w : ℕ) (geo : List ℕ → ℕ → Option ℕ) (C : ℕ) (img : ℕ → ℚ) (p : List ℕ) (c : ℕ) : ℚ :=
  let g := fun j => (geo p j).map fun s => s * C + c
  let win : Fin (w + 1) → Option ℚ := fun j =>
    if symbolicExtract f32Int (0 : ℤ) g (fun _ => 1) j = 0 then none else some (symbolicExtract f32Int 0 g img j)
  if isMax then replayMaxPool win else replayAvgPool win

/-- The layer on a batch.  Dense layers demand two axes (Keras `min_ndim=2`), pooling at least two (more, in fact: `ndim = rank + 2`).  Convolution: Keras' `convolution_op` taken as patches times kernel, plus bias (conv.py L72-89). -/
def Core.keras : Core → List (Arr ℚ) → Option (Arr ℚ)
  | .dense n m K bias => single fun x => if 2 ≤ x.shape.length then lastAxisDense n m K bias x else none
  | .conv P G a b osp geo K bias => single fun x =>
      some ⟨x.shape.headD 0 :: osp ++ [G * b], fun idx =>
        let p := idx.tail.dropLast
        let o := idx.getLastD 0
        kerasConv P G a b (extractPatches 0 (geo p) fun i => x.get (idx.headD 0 :: unflat x.shape.tail i)) K o + bias o⟩
  | .merge op => fun xs => if op = .sub ∧ xs.length ≠ 2 then none else kerasMerge op.bin xs
  | .sum keep fl scale => single fun x => some (qSum keep (false :: fl) scale x)
  | .bn ax C s o => single (axisAffine ax C s o)
  | .lut f => single fun x => some ⟨x.shape, fun idx => f (x.get idx)⟩
  | .pool isMax w osp geo => single fun x => if 2 ≤ x.shape.length then
      some ⟨x.shape.headD 0 :: osp ++ [x.shape.getLastD 0], fun idx =>
        kerasPool isMax w geo (x.shape.getLastD 0) (fun i => x.get (idx.headD 0 :: unflat x.shape.tail i)) idx.tail.dropLast (idx.getLastD 0)⟩
    else none
  | .globalPool isMax keep => single fun x => if 2 ≤ x.shape.length then
      some (npReduce (poolRed isMax x.shape.tail.dropLast.prod) keep (false :: (List.replicate (x.shape.length - 2) true ++ [false])) x)
    else none
  | .softmax stable fl expT invT => single fun x => some (kerasSoftmax stable fl expT invT x)
  | .einsumDense inL kerL outL K bias => single fun x => (npEinsum inL kerL outL x K).map (addBias bias)
  | .einsum aL bL outL => double (npEinsum aL bL outL)
  | .avgPow2 scale => fun xs => (kerasMerge (· + ·) xs).map fun a => ⟨a.shape, fun idx => a.get idx * scale⟩

/-- Its replay on one sample: `ReplayQDense` (dense.py L20-37), `ReplayQConv` (conv.py L109-146), `ReplayMerge`, `ReplayQReduction`
(ops.py L62-89, L124-130), `ReplayPool` (pool.py L43-109), `ReplayQSoftmax` (activation.py L64-85), `ReplayEinsum` (ops.py L201-229), `ReplayQBatchNormalization` (batchnorm.py L12-16), `ReplayQFunctionLUT` (activation.py L47-61). -/
def Core.replay : Core → List (Arr ℚ) → Option (Arr ℚ)
  | .dense n m K bias => single fun x => (lastAxisDense n m K bias (npExpand x)).map npFirst
  | .conv P G a b osp geo K bias => single fun x =>
      some ⟨osp ++ [G * b], fun idx =>
        let p := idx.dropLast
        let o := idx.getLastD 0
        replayConv P G a b (symbolicExtract f32Int 0 (geo p) fun i => x.get (unflat x.shape i)) K o + bias o⟩
  | .merge op => daMerge op.red
  | .sum keep fl scale => single fun x => some (daQSum keep (false :: fl) scale x)
  | .bn ax C s o => single (axisAffine (ax - 1) C s o)
  | .lut f => single fun x => some ⟨x.shape, fun idx => f (x.get idx)⟩
  | .pool isMax w osp geo => single fun x =>
      some ⟨osp ++ [x.shape.getLastD 0], fun idx =>
        tracePool isMax w geo (x.shape.getLastD 0) (fun i => x.get (unflat x.shape i)) idx.dropLast (idx.getLastD 0)⟩
  | .globalPool isMax keep => single fun x => daGlobalPool (poolRed isMax) false keep x
  | .softmax stable fl expT invT => single fun x => some (traceSoftmax stable fl expT invT x)
  | .einsumDense inL kerL outL K bias => single fun x => (npEinsum inL kerL outL (npExpand x) K).map fun a => npFirst (addBias bias a)
  | .einsum aL bL outL => double fun x y => (npEinsum aL bL outL (npExpand x) (npExpand y)).map npFirst
  | .avgPow2 scale => fun xs => (daMerge List.sum xs).map fun a => ⟨a.shape, fun idx => a.get idx * scale⟩

/-! ## Layers -/

/-- Layers and operations of a model. -/
inductive LLayer
  /-- A `Quantizer` used as a layer. -/
  | quantizer (q : ArrQuant)
  /-- A quantized layer: input quantizers (if enabled), core, ReLU activation, output quantizer (if enabled). -/
  | qlayer (iq : Option (List ArrQuant)) (core : Core) (rl : Bool) (oq : Option ArrQuant)
  /-- `keras.layers.ReLU` / `LeakyReLU` without threshold. -/
  | relu (neg : ℚ) (maxv : Option ℚ)
  | reshape (t : List ℕ)
  | flatten
  /-- `keras.ops.concatenate` along axis `z` of the batch array. -/
  | concat (z : ℤ)
  /-- `x[:, ks]`. -/
  | getitem (ks : List IdxKey)
  /-- `keras.ops.repeat(x, n, axis=z)`. -/
  | repeat (n : ℕ) (z : ℤ)
  /-- `keras.ops.moveaxis(x, s, d)`. -/
  | moveaxis (s d : ℤ)
  /-- `keras.ops.abs`. -/
  | abs
  /-- `keras.layers.PReLU` with slopes per index of the sample. -/
  | prelu (alpha : List ℕ → ℚ)
  /-- Dropout and noise layers at inference. -/
  | noop

/-- Normalised result. -/
def run (r : Option (Arr ℚ)) : Option (Arr ℚ) := r.map Arr.norm

/-- Pointwise function. -/
def Arr.mapQ (g : ℚ → ℚ) (x : Arr ℚ) : Arr ℚ := ⟨x.shape, fun idx => g (x.get idx)⟩

/-- What a quantized layer computes on the way. -/
structure LStages where
  postIq : Option (List (Arr ℚ))
  postCall : Arr ℚ
  postOq : Option (Arr ℚ)
  final : Arr ℚ

/-- The input quantizers on a batch (core/base.py L88-110; `MultipleQuantizers.call` L287-289 checks the number of inputs). -/
def kerasIq (iq : Option (List ArrQuant)) (xs : List (Arr ℚ)) : Option (List (Arr ℚ)) :=
  match iq with
  | none => some xs
  | some qs => if qs.length = xs.length then (List.zipWith (fun q x => run (ArrQuant.keras q x)) qs xs).mapM id else none

/-- The activation (`keras.activations.relu` or linear), in `call`. -/
def reluKeras (rl : Bool) (c : Arr ℚ) : Arr ℚ := if rl then (c.mapQ fun x => if x > 0 then x else 0).norm else c

/-- A quantized layer on a batch at inference: input quantizers, core, activation in `call`; output quantizer in the wrapper
(core/base.py L88-110).  The stages are what these steps give. -/
def kerasQLayer (iq : Option (List ArrQuant)) (core : Core) (rl : Bool) (oq : Option ArrQuant) (xs : List (Arr ℚ)) : Option LStages :=
  (kerasIq iq xs).bind fun ins => (run (core.keras ins)).bind fun c =>
    match oq with
    | none => some ⟨iq.map fun _ => ins, c, none, reluKeras rl c⟩
    | some q => (run (q.keras (reluKeras rl c))).map fun o => ⟨iq.map fun _ => ins, c, some o, o⟩

/-- The input quantizers of a traced layer, _dais_tracer/layers/_base.py L102-112 (`zip` stops at the shorter list). -/
def replayIq (iq : Option (List ArrQuant)) (xs : List (Arr ℚ)) : Option (List (Arr ℚ)) :=
  match iq with
  | none => some xs
  | some qs => (List.zipWith (fun q x => run (ArrQuant.mirror q x)) qs xs).mapM id

/-- The activation of a traced layer, L120-130. -/
def reluTraced (rl : Bool) (c : Arr ℚ) : Arr ℚ := if rl then (c.mapQ tracerRelu).norm else c

/-- `ReplayOperationBase.__call__`, L94-139, for a quantized layer. -/
def replayQLayer (iq : Option (List ArrQuant)) (core : Core) (rl : Bool) (oq : Option ArrQuant) (xs : List (Arr ℚ)) : Option LStages :=
  (replayIq iq xs).bind fun ins => (run (core.replay ins)).bind fun c =>
    match oq with
    | none => some ⟨iq.map fun _ => ins, c, none, reluTraced rl c⟩
    | some q => (run (q.mirror (reluTraced rl c))).map fun o => ⟨iq.map fun _ => ins, c, some o, o⟩

/-- `keras.layers.PReLU`: `relu(x) - alpha * relu(-x)`. -/
def kerasPReLU (alpha x : ℚ) : ℚ := max x 0 + -alpha * max (-x) 0

/-- `ReplayReLU.call` for `PReLU`, activation.py L25-44: plain `relu` if all slopes are 0, else a multiplexer on the sign. -/
def tracePReLU (alpha : List ℕ → ℚ) (v : Arr ℚ) : Arr ℚ :=
  if (indices v.shape).all fun idx => alpha idx = 0 then v.mapQ tracerRelu
  else ⟨v.shape, fun idx => if v.get idx < 0 then v.get idx * alpha idx else v.get idx⟩

/-- A layer on a batch. -/
def LLayer.keras : LLayer → List (Arr ℚ) → Option (Arr ℚ)
  | .quantizer q => fun xs => run (single q.keras xs)
  | .qlayer iq core rl oq => fun xs => (kerasQLayer iq core rl oq xs).map (·.final)
  | .relu neg maxv => fun xs => run (single (fun x => some (x.mapQ (kerasReLU 0 neg maxv))) xs)
  | .reshape t => fun xs => run (single (kerasReshape t) xs)
  | .flatten => fun xs => run (single (fun x => kerasReshape [x.shape.tail.prod] x) xs)
  | .concat z => fun xs => run (npConcat z xs)
  | .getitem ks => fun xs => run (single (npGetItem (.all :: ks)) xs)
  | .repeat n z => fun xs => run (single (npRepeat n z) xs)
  | .moveaxis s d => fun xs => run (single (npMoveaxis s d) xs)
  | .abs => fun xs => run (single (fun x => some (x.mapQ fun v => |v|)) xs)
  | .prelu alpha => fun xs => run (single (fun x => some ⟨x.shape, fun idx => kerasPReLU (alpha idx.tail) (x.get idx)⟩) xs)
  | .noop => fun xs => run (single some xs)

/-- Its replay on a sample; `fb` is the number of fractional bits the tracer knows for the input of a ReLU (activation.py L19-44). -/
def LLayer.replay (fb : ℤ) : LLayer → List (Arr ℚ) → Option (Arr ℚ)
  | .quantizer q => fun xs => run (single q.mirror xs)
  | .qlayer iq core rl oq => fun xs => (replayQLayer iq core rl oq xs).map (·.final)
  | .relu neg maxv => fun xs => run (single (fun x => some (x.mapQ (replayReLU 0 neg maxv fb))) xs)
  | .reshape t => fun xs => run (single (daReshape t) xs)
  | .flatten => fun xs => run (single daFlatten xs)
  | .concat z => fun xs => run (daConcatOp z xs)
  | .getitem ks => fun xs => run (single (daGetItem (.all :: ks)) xs)
  | .repeat n z => fun xs => run (single (daRepeat n z) xs)
  | .moveaxis s d => fun xs => run (single (daMoveaxis s d) xs)
  | .abs => fun xs => run (single (fun x => some (x.mapQ fun v => |v|)) xs)
  | .prelu alpha => fun xs => run (single (fun x => some (tracePReLU alpha x)) xs)
  | .noop => fun xs => run (single some xs)

/-! ## Models -/

/-- A node of a functional model: a layer applied to tensors, or an input layer. -/
structure LNode (T : Type) where
  name : List Char
  isInput : Bool
  requires : List T
  produces : T
  layer : LLayer

/-- An exception gives no output. -/
def optList {V : Type} : Option V → List V
  | some v => [v]
  | none => []

/-- The node evaluated by Keras on batches. -/
def LNode.kerasNode {T : Type} (n : LNode T) : GNode T (Arr ℚ) :=
  ⟨n.name, n.isInput, n.requires, [n.produces], fun xs => optList (n.layer.keras xs)⟩

/-- The node as traced. -/
def LNode.replayNode {T : Type} (fb : ℤ) (n : LNode T) : GNode T (Arr ℚ) :=
  ⟨n.name, n.isInput, n.requires, [n.produces], fun xs => optList (n.layer.replay fb xs)⟩

end HGQ
