import Verif.Model.RnnArr
import Verif.Model.Table
import Verif.Model.KerasOps

/-!
# `QEinsumDenseT` on arrays: Keras and the Alkaid plugin

`layers/table/dense.py` L170-408 on batches and `_alkaid_keras_plugin/table.py` L165-266 on arrays with a batch axis of size 1.  The small network of a pair is the
`Sequential` of `keras.layers.EinsumDense` that `_build_module` makes; labels are numbers.
-/
namespace HGQ

/-- A `keras.layers.EinsumDense` of the small networks, table/dense.py L216-246. -/
structure SubDense where
  kernel : Arr ℚ
  bias : Option (Arr ℚ)
  act : ℚ → ℚ

/-- The weights of batch normalization, L311-342; `std` is `sqrt(moving_variance + epsilon)`, `root` is `sqrt(n_in)`, both as computed in floating point. -/
structure BnArr where
  norm : List ℕ
  gamma : Option (Arr ℚ)
  beta : Option (Arr ℚ)
  mean : Arr ℚ
  std : Arr ℚ
  root : ℚ

/-- A built `QEinsumDenseT`; `dim` the sizes of all labels but the batch label, the first label of the input. -/
structure EinsumTArr where
  e : EinsumT ℕ
  dim : ℕ → ℕ
  hidden : List SubDense
  last : SubDense
  bn : Option BnArr
  enableIq : Bool
  iq : ArrQuant
  toq : ArrQuant
  relu : Bool
  oq : Option ArrQuant

/-! ## Keras -/

/-- Shape that `EinsumDense.build` gives the bias (`keras.layers.core.einsum_dense._analyze_split_string`): the labels of the output from the first bias label on, size 1
for those that are not bias labels. -/
def kerasBiasShape (outL biasL : List ℕ) (size : ℕ → ℕ) : List ℕ :=
  (outL.dropWhile fun c => c ∉ biasL).map fun c => if c ∈ biasL then size c else 1

/-- `x + bias`, with broadcasting. -/
def addBiasOpt : Option (Arr ℚ) → Arr ℚ → Option (Arr ℚ)
  | none, x => some x
  | some b, x => npArith (· + ·) x b

/-- `EinsumDense.call`: einsum, bias, activation. -/
def SubDense.keras (s : SubDense) (aL bL oL : List ℕ) (x : Arr ℚ) : Option (Arr ℚ) :=
  (run (npEinsum aL bL oL x s.kernel)).bind fun y => (run (addBiasOpt s.bias y)).map fun y => (y.mapQ s.act).norm

/-- Labels not in the list, L217-219 (there: letters; here: the next number). -/
def freshLabel (ls : List ℕ) : ℕ := ls.foldr max 0 + 1

/-- The `Sequential` of `_build_module`, L216-248: the two hidden labels are swapped after each hidden layer (L234); the last layer has no hidden output label. -/
def moduleKeras (P W : List ℕ) : ℕ → ℕ → List SubDense → SubDense → Arr ℚ → Option (Arr ℚ)
  | hi, ho, s :: r, last, x => (s.keras (P ++ [hi]) (W ++ [hi, ho]) (P ++ [ho]) x).bind (moduleKeras P W ho hi r last)
  | hi, _, [], last, x => last.keras (P ++ [hi]) (W ++ [hi]) P x

/-- `scaler`, L375-378. -/
def BnArr.kerasScaler (n : BnArr) : Arr ℚ :=
  match n.gamma with
  | some g => ⟨n.std.shape, fun i => g.get i / n.std.get i⟩
  | none => ⟨n.std.shape, fun i => 1 / n.std.get i⟩

/-- `offset`, L379-381. -/
def BnArr.kerasOffset (n : BnArr) : Arr ℚ :=
  match n.beta with
  | some be => ⟨n.std.shape, fun i => -n.mean.get i * n.kerasScaler.get i + be.get i⟩
  | none => ⟨n.std.shape, fun i => -n.mean.get i * n.kerasScaler.get i⟩

/-- `bn_broadcast_shape`, L304-306. -/
def bnBroadcast (P : List ℕ) (dim : ℕ → ℕ) (norm : List ℕ) : List ℕ := P.map fun c => if c ∈ norm then dim c else 1

/-- `_apply_batch_norm` at inference, L361-385: scaler and offset are reshaped. -/
def bnKeras (P : List ℕ) (dim : ℕ → ℕ) : Option BnArr → Arr ℚ → Option (Arr ℚ)
  | none, x => some x
  | some n, x =>
    (npReshape (bnBroadcast P dim n.norm) n.kerasScaler).bind fun sc => (npReshape (bnBroadcast P dim n.norm) n.kerasOffset).bind fun off =>
    (npArith (· * ·) x sc).bind fun y => (npArith (· + ·) y off).map fun y => (y.mapQ (· / n.root)).norm

/-- `broadcast_to(reshape(x, ...), ...)`, L388-390: axes for the kernel-only labels are added at the end. -/
def EinsumTArr.broadcast (t : EinsumTArr) (x : Arr ℚ) : Arr ℚ := ⟨x.shape ++ t.e.extra.map t.dim, fun idx => x.get (idx.take t.e.input.length)⟩

/-- `reshape` succeeds: the input has the shape the layer was built for, with any batch size (L349-359). -/
def EinsumTArr.accepts (t : EinsumTArr) (x : Arr ℚ) : Bool := decide (x.shape ≠ [] ∧ x.shape.tail = t.e.input.tail.map t.dim)

/-- `sum` over the contracted axes and `transpose`, L397-398, table.py L265-266. -/
def EinsumTArr.reduce (t : EinsumTArr) (z : Arr ℚ) : Option (Arr ℚ) := run (npTranspose t.e.transpose (npReduce List.sum false t.e.contract z))

/-- `x[..., None]`, L393. -/
def npLastAxis (x : Arr ℚ) : Arr ℚ := ⟨x.shape ++ [1], fun idx => x.get idx.dropLast⟩

/-- `QEinsumDenseT.call` at inference, L387-399, and the output quantizer (core/base.py L88-110). -/
def EinsumTArr.keras (t : EinsumTArr) (x : Arr ℚ) : Option (Arr ℚ) :=
  if t.accepts x then
    (kerasOpt (onlyIf t.enableIq t.iq) (t.broadcast x).norm).bind fun y =>
    (moduleKeras t.e.presum t.e.kernel (freshLabel t.e.presum) (freshLabel t.e.presum + 1) t.hidden t.last (npLastAxis y).norm).bind fun v =>
    (bnKeras t.e.presum t.dim t.bn v).bind fun w => (run (t.toq.keras w)).bind fun z => (t.reduce z).bind fun r => kerasOpt t.oq (reluKeras t.relu r)
  else none

/-! ## Alkaid -/

/-- Weights of one layer for one pair: sizes, kernel, bias. -/
structure Gathered where
  dIn : ℕ
  dOut : ℕ
  w : ℕ → ℕ → ℚ
  b : ℕ → ℚ

/-- `w[kernel_coords]`, and an axis of size 1 if only one axis is left (table.py L179-181); `none` is an IndexError. -/
def gatherKernel (kc : List ℕ) (w : Arr ℚ) : Option (ℕ × ℕ × (ℕ → ℕ → ℚ)) :=
  if inShapeB kc (w.shape.take kc.length) then
    if w.shape.length = kc.length + 1 then some (w.shape.getD kc.length 0, 1, fun i _ => w.get (kc ++ [i]))
    else if w.shape.length = kc.length + 2 then some (w.shape.getD kc.length 0, w.shape.getD (kc.length + 1) 0, fun i o => w.get (kc ++ [i, o]))
    else none
  else none

/-- `b[0][kernel_coords]`, L182-188: the same coordinates as for the kernel.  More than one axis left (a broadcast numpy may reject) is taken as an error. -/
def gatherBias (kc : List ℕ) : Option (Arr ℚ) → Option (ℕ → ℚ)
  | none => some fun _ => 0
  | some b =>
    if inShapeB kc (b.shape.take kc.length) then
      if b.shape.length = kc.length then some fun _ => b.get kc
      else if b.shape.length = kc.length + 1 then some fun o => b.get (kc ++ bcastIdx (b.shape.drop kc.length) [o])
      else none
    else none

def SubDense.gather (kc : List ℕ) (s : SubDense) : Option Gathered :=
  (gatherKernel kc s.kernel).bind fun w => (gatherBias kc s.bias).map fun b => ⟨w.1, w.2.1, w.2.2, b⟩

/-- `act(einsum('...ni,nij->...nj', _out, w) + b)`, L232-233, for one pair and one grid point. -/
def Gathered.apply (g : Gathered) (act : ℚ → ℚ) (h : ℕ → ℚ) (o : ℕ) : ℚ := act (((List.range g.dIn).map fun i => h i * g.w i o).sum + g.b o)

/-- The network of one pair, L228-234; `d` the current number of hidden values. -/
def gatherNet (kc : List ℕ) : ℕ → List SubDense → Option ((ℕ → ℚ) → ℕ → ℚ)
  | _, [] => some id
  | d, s :: r => (s.gather kc).bind fun g => if g.dIn = d then (gatherNet kc g.dOut r).map fun f h => f (g.apply s.act h) else none

/-- `scaler`, `offset` of `_apply_batch_norm`, L195-205. -/
def BnArr.alkaidScaler (n : BnArr) (i : List ℕ) : ℚ := (match n.gamma with | some g => g.get i | none => 1) / n.std.get i
def BnArr.alkaidOffset (n : BnArr) (i : List ℕ) : ℚ := (match n.beta with | some be => be.get i | none => 0) - n.mean.get i * n.alkaidScaler i

/-- `_apply_batch_norm` at one position, L207-210; `none` is an IndexError. -/
def bnAlkaid (e : EinsumT ℕ) (idx : List ℕ) : Option BnArr → Option (ℚ → ℚ)
  | none => some id
  | some n =>
    let c := (e.bnAxes n.norm).map fun a => idx.getD a 0
    if inShapeB c n.std.shape then some fun v => (v * n.alkaidScaler c + n.alkaidOffset c) / n.root else none

/-- The function tabulated at an index of the presum array, L223-240. -/
def EinsumTArr.pairFn (t : EinsumTArr) (idx : List ℕ) : Option (ℚ → ℚ) :=
  (gatherNet (t.e.kernelAxes.map fun a => idx.getD a 0) 1 (t.hidden ++ [t.last])).bind fun f =>
    (bnAlkaid t.e idx t.bn).map fun g v => g (f (fun _ => v) 0)

/-- The table at an index of the sample, L219-258; widths of `toq` as for `QDenseT`. -/
def EinsumTArr.alkaidTable (t : EinsumTArr) (v : LhsArr) (rank : ℕ) (idx : List ℕ) (g : ℚ → ℚ) : List ℚ :=
  let pad := 1 + rank - t.toq.ws.length
  let j := (bcastIdx (List.replicate pad 1 ++ t.toq.ws) (0 :: 0 :: idx)).drop pad
  (List.range (v.size idx)).map fun p =>
    quantize t.toq.rm t.toq.om (t.toq.k j) (int32 (t.toq.i j)) (int32 (t.toq.f j)) (g (linspaceQ (v.l idx) (v.h idx) (v.size idx) p))

/-- `_QEinsumDenseTable.call`, L212-266 (the activation there is idempotent, so that applying it again outside, `QLayerMixin.__call__`, does nothing). -/
def EinsumTArr.alkaidCall (t : EinsumTArr) (v : LhsArr) (x : Arr ℚ) : Option (Arr ℚ) :=
  if t.accepts x then
    (alkaidOpt (onlyIf t.enableIq t.iq) (t.broadcast x).norm).bind fun y =>
      if bcastOk (List.replicate (1 + y.shape.length - t.toq.ws.length) 1 ++ t.toq.ws) (1 :: y.shape) ∧ (indices y.shape).all (fun idx => (t.pairFn idx).isSome) then
        (t.reduce (Arr.norm ⟨y.shape, fun idx => lookupQ v idx.tail (t.alkaidTable v y.shape.length idx.tail ((t.pairFn idx).getD id)) (y.get idx)⟩)).map (reluKeras t.relu)
      else none
  else none

/-- With the output quantizer, _base.py L66-77. -/
def EinsumTArr.alkaid (t : EinsumTArr) (v : LhsArr) (x : Arr ℚ) : Option (Arr ℚ) := (t.alkaidCall v x).bind fun r => alkaidOpt t.oq r

/-! ## Layers of a model -/

/-- All layers with handlers in the plugin so far. -/
inductive WLayer
  | base (l : ZLayer)
  /-- `QEinsumDenseT`, with the ranges known when it is converted. -/
  | einsumT (t : EinsumTArr) (v : LhsArr)

def WLayer.keras : WLayer → List (Arr ℚ) → Option (Arr ℚ)
  | .base l => l.keras
  | .einsumT t _ => single t.keras

def WLayer.alkaid : WLayer → List (Arr ℚ) → Option (Arr ℚ)
  | .base l => l.alkaid
  | .einsumT t v => single (t.alkaid v)

end HGQ
