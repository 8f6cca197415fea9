import Verif.Model.AlkaidX
import Verif.Model.Rnn

/-!
# Recurrent and spiking layers on arrays

Batches of sequences in Keras, and one sample (batch axis of size 1) in the Alkaid plugin.  Weights are already quantized functions of their indices.  Apart from the
quantizers, a step consists of operations that act on each row of a matrix `(batch, features)` alone.  The state that a layer with `return_state=True` returns in addition
is a layer of its own here (`RnnOut.state`).  Masks and `stateful=True` are not part of the layer (see `RnnLayer.kerasNext` for the latter).
-/
namespace HGQ
open Finset

/-! ## Operations on the rows of a matrix -/

/-- Row `b` of a matrix. -/
def rowOf (x : Arr ℚ) (b : ℕ) : RVec := fun a => x.get [b, a]

/-- An operation from rows of length `d` to rows of length `u`: `ops.matmul` with a weight, adding a bias, slicing columns, activations. -/
def row1 (d u : ℕ) (g : RVec → RVec) (x : Arr ℚ) : Option (Arr ℚ) :=
  match x.shape with
  | [B, d'] => if d' = d then run (some ⟨[B, u], fun idx => g (rowOf x (idx.getD 0 0)) (idx.getD 1 0)⟩) else none
  | _ => none

/-- An operation on two matrices with rows of lengths `d` and `e`: sums, products, interpolation. -/
def row2 (d e u : ℕ) (g : RVec → RVec → RVec) (x y : Arr ℚ) : Option (Arr ℚ) :=
  match x.shape, y.shape with
  | [B, d'], [B', e'] =>
    if d' = d ∧ e' = e ∧ B' = B then run (some ⟨[B, u], fun idx => g (rowOf x (idx.getD 0 0)) (rowOf y (idx.getD 0 0)) (idx.getD 1 0)⟩) else none
  | _, _ => none

/-- `x @ W`. -/
def matOp (d u : ℕ) (W : RMat) : Arr ℚ → Option (Arr ℚ) := row1 d u fun x => rowMul d x W
/-- `x + b` with a row `b`. -/
def biasOp (u : ℕ) (b : RVec) : Arr ℚ → Option (Arr ℚ) := row1 u u fun x j => x j + b j
/-- `x[:, lo : lo + u]`. -/
def colsOp (d lo u : ℕ) : Arr ℚ → Option (Arr ℚ) := row1 d u fun x j => x (lo + j)
/-- An elementwise function. -/
def actOp (u : ℕ) (f : ℚ → ℚ) : Arr ℚ → Option (Arr ℚ) := row1 u u fun x j => f (x j)
/-- `x + y`. -/
def addOp (u : ℕ) : Arr ℚ → Arr ℚ → Option (Arr ℚ) := row2 u u u fun x y j => x j + y j
/-- `x * y`. -/
def mulOp (u : ℕ) : Arr ℚ → Arr ℚ → Option (Arr ℚ) := row2 u u u fun x y j => x j * y j

/-! ## QSimpleRNN -/

/-- A `QSimpleRNNCell` with quantizers on `(batch, features)`. -/
structure SimpleArr where
  inDim : ℕ
  units : ℕ
  kernel : RMat
  rkernel : RMat
  bias : Option RVec
  iq : ArrQuant
  sq : Option ArrQuant
  paq : ArrQuant
  act : ℚ → ℚ

/-- The bias of a matrix with `u` columns, if there is one. -/
def biasOpt (u : ℕ) (b : Option RVec) (x : Arr ℚ) : Option (Arr ℚ) :=
  match b with
  | some b => biasOp u b x
  | none => some x

/-- `QSimpleRNNCell.call`, rnn/simple_rnn.py L232-259, at inference. -/
def SimpleArr.stepK (c : SimpleArr) (x state : Arr ℚ) : Option (Arr ℚ × Arr ℚ) :=
  (kerasOpt c.sq state).bind fun qstate => (kerasOpt (some c.iq) x).bind fun qx =>
  (matOp c.inDim c.units c.kernel qx).bind fun h => (biasOpt c.units c.bias h).bind fun h =>
  (matOp c.units c.units c.rkernel qstate).bind fun r => (addOp c.units h r).bind fun y =>
  (kerasOpt (some c.paq) y).bind fun y => (actOp c.units c.act y).map fun y => (y, y)

/-- `_QSimpleRNN._step`, _alkaid_keras_plugin/rnn.py L59-70. -/
def SimpleArr.stepA (c : SimpleArr) (x state : Arr ℚ) : Option (Arr ℚ × Arr ℚ) :=
  (alkaidOpt (some c.iq) x).bind fun qx => (alkaidOpt c.sq state).bind fun qstate =>
  (matOp c.inDim c.units c.kernel qx).bind fun y => (biasOpt c.units c.bias y).bind fun y =>
  (matOp c.units c.units c.rkernel qstate).bind fun r => (addOp c.units y r).bind fun y =>
  (alkaidOpt (some c.paq) y).bind fun y => (actOp c.units c.act y).map fun y => (y, y)

/-! ## QGRU -/

/-- A `QGRUCell`; the biases of inputs and state if `use_bias` (Keras allocates only the first without `reset_after`). -/
structure GruArr where
  inDim : ℕ
  units : ℕ
  kernel : RMat
  rkernel : RMat
  bias : Option (RVec × RVec)
  resetAfter : Bool
  iq : Option ArrQuant
  sq : ArrQuant
  rhq : ArrQuant
  paq : ArrQuant
  praq : ArrQuant
  act : ℚ → ℚ
  ract : ℚ → ℚ

/-- The state times the recurrent kernel in Keras, gru.py L304-312: all columns and the recurrent bias with `reset_after`, the columns of the gates otherwise. -/
def GruArr.innerK (c : GruArr) (qh : Arr ℚ) : Option (Arr ℚ) :=
  if c.resetAfter then (matOp c.units (3 * c.units) c.rkernel qh).bind fun m => biasOpt (3 * c.units) (c.bias.map (·.2)) m
  else matOp c.units (2 * c.units) c.rkernel qh

/-- The candidate's recurrent part in Keras, gru.py L319-322. -/
def GruArr.candK (c : GruArr) (inner r qh : Arr ℚ) : Option (Arr ℚ) :=
  if c.resetAfter then (colsOp (3 * c.units) (2 * c.units) c.units inner).bind fun m => (kerasOpt (some c.rhq) m).bind fun m => mulOp c.units r m
  else (mulOp c.units r qh).bind fun m => (kerasOpt (some c.rhq) m).bind fun m => matOp c.units c.units (fun a j => c.rkernel a (2 * c.units + j)) m

/-- `z * h + (1 - z) * hh`, gru.py L327: the product with the state first. -/
def mixOp (u : ℕ) (z h hh : Arr ℚ) : Option (Arr ℚ) :=
  (mulOp u z h).bind fun a => (row2 u u u (fun z hh j => (1 - z j) * hh j) z hh).bind fun b => addOp u a b

/-- `QGRUCell.call`, rnn/gru.py L281-329, at inference. -/
def GruArr.stepK (c : GruArr) (x h_tm1 : Arr ℚ) : Option (Arr ℚ × Arr ℚ) :=
  let u := c.units
  (kerasOpt (some c.sq) h_tm1).bind fun qh => (kerasOpt c.iq x).bind fun qx =>
  (matOp c.inDim (3 * u) c.kernel qx).bind fun mx => (biasOpt (3 * u) (c.bias.map (·.1)) mx).bind fun mx =>
  (colsOp (3 * u) 0 (2 * u) mx).bind fun x_zr => (colsOp (3 * u) (2 * u) u mx).bind fun x_h =>
  (c.innerK qh).bind fun inner => (colsOp (if c.resetAfter then 3 * u else 2 * u) 0 (2 * u) inner).bind fun r_zr =>
  (addOp (2 * u) x_zr r_zr).bind fun zr => (actOp (2 * u) c.ract zr).bind fun zr => (kerasOpt (some c.praq) zr).bind fun zr =>
  (colsOp (2 * u) 0 u zr).bind fun z => (colsOp (2 * u) u u zr).bind fun r =>
  (c.candK inner r qh).bind fun rh => (addOp u x_h rh).bind fun hh => (actOp u c.act hh).bind fun hh => (kerasOpt (some c.paq) hh).bind fun hh =>
  (mixOp u z qh hh).map fun h => (h, h)

/-- Biases in the plugin, rnn.py L88-94: zero rows instead of missing ones. -/
def GruArr.biasesA (c : GruArr) : RVec × RVec :=
  match c.bias with
  | some b => if c.resetAfter then b else (b.1, fun _ => 0)
  | none => (fun _ => 0, fun _ => 0)

/-- rnn.py L100-103. -/
def GruArr.innerA (c : GruArr) (qstate : Arr ℚ) : Option (Arr ℚ) :=
  if c.resetAfter then (matOp c.units (3 * c.units) c.rkernel qstate).bind fun m => biasOp (3 * c.units) c.biasesA.2 m
  else matOp c.units (2 * c.units) c.rkernel qstate

/-- rnn.py L108-111. -/
def GruArr.candA (c : GruArr) (inner r qstate : Arr ℚ) : Option (Arr ℚ) :=
  if c.resetAfter then (colsOp (3 * c.units) (2 * c.units) c.units inner).bind fun m => (alkaidOpt (some c.rhq) m).bind fun m => mulOp c.units r m
  else (mulOp c.units r qstate).bind fun m => (alkaidOpt (some c.rhq) m).bind fun m => matOp c.units c.units (fun a j => c.rkernel a (2 * c.units + j)) m

/-- `_QGRU._step`, _alkaid_keras_plugin/rnn.py L82-115. -/
def GruArr.stepA (c : GruArr) (x state : Arr ℚ) : Option (Arr ℚ × Arr ℚ) :=
  let u := c.units
  (alkaidOpt (some c.sq) state).bind fun qstate => (alkaidOpt c.iq x).bind fun qx =>
  (matOp c.inDim (3 * u) c.kernel qx).bind fun mx => (biasOp (3 * u) c.biasesA.1 mx).bind fun mx =>
  (colsOp (3 * u) 0 (2 * u) mx).bind fun x_zr => (colsOp (3 * u) (2 * u) u mx).bind fun x_h =>
  (c.innerA qstate).bind fun inner => (colsOp (if c.resetAfter then 3 * u else 2 * u) 0 (2 * u) inner).bind fun r_zr =>
  (addOp (2 * u) x_zr r_zr).bind fun zr => (actOp (2 * u) c.ract zr).bind fun zr => (alkaidOpt (some c.praq) zr).bind fun zr =>
  (colsOp (2 * u) 0 u zr).bind fun z => (colsOp (2 * u) u u zr).bind fun r =>
  (c.candA inner r qstate).bind fun rh => (addOp u x_h rh).bind fun hh => (actOp u c.act hh).bind fun hh => (alkaidOpt (some c.paq) hh).bind fun hh =>
  (mixOp u z qstate hh).map fun h => (h, h)

/-! ## QSimpleSNN, QLIF -/

/-- A `QSimpleSNNCell` (`beta = none`) or `QLIFCell`; the surrogate `soft` of the spike function as in `spikeFn`. -/
structure SnnArr where
  units : ℕ
  threshold : RVec
  factor : RVec
  inhibition : Bool
  reset : ResetMech
  beta : Option RVec
  iq : Option ArrQuant
  oq : Option ArrQuant
  sq : Option ArrQuant
  soft : ℚ → ℚ

/-- `ops.argmax` of the first `n` entries of a row: the first index of a largest one (0 for no entries). -/
def argmaxRow (v : RVec) : ℕ → ℕ
  | 0 => 0
  | n + 1 => if v (argmaxRow v n) < v n then n else argmaxRow v n

/-- Membrane update, snn/base.py L410 and L521. -/
def SnnArr.memRow (c : SnnArr) (state x : RVec) : RVec :=
  match c.beta with
  | some b => fun j => b j * state j + x j
  | none => fun j => state j + x j

/-- Spikes, `fire`, snn/base.py L357-361. -/
def SnnArr.spikeRow (c : SnnArr) (mem : RVec) : RVec :=
  if c.inhibition then fun j => spikeFn c.soft (mem j - c.threshold j) * (if j = argmaxRow (fun j => mem j - c.threshold j) c.units then 1 else 0)
  else fun j => spikeFn c.soft (mem j - c.threshold j)

/-- `reset`, snn/base.py L364-370. -/
def SnnArr.resetRow (c : SnnArr) (mem spk : RVec) : RVec :=
  match c.reset with
  | .subtract => fun j => mem j - spk j * c.threshold j
  | .zero => fun j => mem j * (1 - spk j)
  | .none => mem

/-- `QSimpleSNNCell.call` and `QLIFCell.call`, snn/base.py L408-414, L519-525. -/
def SnnArr.stepK (c : SnnArr) (x state : Arr ℚ) : Option (Arr ℚ × Arr ℚ) :=
  let u := c.units
  (kerasOpt c.iq x).bind fun qx => (row2 u u u c.memRow state qx).bind fun mem => (row1 u u c.spikeRow mem).bind fun spk =>
  (row1 u u (fun s j => s j * c.factor j) spk).bind fun output => (kerasOpt c.oq output).bind fun output =>
  (row2 u u u c.resetRow mem spk).bind fun new => (kerasOpt c.sq new).map fun new => (output, new)

/-- Which units fire, `_QSNNReplay._spike`, _alkaid_keras_plugin/snn.py L31-43. -/
def SnnArr.fireRow (c : SnnArr) (state : RVec) (j : ℕ) : Bool :=
  let score : RVec := fun j => state j - c.threshold j
  let fire := decide (score j > 0)
  if c.inhibition then
    fire && (List.range j).all (fun i => decide (score j > score i)) && (List.range (c.units - (j + 1))).all (fun i => decide (score j ≥ score (j + 1 + i)))
  else fire

/-- `_QSNNReplay._reset`, snn.py L47-52. -/
def SnnArr.resetA (c : SnnArr) (state : RVec) : RVec :=
  match c.reset with
  | .subtract => fun j => if c.fireRow state j then state j - c.threshold j else state j
  | .zero => fun j => if c.fireRow state j then 0 else state j
  | .none => state

/-- `_QSNNReplay._step`, snn.py L54-67. -/
def SnnArr.stepA (c : SnnArr) (x state : Arr ℚ) : Option (Arr ℚ × Arr ℚ) :=
  let u := c.units
  (alkaidOpt c.iq x).bind fun qx => (row2 u u u c.memRow state qx).bind fun mem =>
  (row1 u u (fun m j => if c.fireRow m j then c.factor j else 0) mem).bind fun output => (alkaidOpt c.oq output).bind fun output =>
  (row1 u u c.resetA mem).bind fun new => (alkaidOpt c.sq new).map fun new => (output, new)

/-! ## Layers -/

/-- Cells. -/
inductive RnnCell
  | simple (c : SimpleArr)
  | gru (c : GruArr)
  | snn (c : SnnArr)

/-- Units of a cell: the width of its state. -/
def RnnCell.units : RnnCell → ℕ
  | .simple c => c.units
  | .gru c => c.units
  | .snn c => c.units

/-- One step in Keras. -/
def RnnCell.stepK : RnnCell → Arr ℚ → Arr ℚ → Option (Arr ℚ × Arr ℚ)
  | .simple c => c.stepK
  | .gru c => c.stepK
  | .snn c => c.stepK

/-- One step in the plugin. -/
def RnnCell.stepA : RnnCell → Arr ℚ → Arr ℚ → Option (Arr ℚ × Arr ℚ)
  | .simple c => c.stepA
  | .gru c => c.stepA
  | .snn c => c.stepA

/-- What is returned: all outputs (`return_sequences=True`), the last one, or the last state. -/
inductive RnnOut
  | seq
  | last
  | state

/-- A recurrent layer. -/
structure RnnLayer where
  cell : RnnCell
  goBackwards : Bool
  out : RnnOut

/-- `x[:, t, :]`. -/
def timeSlice (x : Arr ℚ) (t : ℕ) : Option (Arr ℚ) :=
  match x.shape with
  | [B, T, d] => if t < T then run (some ⟨[B, d], fun idx => x.get [idx.getD 0 0, t, idx.getD 1 0]⟩) else none
  | _ => none

/-- Stacking matrices of one shape along axis 1. -/
def stackTime (ys : List (Arr ℚ)) : Option (Arr ℚ) :=
  match ys with
  | [] => none
  | y :: _ =>
    match y.shape with
    | [B, u] =>
      if ys.all (fun z => decide (z.shape = [B, u])) then
        run (some ⟨[B, ys.length, u], fun idx => ((ys.getD (idx.getD 1 0) y).get [idx.getD 0 0, idx.getD 2 0])⟩)
      else none
    | _ => none

/-- The time loop of Keras `RNN.call` (as used by `QRNN.call`, rnn/simple_rnn.py L389-399), without mask: outputs and final state. -/
def kerasLoop (step : Arr ℚ → Arr ℚ → Option (Arr ℚ × Arr ℚ)) : List (Arr ℚ) → Arr ℚ → Option (List (Arr ℚ) × Arr ℚ)
  | [], s => some ([], s)
  | x :: xs, s => (step x s).bind fun r => (kerasLoop step xs r.2).map fun t => (r.1 :: t.1, t.2)

/-- What the layer returns from outputs and final state; no time steps is an error. -/
def RnnOut.result (o : RnnOut) (r : List (Arr ℚ) × Arr ℚ) : Option (Arr ℚ) :=
  match o with
  | .seq => stackTime r.1
  | .last => r.1.getLast?
  | .state => if r.1 = [] then none else some r.2

/-- Number of time steps. -/
def timeSteps (x : Arr ℚ) : ℕ := x.shape.getD 1 0

/-- Keras `RNN.call` from a state `s`: the input sequence is reversed with `go_backwards`. -/
def RnnLayer.kerasRun (l : RnnLayer) (x s : Arr ℚ) : Option (List (Arr ℚ) × Arr ℚ) :=
  ((List.range (timeSteps x)).mapM (timeSlice x)).bind fun slices => kerasLoop l.cell.stepK (if l.goBackwards then slices.reverse else slices) s

/-- A matrix of zeros: `get_initial_state`, and `_zero_state` of the plugin (rnn.py L15-17, snn.py L16-19). -/
def zeroState (B u : ℕ) : Arr ℚ := ⟨[B, u], fun _ => 0⟩

/-- The layer in Keras on a sequence, with or without an initial state. -/
def RnnLayer.keras (l : RnnLayer) : List (Arr ℚ) → Option (Arr ℚ)
  | [x] => if x.shape.length = 3 then (l.kerasRun x (zeroState (x.shape.getD 0 0) l.cell.units)).bind l.out.result else none
  | [x, s] => if x.shape.length = 3 ∧ s.shape = [x.shape.getD 0 0, l.cell.units] then (l.kerasRun x s).bind l.out.result else none
  | _ => none

/-- A layer with `stateful=True` in Keras: `s` is the state left by the previous batch; result and next state. -/
def RnnLayer.kerasNext (l : RnnLayer) (x s : Arr ℚ) : Option (Arr ℚ × Arr ℚ) :=
  (l.kerasRun x s).bind fun r => (l.out.result r).map fun o => (o, r.2)

/-- The body of the loop of the plugin: `output, state = self._step(inputs[:, t, :], state); outputs.append(output)`. -/
def alkaidBody (step : Arr ℚ → Arr ℚ → Option (Arr ℚ × Arr ℚ)) (x : Arr ℚ) (acc : Option (List (Arr ℚ) × Arr ℚ)) (t : ℕ) : Option (List (Arr ℚ) × Arr ℚ) :=
  acc.bind fun a => (timeSlice x t).bind fun y => (step y a.2).map fun r => (a.1 ++ [r.1], r.2)

/-- The loop, rnn.py L38-43, snn.py L78-84: time indices in order, or from the last to the first. -/
def RnnLayer.alkaidRun (l : RnnLayer) (x s : Arr ℚ) : Option (List (Arr ℚ) × Arr ℚ) :=
  let steps := if l.goBackwards then (List.range (timeSteps x)).map fun k => timeSteps x - 1 - k else List.range (timeSteps x)
  steps.foldl (alkaidBody l.cell.stepA x) (some ([], s))

/-- `_QRNNReplay.call`, rnn.py L31-48, and `_QSNNReplay.call`, snn.py L69-89 (with batch axis). -/
def RnnLayer.alkaid (l : RnnLayer) : List (Arr ℚ) → Option (Arr ℚ)
  | [x] => if x.shape.length = 3 then (l.alkaidRun x (zeroState (x.shape.getD 0 0) l.cell.units)).bind l.out.result else none
  | [x, s] => if x.shape.length = 3 then (l.alkaidRun x s).bind l.out.result else none
  | _ => none

/-- Layers of models with recurrent layers. -/
inductive ZLayer
  | base (l : YLayer)
  | rnn (l : RnnLayer)

def ZLayer.keras : ZLayer → List (Arr ℚ) → Option (Arr ℚ)
  | .base l => l.keras
  | .rnn l => l.keras

def ZLayer.alkaid : ZLayer → List (Arr ℚ) → Option (Arr ℚ)
  | .base l => l.alkaid
  | .rnn l => l.alkaid

end HGQ
