import Verif.Model.RnnArr

/-!
# Recurrent layers on masked sequences

`QRNN.call`, rnn/simple_rnn.py L389-399, hands its mask to Keras `RNN.call`; the spiking layers are `QRNN` layers too (snn/base.py L549).  As in `Model/RnnArr.lean` the time loop is
that of Keras: at a masked step the cell is computed, its states are dropped and its output is replaced.  The plugin refuses masks (_alkaid_keras_plugin/rnn.py L33-34, snn.py L71).
-/
namespace HGQ

/-- What takes the place of the output at a masked step: the output of the step before, zeros at the first step (TensorFlow and PyTorch backends of Keras), or the first state
(JAX backend). -/
inductive MaskFill
  | output
  | state
  deriving DecidableEq

/-- `ops.where(mask, new, old)`; `on b` is the mask of sample `b` at this step.  Arrays of different shapes are an error. -/
def whereRows (on : ℕ → Bool) (new old : Arr ℚ) : Option (Arr ℚ) :=
  if new.shape = old.shape then some ⟨new.shape, fun idx => if on (idx.headD 0) then new.get idx else old.get idx⟩ else none

/-- The time loop of Keras `RNN.call` with a mask, which `QRNN.call` (rnn/simple_rnn.py L389-399) passes on: `prev` is the output of the step before. -/
def kerasLoopM (fill : MaskFill) (step : Arr ℚ → Arr ℚ → Option (Arr ℚ × Arr ℚ)) : List ((ℕ → Bool) × Arr ℚ) → Arr ℚ → Arr ℚ → Option (List (Arr ℚ) × Arr ℚ)
  | [], s, _ => some ([], s)
  | (on, x) :: xs, s, prev => (step x s).bind fun r =>
    (whereRows on r.1 (match fill with | .output => prev | .state => s)).bind fun o =>
    (whereRows on r.2 s).bind fun s' => (kerasLoopM fill step xs s' o).map fun t => (o :: t.1, t.2)

/-- Keras `RNN.call` from a state `s` with a mask, called at rnn/simple_rnn.py L397: `mask b t` is the mask of step `t` of sample `b`; steps and masks are reversed with `go_backwards`. -/
def RnnLayer.kerasRunM (l : RnnLayer) (fill : MaskFill) (mask : ℕ → ℕ → Bool) (x s : Arr ℚ) : Option (List (Arr ℚ) × Arr ℚ) :=
  ((List.range (timeSteps x)).mapM fun t => (timeSlice x t).map fun y => ((fun b => mask b t), y)).bind fun zs =>
    kerasLoopM fill l.cell.stepK (if l.goBackwards then zs.reverse else zs) s (zeroState (x.shape.getD 0 0) l.cell.units)

/-- `QRNN.call` with a mask, rnn/simple_rnn.py L389-399, with or without an initial state. -/
def RnnLayer.kerasMasked (l : RnnLayer) (fill : MaskFill) (mask : ℕ → ℕ → Bool) : List (Arr ℚ) → Option (Arr ℚ)
  | [x] => if x.shape.length = 3 then (l.kerasRunM fill mask x (zeroState (x.shape.getD 0 0) l.cell.units)).bind l.out.result else none
  | [x, s] => if x.shape.length = 3 ∧ s.shape = [x.shape.getD 0 0, l.cell.units] then (l.kerasRunM fill mask x s).bind l.out.result else none
  | _ => none

end HGQ
