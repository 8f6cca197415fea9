import Verif.Model.Spiking
import Verif.Model.Wrapper
import Mathlib.Algebra.BigOperators.Intervals

/-!
# Recurrent cells, their replay, and the weight cache

One sample, exact rationals.  A vector is a function of its index; only the indices below its length matter.  Quantizers and
activations are arbitrary functions (one per element for quantizers).
-/
namespace HGQ
open Finset

/-- A row vector / a matrix. -/
abbrev RVec := ℕ → ℚ
abbrev RMat := ℕ → ℕ → ℚ

/-- `x @ W` for a row `x` of length `d`. -/
def rowMul (d : ℕ) (x : RVec) (W : RMat) : RVec := fun j => ∑ a ∈ range d, x a * W a j

/-- A `QSimpleRNNCell` after quantization of its weights: `qkernel`, `qrecurrent_kernel`, `qbias` (`none`: `use_bias=False`),
`iq`, `paq`, `sq` (`none`: `enable_sq=False`), activation. -/
structure SimpleCell where
  inDim : ℕ
  units : ℕ
  kernel : RMat
  rkernel : RMat
  bias : Option RVec
  iq : ℕ → ℚ → ℚ
  sq : Option (ℕ → ℚ → ℚ)
  paq : ℕ → ℚ → ℚ
  act : ℚ → ℚ

/-- `QSimpleRNNCell.call`, rnn/simple_rnn.py L232-259, at inference (no dropout). -/
def SimpleCell.step (c : SimpleCell) (x state : RVec) : RVec × RVec :=
  let qstate := match c.sq with | some q => fun j => q j (state j) | none => state
  let qx : RVec := fun j => c.iq j (x j)
  let h := rowMul c.inDim qx c.kernel
  let h := match c.bias with | some b => fun j => h j + b j | none => h
  let output : RVec := fun j => h j + rowMul c.units qstate c.rkernel j
  let output : RVec := fun j => c.paq j (output j)
  let output : RVec := fun j => c.act (output j)
  (output, output)

/-- `_QSimpleRNN._step`, _alkaid_keras_plugin/rnn.py L59-70, with mirrored quantizers `iq'`, `sq'`, `paq'` and the numpy
activation `act'`. -/
def replaySimpleStep (c : SimpleCell) (x state : RVec) : RVec × RVec :=
  let qx : RVec := fun j => c.iq j (x j)
  let qstate := match c.sq with | some q => fun j => q j (state j) | none => state
  let y := rowMul c.inDim qx c.kernel
  let y := match c.bias with | some b => fun j => y j + b j | none => y
  let y : RVec := fun j => y j + rowMul c.units qstate c.rkernel j
  let y : RVec := fun j => c.paq j (y j)
  let y : RVec := fun j => c.act (y j)
  (y, y)

/-- A `QGRUCell` after quantization of its weights.  `bias` holds the input and recurrent rows if `resetAfter`, the same row
twice otherwise (Keras allocates a single row then). -/
structure GruCell where
  inDim : ℕ
  units : ℕ
  kernel : RMat
  rkernel : RMat
  bias : Option (RVec × RVec)
  resetAfter : Bool
  iq : Option (ℕ → ℚ → ℚ)
  sq : ℕ → ℚ → ℚ
  rhq : ℕ → ℚ → ℚ
  paq : ℕ → ℚ → ℚ
  praq : ℕ → ℚ → ℚ
  act : ℚ → ℚ
  ract : ℚ → ℚ

/-- `QGRUCell.call`, rnn/gru.py L281-329, at inference (no dropout). -/
def GruCell.step (c : GruCell) (x h_tm1 : RVec) : RVec × RVec :=
  let u := c.units
  let qh : RVec := fun j => c.sq j (h_tm1 j)
  let qx : RVec := match c.iq with | some q => fun j => q j (x j) | none => x
  let ib : RVec := match c.bias with | some b => b.1 | none => fun _ => 0
  let matrix_x : RVec := fun j => rowMul c.inDim qx c.kernel j + ib j
  let x_zr : RVec := matrix_x
  let x_h : RVec := fun j => matrix_x (2 * u + j)
  let matrix_inner : RVec :=
    if c.resetAfter then
      (match c.bias with
        | some b => fun j => rowMul u qh c.rkernel j + b.2 j
        | none => rowMul u qh c.rkernel)
    else rowMul u qh c.rkernel
  let qzr : RVec := fun j => c.praq j (c.ract (x_zr j + matrix_inner j))
  let qz : RVec := qzr
  let qr : RVec := fun j => qzr (u + j)
  let recurrent_h : RVec :=
    if c.resetAfter then fun j => qr j * c.rhq j (matrix_inner (2 * u + j))
    else rowMul u (fun j => c.rhq j (qr j * qh j)) (fun a j => c.rkernel a (2 * u + j))
  let qhh : RVec := fun j => c.paq j (c.act (x_h j + recurrent_h j))
  let h : RVec := fun j => qz j * qh j + (1 - qz j) * qhh j
  (h, h)

/-- `_QGRU._step`, _alkaid_keras_plugin/rnn.py L82-115. -/
def replayGruStep (c : GruCell) (x state : RVec) : RVec × RVec :=
  let units := c.units
  let qstate : RVec := fun j => c.sq j (state j)
  let qx : RVec := match c.iq with | some q => fun j => q j (x j) | none => x
  let biases : RVec × RVec :=
    match c.bias with
    | some b => if c.resetAfter then b else (b.1, fun _ => 0)
    | none => (fun _ => 0, fun _ => 0)
  let matrix_x : RVec := fun j => rowMul c.inDim qx c.kernel j + biases.1 j
  let matrix_inner : RVec :=
    if c.resetAfter then fun j => rowMul units qstate c.rkernel j + biases.2 j
    else rowMul units qstate c.rkernel
  let zr : RVec := fun j => c.praq j (c.ract (matrix_x j + matrix_inner j))
  let recurrent_h : RVec :=
    if c.resetAfter then fun j => zr (units + j) * c.rhq j (matrix_inner (2 * units + j))
    else rowMul units (fun j => c.rhq j (zr (units + j) * qstate j)) (fun a j => c.rkernel a (2 * units + j))
  let hh : RVec := fun j => c.paq j (c.act (matrix_x (2 * units + j) + recurrent_h j))
  let state' : RVec := fun j => zr j * qstate j + (1 - zr j) * hh j
  (state', state')

/-! ## The weight cache -/

/-- The three quantized weights of a cell: `_qkernel_cache`, `_qrecurrent_kernel_cache`, `_qbias_cache`. -/
inductive CacheSlot | kernel | recurrent | bias
  deriving DecidableEq

/-- Weights of a cell and the attributes holding cached quantized weights (`none`: attribute absent). -/
structure CacheState (W Q : Type) where
  weights : CacheSlot → W
  cache : CacheSlot → Option Q

/-- How a call ends: normally, with an exception raised before the cache is touched (input validation in Keras'
`Layer.__call__`), by a quantizer while the cache is being filled (after the slots in the list were set), or by the recurrence
itself (bad shapes, a failing custom activation, out of memory, interruption...). -/
inductive CallEnd | ok | early | filling (done : List CacheSlot) | late

/-- What a user can do to a recurrent layer. -/
inductive CacheOp (W : Type)
  | assign (s : CacheSlot) (w : W)
  | call (e : CallEnd)
  | read (s : CacheSlot)

/-- `cell._set_weight_cache()` setting the given slots in order, simple_rnn.py L142-146 and gru.py L236-240. -/
def fillCache {W Q : Type} (quant : CacheSlot → W → Q) (slots : List CacheSlot) (st : CacheState W Q) : CacheState W Q :=
  slots.foldl (fun st s => { st with cache := fun t => if t = s then some (quant s (st.weights s)) else st.cache t }) st

/-- `qkernel`/`qrecurrent_kernel`/`qbias`, simple_rnn.py L114-136, gru.py L222-234 and L248-256: the cached value if the attribute
exists, else the quantized weight. -/
def readQ {W Q : Type} (quant : CacheSlot → W → Q) (st : CacheState W Q) (s : CacheSlot) : Q :=
  match st.cache s with | some q => q | none => quant s (st.weights s)

/-- All slots of a cell, in the order they are set. -/
def allSlots (useBias : Bool) : List CacheSlot := if useBias then [.kernel, .recurrent, .bias] else [.kernel, .recurrent]

/-- `cell._invalidate_weight_cache()`, simple_rnn.py L148-152, gru.py L242-246: `del` of each attribute. -/
def dropCache {W Q : Type} (useBias : Bool) (st : CacheState W Q) : CacheState W Q :=
  { st with cache := fun t => if t ∈ allSlots useBias then none else st.cache t }

/-- One user operation on a layer: new state, and the quantized weights observed — by a read, or by the recurrence of a call that
got that far.  `QRNN.call`, simple_rnn.py L389-399. -/
def cacheStep {W Q : Type} (quant : CacheSlot → W → Q) (useBias : Bool) (st : CacheState W Q) :
    CacheOp W → CacheState W Q × Option (List (CacheSlot × Q))
  | .assign s w => ({ st with weights := fun t => if t = s then w else st.weights t }, none)
  | .read s => (st, some [(s, readQ quant st s)])
  | .call .early => (st, none)
  | .call (.filling done) => (fillCache quant done st, none)
  | .call .ok =>
      let st' := fillCache quant (allSlots useBias) st
      (dropCache useBias st', some ((allSlots useBias).map fun s => (s, readQ quant st' s)))
  | .call .late =>
      let st' := fillCache quant (allSlots useBias) st
      (st', some ((allSlots useBias).map fun s => (s, readQ quant st' s)))

/-- A history of operations: final state and all observations. -/
def cacheRun {W Q : Type} (quant : CacheSlot → W → Q) (useBias : Bool) :
    List (CacheOp W) → CacheState W Q → CacheState W Q × List (Option (List (CacheSlot × Q)))
  | [], st => (st, [])
  | o :: os, st =>
      let r := cacheStep quant useBias st o
      let t := cacheRun quant useBias os r.1
      (t.1, r.2 :: t.2)

end HGQ
