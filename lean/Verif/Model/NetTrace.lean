import Verif.Model.Mapper

/-!
# `trace_minmax` on a whole model

A model is a list of nodes in execution order.  A node is either an operation without quantizer state (matrix products, activations,
pooling, reading a weight, the scaler and affine parts of `Quantizer`, … — an arbitrary function of everything computed before) or a call of
a quantizer.  Quantizers are referred to by slot numbers, so one quantizer can be called at several places (shared layers, weights
quantized more than once).  The functions follow `Layer.__call__` with the flag handed down (minmax_trace.py L76-81).
-/
namespace HGQ

/-- Static data of a quantizer: options, shape of the bit-width tensor, homogeneous axes. -/
structure QSlot where
  q : QOpts
  ws : List ℕ
  hm : List ℕ

/-- State of one bit-width cell of either quantizer type. -/
inductive SlotState
  | kif (s : KIFState)
  | kbi (s : KBIState)

/-- New state of a cell after a call; `xs` are the elements of the batch that share the cell (fixed_point_quantizer.py L277-307, L401-429). -/
def slotStep (q : QOpts) (fl : Flag) (xs : List ℚ) : SlotState → SlotState
  | .kif s => .kif (kifCall q s fl xs).1
  | .kbi s => .kbi (kbiCall q s fl xs).1

/-- Output of a call for the element `x` of the cell.  KBI rounds with the updated `i` in training and tracing (L286-288, L294-300). -/
def slotOut (q : QOpts) (fl : Flag) (xs : List ℚ) (x : ℚ) : SlotState → ℚ
  | .kif s => (kifCall q s fl [x]).2.headD 0
  | .kbi s =>
    if q.om = .WRAP ∧ q.trainable ∧ (fl.truthy || fl.eqTracing) then roundAt q.rm (kbiCall q s fl xs).1.f x
    else (kbiCall q s fl [x]).2.headD 0

/-- The cells of a quantizer after a call on a tensor. -/
def QSlot.step (n : QSlot) (fl : Flag) (x : Tensor) (st : List ℕ → SlotState) : List ℕ → SlotState :=
  fun j => slotStep n.q fl ((fibre n.hm x.shape j).map x.val) (st j)

/-- The output tensor of a quantizer call. -/
def QSlot.out (n : QSlot) (fl : Flag) (x : Tensor) (st : List ℕ → SlotState) : Tensor :=
  ⟨x.shape, fun idx => if idx ∈ indices x.shape then
    slotOut n.q fl ((fibre n.hm x.shape (bcastIdx n.ws idx)).map x.val) (x.val idx) (st (bcastIdx n.ws idx)) else 0⟩

/-- A node: an operation on everything computed so far, or the quantizer in a slot called on an earlier value. -/
inductive NetNode
  | op (f : List Tensor → Tensor)
  | quant (slot src : ℕ)

/-- A model. -/
structure Net where
  slots : ℕ → QSlot
  nodes : List NetNode

/-- States of all quantizers. -/
abbrev NetState := ℕ → List ℕ → SlotState

/-- A call in progress: values so far (model inputs first), quantizer states, and which tensor was given to which quantizer. -/
structure NetRun where
  env : List Tensor
  st : NetState
  log : List (ℕ × Tensor)

/-- Execution of one node. -/
def Net.step (net : Net) (fl : Flag) (r : NetRun) : NetNode → NetRun
  | .op f => { r with env := r.env ++ [f r.env] }
  | .quant s src =>
    let x := r.env.getD src ⟨[], fun _ => 0⟩
    { env := r.env ++ [(net.slots s).out fl x (r.st s)]
      st := Function.update r.st s ((net.slots s).step fl x (r.st s))
      log := r.log ++ [(s, x)] }

/-- `model(inputs, training=fl)`. -/
def Net.call (net : Net) (fl : Flag) (st : NetState) (inputs : List Tensor) : NetRun :=
  net.nodes.foldl (net.step fl) ⟨inputs, st, []⟩

/-- `_reset_minmax(model)`, minmax_trace.py L13-21. -/
def Net.reset (net : Net) (st : NetState) : NetState := fun s j =>
  match st s j with
  | .kif c => .kif (kifReset (net.slots s).q c)
  | .kbi c => .kbi (kbiReset (net.slots s).q c)

/-- The tracing loop, minmax_trace.py L76-81: states and the values computed for every batch. -/
def Net.traceLoop (net : Net) : NetState → List (List Tensor) → NetState × List (List Tensor)
  | st, [] => (st, [])
  | st, b :: bs =>
    let r := net.call .tracing st b
    let rest := net.traceLoop r.st bs
    (rest.1, r.env :: rest.2)

/-- `trace_minmax(model, data, reset)`, minmax_trace.py L66-81. -/
def Net.traceMinmax (net : Net) (reset : Bool) (st : NetState) (batches : List (List Tensor)) : NetState × List (List Tensor) :=
  net.traceLoop (if reset then net.reset st else st) batches

end HGQ
