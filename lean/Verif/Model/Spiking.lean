import Mathlib.Data.Fintype.Basic
import Mathlib.Data.Finset.Max
import Mathlib.Data.Rat.Defs
import Mathlib.Algebra.Order.Field.Rat
import Mathlib.Data.Nat.Log
import Mathlib.Algebra.Order.BigOperators.Group.Finset
import Mathlib.Algebra.BigOperators.Fin

/-!
# Spiking layers and their hardware replay

One sample (no batch axis), `n + 1` units, exact rationals.  Quantizers are arbitrary per-unit functions.
-/
namespace HGQ
open Finset

/-- `reset_mechanisms`, snn/base.py L48. -/
inductive ResetMech | subtract | zero | none
  deriving DecidableEq

/-- A spiking cell.  `beta` is the (quantized) decay of the LIF cells, `none` for the integrate-and-fire cells; `factor` the
(quantized, for the Q cells) `graded_spikes_factor`; scalars are broadcast to all units. `iq`, `oq`, `sq` are `none` when the
corresponding quantizer is disabled or absent (`SpikingNeuralCell`, `LIFCell`). -/
structure SnnCell (n : ℕ) where
  threshold : Fin (n + 1) → ℚ
  factor : Fin (n + 1) → ℚ
  inhibition : Bool
  reset : ResetMech
  beta : Option (Fin (n + 1) → ℚ)
  iq : Option (Fin (n + 1) → ℚ → ℚ)
  oq : Option (Fin (n + 1) → ℚ → ℚ)
  sq : Option (Fin (n + 1) → ℚ → ℚ)

/-- Optional element-wise quantizer (`_quantize_input/_output/_state`, snn/base.py L372-379). -/
def optQ {n : ℕ} (q : Option (Fin (n + 1) → ℚ → ℚ)) (v : Fin (n + 1) → ℚ) : Fin (n + 1) → ℚ :=
  match q with | some q => fun i => q i (v i) | none => v

/-- Forward value of the spike function: `ATan.__call__` (L27-33), i.e. `stop_gradient(hard - soft) + soft` for any surrogate
`soft`, and `_surrogate_bypass` (L154-156).  User-supplied `spike_grad` callables are not modelled. -/
def spikeFn (soft : ℚ → ℚ) (x : ℚ) : ℚ := ((if 0 < x then 1 else 0) - soft x) + soft x

/-- `ops.argmax`: the first index of a maximal entry. -/
def argmaxFirst {n : ℕ} (v : Fin (n + 1) → ℚ) : Fin (n + 1) :=
  (univ.filter (fun i => ∀ j, v j ≤ v i)).min' (by
    obtain ⟨i, _, hi⟩ := exists_max_image univ v univ_nonempty
    exact ⟨i, mem_filter.2 ⟨mem_univ i, fun j => hi j (mem_univ j)⟩⟩)

/-- `fire`, snn/base.py L129-134 and L357-362: emitted output and spike indicator. -/
def SnnCell.fire {n : ℕ} (c : SnnCell n) (soft : ℚ → ℚ) (mem : Fin (n + 1) → ℚ) : (Fin (n + 1) → ℚ) × (Fin (n + 1) → ℚ) :=
  let spk := fun i => spikeFn soft (mem i - c.threshold i)
  let spk := if c.inhibition then
      fun i => spk i * (if i = argmaxFirst (fun i => mem i - c.threshold i) then 1 else 0) else spk
  (fun i => spk i * c.factor i, spk)

/-- `reset`, snn/base.py L136-142 and L364-370. -/
def SnnCell.resetMem {n : ℕ} (c : SnnCell n) (mem spk : Fin (n + 1) → ℚ) : Fin (n + 1) → ℚ :=
  match c.reset with
  | .subtract => fun i => mem i - spk i * c.threshold i
  | .zero => fun i => mem i * (1 - spk i)
  | .none => mem

/-- Membrane update: `SpikingNeuralCell.call` L147, `LIFCell.call` L240, `QSimpleSNNCell.call` L410, `QLIFCell.call` L521. -/
def SnnCell.integrate {n : ℕ} (c : SnnCell n) (x state : Fin (n + 1) → ℚ) : Fin (n + 1) → ℚ :=
  match c.beta with
  | some b => fun i => b i * state i + optQ c.iq x i
  | none => fun i => state i + optQ c.iq x i

/-- The four `call` methods, snn/base.py L144-149, L238-244, L408-414, L519-525: output and new state. -/
def SnnCell.step {n : ℕ} (c : SnnCell n) (soft : ℚ → ℚ) (x state : Fin (n + 1) → ℚ) : (Fin (n + 1) → ℚ) × (Fin (n + 1) → ℚ) :=
  let mem := c.integrate x state
  let (output, spk) := c.fire soft mem
  (optQ c.oq output, optQ c.sq (c.resetMem mem spk))

/-- Keras `RNN.call` for one state: outputs in processing order and the last state. -/
def rnnFold {X S O : Type} (step : X → S → O × S) : List X → S → List O × S
  | [], s => ([], s)
  | x :: xs, s => let r := step x s; let t := rnnFold step xs r.2; (r.1 :: t.1, t.2)

/-- Options of a recurrent layer. -/
structure RnnOpts where
  goBackwards : Bool
  returnSequences : Bool
  returnState : Bool

/-- What a recurrent layer returns: a sequence or the last output (`none` for an empty sequence), and optionally the state. -/
structure RnnResult (O S : Type) where
  output : List O ⊕ Option O
  state : Option S

/-- Keras `RNN.call` (as used by `QRNN.call`, rnn/simple_rnn.py L389-399) without mask, unrolled or not; `stateful=False`. -/
def kerasRnn {X S O : Type} (step : X → S → O × S) (o : RnnOpts) (init : S) (xs : List X) : RnnResult O S :=
  let r := rnnFold step (if o.goBackwards then xs.reverse else xs) init
  ⟨if o.returnSequences then .inl r.1 else .inr r.1.getLast?, if o.returnState then some r.2 else none⟩

/-- `_QSNNReplay._spike`, _alkaid_keras_plugin/snn.py L31-44. -/
def replaySpike {n : ℕ} (c : SnnCell n) (state : Fin (n + 1) → ℚ) : (Fin (n + 1) → ℚ) × (Fin (n + 1) → Bool) :=
  let score := fun i => state i - c.threshold i
  let fire : Fin (n + 1) → Bool := fun i => decide (score i > 0)
  let fire := if c.inhibition then
      fun i => fire i && decide (∀ j, j < i → score i > score j) && decide (∀ j, i < j → score i ≥ score j) else fire
  (fun i => if fire i then c.factor i else 0, fire)

/-- `_QSNNReplay._reset`, snn.py L47-52. -/
def replayReset {n : ℕ} (c : SnnCell n) (state : Fin (n + 1) → ℚ) (fire : Fin (n + 1) → Bool) : Fin (n + 1) → ℚ :=
  match c.reset with
  | .subtract => fun i => if fire i then state i - c.threshold i else state i
  | .zero => fun i => if fire i then 0 else state i
  | .none => state

/-- `_QSNNReplay._step`, snn.py L54-67.  The mirrored quantizers are taken to equal the Keras ones at inference (C18). -/
def replaySnnStep {n : ℕ} (c : SnnCell n) (x state : Fin (n + 1) → ℚ) : (Fin (n + 1) → ℚ) × (Fin (n + 1) → ℚ) :=
  let x := optQ c.iq x
  let state := match c.beta with | some b => fun i => b i * state i + x i | none => fun i => state i + x i
  let (output, fire) := replaySpike c state
  (optQ c.oq output, optQ c.sq (replayReset c state fire))

/-- The time loop of the replays: `_QSNNReplay.call`, snn.py L69-88, and `_QRNNReplay.call`, rnn.py L31-48 — a loop over time
indices that appends outputs to a list. -/
def replayRnn {X S O : Type} (step : X → S → O × S) (o : RnnOpts) (init : S) (xs : List X) : RnnResult O S :=
  let steps := if o.goBackwards then (List.finRange xs.length).reverse else List.finRange xs.length
  let r := steps.foldl (fun (a : List O × S) t => let q := step xs[t] a.2; (a.1 ++ [q.1], q.2)) ([], init)
  ⟨if o.returnSequences then .inl r.1 else .inr r.1.getLast?, if o.returnState then some r.2 else none⟩

/-- `_accumulator_bits`, snn/base.py L381-389, for a unit whose state/input quantizer has the given widths; `T` is
`_ebops_sequence_length`. -/
def accumulatorBits (sqBits iqBits : Option ℕ) (T : ℕ) : ℕ :=
  match sqBits with
  | some b => b
  | none => (match iqBits with | some b => b | none => 1) + Nat.clog 2 (max T 1)

end HGQ
