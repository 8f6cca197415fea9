import Mathlib.Algebra.BigOperators.Group.List.Basic
import Mathlib.Data.Rat.Defs
import Mathlib.Algebra.Field.Rat
import Mathlib.Data.Nat.Log
import Verif.Model.Mapper

/-!
# EBOPs of batch normalization, softmax and spiking layers

Tensors are functions of an index list; `shape` always has the batch size 1 in front, as the wrapper passes it (core/base.py L100).
-/
namespace HGQ

/-- Sum over a tensor (`ops.sum`). -/
def tsum (shape : List ℕ) (b : List ℕ → ℚ) : ℚ := ((indices shape).map b).sum

/-! ## Batch normalization -/

/-- `QBatchNormalization._compute_ebops`, batch_normalization.py L200-206: `bi` input bits, `bk`, `bb` bits of scale and offset, which are vectors
of length `C`, reshaped to `_shape` (1 everywhere but at `ax`, L79-81) and broadcast. -/
def bnEbops (shape : List ℕ) (ax C : ℕ) (bi : List ℕ → ℚ) (bk bb : ℕ → ℚ) : ℚ :=
  tsum shape (fun idx => bi idx * bk (idx.getD ax 0)) + ((List.range C).map bb).sum / C * shape.prod

/-! ## Softmax -/

/-- `QUnaryFunctionLUT._compute_ebops`, activation.py L63-67. -/
def lutEbops (shape : List ℕ) (bi : List ℕ → ℕ) (bo : List ℕ → ℚ) : ℚ := tsum shape (fun idx => 2 ^ bi idx * bo idx) * (1 / 10000)

/-- A `QSoftmax` as far as its EBOPs are concerned: bits of its input quantizer (`none` if disabled), of the input and output quantizers of the
exponential table and of the reciprocal table. -/
structure SoftmaxBits where
  stable : Bool
  iq : Option (List ℕ → ℕ)
  expIq : List ℕ → ℕ
  expOq : List ℕ → ℚ
  invIq : List ℕ → ℕ
  invOq : List ℕ → ℚ

/-- `accum_shape`, softmax.py L135. -/
def accumShape (axes : List ℕ) (shape : List ℕ) : List ℕ := shape.mapIdx fun i s => if axes.contains i then 1 else s

/-- Minimum of a list (`ops.min`). -/
def lmin (l : List ℚ) : ℚ := l.tail.foldl min (l.headD 0)

/-- `QSoftmax._compute_ebops`, softmax.py L134-161 (`axes` resolved by `build`, L104-105).  `ops.min(exp_bits, axis=axes)` has one entry for each
index of `accum_shape`; the bits of the reciprocal table are broadcast. -/
def softmaxEbops (q : SoftmaxBits) (axes : List ℕ) (pf : ℤ) (shape : List ℕ) : ℚ :=
  let acc := accumShape axes shape
  let nInst : ℚ := if pf > 0 then pf else acc.prod
  let inpBits : List ℕ → ℕ := q.iq.getD fun _ => 0
  let sub := if q.stable then (if q.iq.isSome then tsum shape (fun i => inpBits i) else tsum shape (fun i => q.expIq i)) else 0
  let accum := tsum shape q.expOq - tsum acc (fun j => lmin ((fibre axes shape j).map q.expOq))
  let mult := tsum shape (fun i => q.expOq i * q.invOq (keepIdx axes i))
  let e := sub + accum + mult
  let e := if q.stable then e else e + tsum shape (fun i => 2 ^ inpBits i * q.expOq i) * (1 / 10000)
  e * (nInst / acc.prod)

/-- The layer's `ebops` property, softmax.py L183-192, before rounding: own EBOPs and those of the two tables.  The exponential table counts
only if stable (L97). -/
def softmaxTotal (q : SoftmaxBits) (axes : List ℕ) (pf : ℤ) (shape : List ℕ) : ℚ :=
  softmaxEbops q axes pf shape + (if q.stable then lutEbops shape q.expIq q.expOq else 0) + lutEbops (accumShape axes shape) q.invIq q.invOq

/-! ## Spiking layers -/

/-- `reset_mechanism`. -/
inductive SpikeReset | subtract | zero | none
  deriving DecidableEq

/-- A spiking cell as far as its EBOPs are concerned: bits per unit of the input quantizer (if enabled), of the state quantizer (if enabled), of the
spike factor and of the leak (`QLIFCell` only). -/
structure SpikeBits where
  iq : Option (ℕ → ℚ)
  sq : Option (ℕ → ℚ)
  factor : ℕ → ℚ
  leak : Option (ℕ → ℚ)
  reset : SpikeReset

/-- `_accumulator_bits`, snn/base.py L381-389; `⌈log2 T⌉` on integers. -/
def membraneBits (c : SpikeBits) (T : ℕ) (u : ℕ) : ℚ :=
  match c.sq, c.iq with
  | some s, _ => s u
  | none, some i => i u + Nat.clog 2 (max T 1)
  | none, none => 1 + Nat.clog 2 (max T 1)

/-- Sum over the units. -/
def usum (units : ℕ) (f : ℕ → ℚ) : ℚ := ((List.range units).map f).sum

/-- `_add_ebops`, L394-396. -/
def addEbops (units : ℕ) (b0 b1 : ℕ → ℚ) : ℚ := usum units (fun u => b0 u + b1 u - min (b0 u) (b1 u)) * (65 / 100)

/-- `_fire_reset_ebops`, L398-406. -/
def fireResetEbops (c : SpikeBits) (units : ℕ) (mem : ℕ → ℚ) : ℚ :=
  let e := usum units mem * (65 / 100)
  let e := e + usum units fun u => 1 * c.factor u
  match c.reset with
  | .subtract => e + usum units mem * (65 / 100)
  | .zero => e + usum units fun u => mem u * 1
  | .none => e

/-- `QSimpleSNNCell._compute_ebops` L416-421, `QLIFCell._compute_ebops` L527-535. -/
def spikeCellEbops (c : SpikeBits) (units T : ℕ) : ℚ :=
  match c.iq with
  | none => 0
  | some i =>
    let mem := membraneBits c T
    match c.leak with
    | none => addEbops units mem i + fireResetEbops c units mem
    | some l => usum units (fun u => mem u * l u) + addEbops units mem i + fireResetEbops c units mem

/-- `_QSNN._compute_ebops` L557-558 after `build` (`parallelization_factor == -1` becomes the sequence length, rnn/simple_rnn.py L321-324;
the cell gets the sequence length, snn/base.py L550-555). -/
def spikeEbops (c : SpikeBits) (units T : ℕ) (pf : ℤ) : ℚ := spikeCellEbops c units T * (if pf = -1 then (T : ℚ) else pf)

end HGQ
