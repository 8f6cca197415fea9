import Verif.Model.Arr
import Verif.Model.FixedPoint
import Mathlib.Analysis.SpecialFunctions.Pow.Real

/-!
# Table layers and their traced form

`src/hgq/layers/table/dense.py`, `src/hgq/_dais_tracer/layers/table.py`, `src/hgq/_alkaid_keras_plugin/table.py`.  Real arithmetic; the
activation of the small networks is any function.
-/
namespace HGQ

/-! ## The small networks -/

/-- One EinsumDense layer of a table network: kernel and optional bias of every pair (input, output), width of its input, activation.
`QDenseT._build_module`, table/dense.py L64-94. -/
structure SubLayer where
  width : ℕ
  w : ℕ → ℕ → ℕ → ℝ
  b : Option (ℕ → ℕ → ℝ)
  act : ℝ → ℝ

/-- The Keras module for pair `j`: `...iod,iodD->...ioD` with bias `ioD` and activation, layer after layer. -/
noncomputable def kerasSubnet (j : ℕ) : List SubLayer → (ℕ → ℝ) → ℕ → ℝ
  | [], x => x
  | L :: r, x => kerasSubnet j r fun D => L.act (((List.range L.width).map fun d => x d * L.w j d D).sum + (match L.b with | some b => b j D | none => 0))

/-- `QDenseT.call`, table/dense.py L119-130, one output `o` of one position: `x i` the inputs, `iq`, `toq` the quantizers of pair `i * nOut + o`,
`bn o` the batch normalization (identity if off) divided by `sqrt(n_in)`. -/
noncomputable def denseT (nIn nOut : ℕ) (act : ℝ → ℝ) (iq toq : ℕ → ℝ → ℝ) (bn : ℕ → ℝ → ℝ) (ls : List SubLayer) (x : ℕ → ℝ) (o : ℕ) : ℝ :=
  act ((List.range nIn).map fun i =>
    toq (i * nOut + o) (bn o (kerasSubnet (i * nOut + o) ls (fun _ => iq (i * nOut + o) (x i)) 0))).sum

/-- Parameters of the batch normalization of channel `o`. -/
structure BnParams where
  center : Bool
  scale : Bool
  gamma : ℕ → ℝ
  beta : ℕ → ℝ
  mean : ℕ → ℝ
  var : ℕ → ℝ
  eps : ℝ

/-- Keras `BatchNormalization` at inference, divided by `sqrt(n_in)` (table/dense.py L127-128). -/
noncomputable def kerasBn (p : BnParams) (nIn o : ℕ) (v : ℝ) : ℝ :=
  (((if p.scale then p.gamma o else 1) * (v - p.mean o) / Real.sqrt (p.var o + p.eps)) + (if p.center then p.beta o else 0)) / Real.sqrt nIn

/-! ## Traced tables -/

/-- Ranges of the input variables of the tables, `out.lhs` (flat index). -/
structure Lhs where
  l : ℕ → ℝ
  h : ℕ → ℝ
  s : ℕ → ℝ

/-- `np.round((h - l) / s).astype(np.uint32) + 1`, _dais_tracer/layers/table.py L88; `rnd` is numpy's rounding. -/
noncomputable def tableSize (rnd : ℝ → ℤ) (v : Lhs) (idx : ℕ) : ℕ := (rnd ((v.h idx - v.l idx) / v.s idx)).toNat + 1

/-- `np.linspace(l, h, n)[t]`. -/
noncomputable def linspace (l h : ℝ) (n t : ℕ) : ℝ := if n ≤ 1 then l else l + t * ((h - l) / ((n : ℝ) - 1))

/-- `np.where(mask.ravel())[0]` for the group of tables of size `g`, L105; `P * J` tables. -/
def groupIdxs (sizes : ℕ → ℕ) (P J g : ℕ) : List ℕ := (List.range (P * J)).filter fun idx => sizes idx == g

/-- `np.concatenate([w[_mask] for _mask in mask], axis=0)`, L108-111: one row of the mask per position, selecting pairs. -/
def groupPairs (sizes : ℕ → ℕ) (P J g : ℕ) : List ℕ :=
  (List.range P).flatMap fun p => (List.range J).filter fun j => sizes (p * J + j) == g

/-- The network evaluated with the gathered weights, L108-115: entry `j` of the group uses the weights of the gathered pair. -/
noncomputable def replaySubnet (pairs : List ℕ) (acts : List (ℝ → ℝ)) (ls : List SubLayer) (j : ℕ) (x : ℕ → ℝ) : ℝ :=
  match ls, acts with
  | L :: r, a :: as => replaySubnet pairs as r j fun D =>
      a (((List.range L.width).map fun d => x d * L.w (pairs.getD j 0) d D).sum + (match L.b with | some b => b (pairs.getD j 0) D | none => 0))
  | _, _ => x 0

/-- The table for flat index `idx`, L98-118: column `j` of the array of its group, with `idxs[j] = idx`. -/
noncomputable def buildTable (rnd : ℝ → ℤ) (v : Lhs) (P J : ℕ) (acts : List (ℝ → ℝ)) (ls : List SubLayer) (idx : ℕ) : List ℝ :=
  let sizes := tableSize rnd v
  let g := sizes idx
  let idxs := groupIdxs sizes P J g
  let j := idxs.idxOf idx
  (List.range g).map fun t =>
    replaySubnet (groupPairs sizes P J g) acts ls j fun _ => linspace (v.l (idxs.getD j 0)) (v.h (idxs.getD j 0)) g t

/-- Batch normalization folded into the table, L120-131 (both tracers, lines of _dais_tracer): without `center` the offset starts from 1. -/
noncomputable def replayBn (p : BnParams) (nIn o : ℕ) (v : ℝ) : ℝ :=
  let scaler := (if p.scale then p.gamma o else 1) / Real.sqrt (p.var o + p.eps)
  let offset := (if p.center then p.beta o else 1) - p.mean o * scaler
  (v * scaler + offset) / Real.sqrt nIn

/-- `FixedVariable.lookup(table)`: the entry at the number of steps above the lower bound. -/
noncomputable def lookup (v : Lhs) (idx : ℕ) (table : List ℝ) (x : ℝ) : ℝ := table.getD (⌊(x - v.l idx) / v.s idx⌋).toNat 0

/-- `ReplayDenseTable.call` / `_QDenseTable.call`, position `p`, output `o`; `bn` the folded normalization of channel `idx % n_out` (identity
if off), `toq` the table quantizer, `acts` the numpy activations; the layer's own activation is applied by the caller. -/
noncomputable def replayDenseT (rnd : ℝ → ℤ) (v : Lhs) (P nIn nOut : ℕ) (acts : List (ℝ → ℝ)) (ls : List SubLayer) (bn : ℕ → ℝ → ℝ)
    (toq iq : ℕ → ℝ → ℝ) (act : ℝ → ℝ) (x : ℕ → ℝ) (p o : ℕ) : ℝ :=
  act ((List.range nIn).map fun i =>
    let idx := p * (nIn * nOut) + (i * nOut + o)
    let table := ((buildTable rnd v P (nIn * nOut) acts ls idx).map (bn (idx % nOut))).map (toq idx)
    lookup v idx table (iq idx (x i))).sum

/-! ## Activations -/

/-- Activations with a numpy version of their own in `keras_act_to_numpy`, _dais_tracer/layers/table.py L18-49, _alkaid_keras_plugin/table.py L23-54, except `gelu`. -/
inductive TableAct | relu | tanh | linear | sigmoid | swish | elu | selu | softplus | softsign | exponential | hardSilu
  deriving DecidableEq

/-- Constants of `selu`, _dais_tracer/layers/table.py L37-38 (the same as Keras'). -/
noncomputable def seluAlpha : ℝ := 1.6732632423543772
noncomputable def seluScale : ℝ := 1.0507009873554805

/-- The Keras activations (documented definitions): `silu(x) = x * sigmoid(x)`, `hard_silu(x) = x * relu6(x + 3) / 6`,
`selu(x) = scale * elu(x, alpha)`, … -/
noncomputable def kerasAct : TableAct → ℝ → ℝ
  | .relu, x => if 0 < x then x else 0
  | .tanh, x => (Real.exp x - Real.exp (-x)) / (Real.exp x + Real.exp (-x))
  | .linear, x => x
  | .sigmoid, x => (1 + Real.exp (-x))⁻¹
  | .swish, x => x * (1 + Real.exp (-x))⁻¹
  | .elu, x => if x < 0 then Real.exp x - 1 else x
  | .selu, x => seluScale * if x < 0 then seluAlpha * (Real.exp x - 1) else x
  | .softplus, x => Real.log (Real.exp x + 1)
  | .softsign, x => x / (|x| + 1)
  | .exponential, x => Real.exp x
  | .hardSilu, x => x * (min 6 (max 0 (x + 3)) / 6)

/-- `keras_act_to_numpy`, _dais_tracer/layers/table.py L18-49. -/
noncomputable def numpyAct : TableAct → ℝ → ℝ
  | .relu, x => max 0 x
  | .tanh, x => Real.tanh x
  | .linear, x => x
  | .sigmoid, x => 1 / (1 + Real.exp (-x))
  | .swish, x => x / (1 + Real.exp (-x))
  | .elu, x => if 0 < x then x else Real.exp x - 1
  | .selu, x => seluScale * if 0 < x then x else seluAlpha * (Real.exp x - 1)
  | .softplus, x => Real.log (1 + Real.exp x)
  | .softsign, x => x / (1 + |x|)
  | .exponential, x => Real.exp x
  | .hardSilu, x => x * min 1 (max 0 ((x + 1) / 2))

/-! ## QEinsumDenseT -/

/-- Axis bookkeeping of `QEinsumDenseT.build`, table/dense.py L255-308, for label lists of input, kernel and output. -/
structure EinsumT (L : Type) where
  input : List L
  kernel : List L
  output : List L

variable {L : Type} [DecidableEq L]

/-- `extra_idxs`, L260. -/
def EinsumT.extra (e : EinsumT L) : List L := e.kernel.filter fun c => c ∉ e.input
/-- `presum_idxs`, L263. -/
def EinsumT.presum (e : EinsumT L) : List L := e.input ++ e.extra
/-- `_contract_axes`, L267, as one flag per axis of the presum array. -/
def EinsumT.contract (e : EinsumT L) : List Bool := e.input.map (fun c => decide (c ∉ e.output)) ++ e.extra.map fun _ => false
/-- `post_reduction_idxs`, L268. -/
def EinsumT.post (e : EinsumT L) : List L := (e.input.filter fun c => c ∈ e.output) ++ e.extra
/-- `_output_transpose`, L269-270. -/
def EinsumT.transpose (e : EinsumT L) : List ℕ := e.output.map e.post.idxOf
/-- `_kernel_axes`, L282-283. -/
def EinsumT.kernelAxes (e : EinsumT L) : List ℕ := e.kernel.map e.presum.idxOf
/-- `_bn_axes`, L300. -/
def EinsumT.bnAxes (e : EinsumT L) (norm : List L) : List ℕ := norm.map e.presum.idxOf

/-- `QEinsumDenseT.call`, L380-392, and `_QEinsumDenseTable.call` after table lookup: `dim` the axis sizes, `f` the table of the kernel
coordinates applied to the normalization coordinates, presum coordinates (for the quantizers) and the input entry. -/
noncomputable def einsumDenseT (e : EinsumT L) (norm : List L) (dim : L → ℕ) (f : List ℕ → List ℕ → List ℕ → ℝ → ℝ) (act : ℝ → ℝ)
    (x : List ℕ → ℝ) : Option (Arr ℝ) :=
  let pre : Arr ℝ := ⟨e.presum.map dim, fun c =>
    f (e.kernelAxes.map fun a => c.getD a 0) ((e.bnAxes norm).map fun a => c.getD a 0) c (x (c.take e.input.length))⟩
  (npTranspose e.transpose (npReduce List.sum false e.contract pre)).map fun r => ⟨r.shape, fun idx => act (r.get idx)⟩

end HGQ
