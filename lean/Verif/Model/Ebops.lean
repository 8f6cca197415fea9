import Mathlib.Data.List.Basic
import Mathlib.Data.Rat.Defs
import Mathlib.Algebra.BigOperators.Group.Finset.Basic
import Mathlib.Algebra.BigOperators.Fin
import Mathlib.Data.Fintype.BigOperators
import Mathlib.Algebra.Order.Field.Rat

/-!
# EBOPs: aggregation over a model and per-layer cost formulas

Values are exact rationals; the final cast to `uint32` (core/base.py L103) is not modelled.
-/
namespace HGQ

/-! ## Aggregation over the layers of a model -/

/-- Which `ebops` property a layer has: `keras` none at all (any non-HGQ layer, nested `Model` or wrapper), `base`
(core/base.py L178-182, also rnn/simple_rnn.py L374-378), `softmax` (softmax.py L183-192), `mha` (attn/mha.py L419-433),
`linformer` (attn/linformer.py L157-167), `salt` (attn/salt.py L189-201). -/
inductive EKind | keras | base | softmax | mha | linformer | salt
  deriving DecidableEq

/-- A layer object: identity, kind, the value of its `_ebops` weight (`none`: EBOPs disabled) and its sub-layers.
Sub-layer order: softmax `[exp, inv]`; mha `[query, key, value, softmax, output]`; linformer the same then `[lin_k, lin_v]`;
salt the same then optionally `conv`. -/
inductive ENode
  | mk (id : ℕ) (kind : EKind) (own : Option ℕ) (subs : List ENode)

def ENode.id : ENode → ℕ | mk i _ _ _ => i
def ENode.kind : ENode → EKind | mk _ k _ _ => k
def ENode.own : ENode → Option ℕ | mk _ _ o _ => o
def ENode.subs : ENode → List ENode | mk _ _ _ s => s

/-- The `ebops` property; `none` if it raises (or does not exist).
base: core/base.py L178-182.  softmax: softmax.py L183-192 (`convert_to_tensor(None)` raises).  mha: attn/mha.py L419-433.
linformer/salt: attn/linformer.py L157-167 and attn/salt.py L189-201 (only the two linear projections, own cost, conv). -/
def ENode.ebops : ENode → Option ℕ
  | mk _ .base own _ => some (own.getD 0)
  | mk _ .softmax (some o) [e, i] => do
      let a ← e.ebops; let b ← i.ebops
      some (o + a + b)
  | mk _ .mha none _ => some 0
  | mk _ .mha (some o) [q, k, v, s, w] => do
      let q ← q.ebops; let k ← k.ebops; let v ← v.ebops; let s ← s.ebops; let w ← w.ebops
      some (q + k + v + s + w + o)
  | mk _ .linformer none _ => some 0
  | mk _ .linformer (some o) [_, _, _, _, _, lk, lv] => do
      let a ← lk.ebops; let b ← lv.ebops
      some (a + b + o)
  | mk _ .salt none _ => some 0
  | mk _ .salt (some o) [_, _, _, _, _, lk, lv] => do
      let a ← lk.ebops; let b ← lv.ebops
      some (a + b + o)
  | mk _ .salt (some o) [_, _, _, _, _, lk, lv, conv] => do
      let a ← lk.ebops; let b ← lv.ebops; let c ← conv.ebops
      some (a + b + o + c)
  | _ => none

mutual
/-- All layers below and including a layer, before removal of duplicates (Keras `_flatten_layers`). -/
def ENode.all : ENode → List ENode
  | mk i k o s => mk i k o s :: ENode.allL s
/-- Same for a list of layers. -/
def ENode.allL : List ENode → List ENode
  | [] => []
  | n :: ns => n.all ++ ENode.allL ns
end

/-- `_flatten_layers` visits each object once. -/
def flattenLayers (top : List ENode) : List ENode := (ENode.allL top).pwFilter (fun a b => a.id ≠ b.id)

/-- `FreeEBOPs.on_epoch_end` (utils/sugar/ebops.py L8-15) and `EarlyStoppingWithEbopsThres` (early_stopping_ebops.py L85-88). -/
def freeEbops (top : List ENode) : ℕ := ((flattenLayers top).map (fun n => n.own.getD 0)).sum

/-- Sum of optional values, failing if one fails. -/
def sumOpt : List (Option ℕ) → Option ℕ
  | [] => some 0
  | x :: xs => do let a ← x; let b ← sumOpt xs; some (a + b)

/-- `BaseBetaPID.get_ebops` (beta_pid.py L41-47): the top-level layers that have an `ebops` attribute. -/
def pidEbops (top : List ENode) : Option ℕ := sumOpt ((top.filter (fun n => n.kind ≠ .keras)).map ENode.ebops)

/-- `trace_minmax` (minmax_trace.py L83-99): the top-level layers with `enable_ebops`. -/
def traceEbops (top : List ENode) : Option ℕ := sumOpt ((top.filter (fun n => n.own.isSome)).map ENode.ebops)

/-! ## Cost formulas -/

open Finset

/-- `ops.mean` of a vector. -/
def meanV {m : ℕ} (v : Fin m → ℚ) : ℚ := (∑ j, v j) / m

/-- core/dense.py L52-53: a negative `parallelization_factor` becomes the number of parallel positions. -/
def resolvePf (pf : ℚ) (npar : ℕ) : ℚ := if pf < 0 then npar else pf

/-- `QDense._compute_ebops`, core/dense.py L70-80.  `bi` input bit-widths for the `P` positions (product of all but the
last dimension, batch 1), `bk` kernel bits, `bb` bias bits; `n_parallel = P` (L50). -/
def denseEbops {P n m : ℕ} (bi : Fin P → Fin n → ℚ) (bk : Fin n → Fin m → ℚ) (bb : Option (Fin m → ℚ)) (pf : ℚ) : ℚ :=
  let e := ∑ p, ∑ j, ∑ i, bi p i * bk i j
  let e := match bb with | some bb => e + meanV bb * (P * m : ℕ) | none => e
  e * resolvePf pf P / P

/-- `QEinsumDense._compute_ebops`, core/einsum_dense.py L85-93: the equation without output labels, i.e. the sum
over all label assignments `A` (an operand is a function of the assignment that depends only on its own labels), plus bias; `size` is the
number of output elements, `npar` is `n_parallel`. -/
def einsumEbops {A : Type} [Fintype A] {m : ℕ} (bi bk : A → ℚ) (bb : Option (Fin m → ℚ)) (size : ℕ) (pf : ℚ) (npar : ℕ) : ℚ :=
  let e := ∑ a, bi a * bk a
  let e := match bb with | some bb => e + meanV bb * size | none => e
  e * resolvePf pf npar / npar

/-- `QBaseConv._compute_ebops`, conv.py L91-102.  `out p j` lists, for output position `p` and filter `j`, the pairs (input
bits, kernel bits) that are multiplied (the convolution itself, `ops.sum(convolution_op(bits, bits))`); `inPos` is
`prod(shape[:-1])` of the INPUT shape, `outPos = n_parallel`. -/
def convEbops {m : ℕ} (outPos inPos : ℕ) (out : Fin outPos → Fin m → List (ℚ × ℚ)) (bb : Option (Fin m → ℚ)) (pf : ℚ) : ℚ :=
  let e := ∑ p, ∑ j, ((out p j).map (fun q => q.1 * q.2)).sum
  let pf := if pf ≤ 0 then (outPos : ℚ) else pf
  let e := e * (pf / outPos)
  match bb with | some bb => e + meanV bb * (inPos * m : ℕ) | none => e

/-- `QSimpleRNNCell._compute_ebops`, rnn/simple_rnn.py L274-289, for input bits of `R` rows (`prod(shape) = R * n`). -/
def rnnCellEbops {R n u : ℕ} (bi : Fin R → Fin n → ℚ) (bk : Fin n → Fin u → ℚ) (bs : Fin u → ℚ) (br : Fin u → Fin u → ℚ)
    (bb : Option (Fin u → ℚ)) : ℚ :=
  let e := (∑ r, ∑ j, ∑ i, bi r i * bk i j) + ∑ j, ∑ i, bs i * br i j
  match bb with | some bb => e + meanV bb * (R * n : ℕ) | none => e

/-- `QSimpleRNN._compute_ebops`, rnn/simple_rnn.py L603-606: the cell is given the whole `(1, T, features)` shape; the result
is multiplied by `parallelization_factor` (the sequence length `T` when `-1`, L322-324).  The input quantizer's bits do not
depend on time (it is built for `(batch, features)`). -/
def simpleRnnEbops {n u : ℕ} (T : ℕ) (bi : Fin n → ℚ) (bk : Fin n → Fin u → ℚ) (bs : Fin u → ℚ) (br : Fin u → Fin u → ℚ)
    (bb : Option (Fin u → ℚ)) (pf : ℚ) : ℚ :=
  rnnCellEbops (R := T) (fun _ => bi) bk bs br bb * (if pf = -1 then (T : ℚ) else pf)

/-- The bias term of `QGRUCell._compute_ebops`, rnn/gru.py L356-363.  With `reset_after` the bias is `(2, 3u)` and everything
is summed; otherwise it is a vector of `3u` entries and `bw_bias[0]` is its first entry. -/
def gruBiasEbops {m : ℕ} (resetAfter : Bool) (b0 b1 : Fin (m + 1) → ℚ) : ℚ :=
  if resetAfter then (∑ j, b0 j) + ∑ j, b1 j else b0 0

/-- `QDot._compute_ebops`, ops/merge.py L71-74, on two operands of equal shape: elementwise product of the bits.
`n` rows of length `d` each (the model of the layer output is the batched matrix `x yᵀ`, one product per row pair). -/
def dotEbops {n d : ℕ} (b0 b1 : Fin n → Fin d → ℚ) : ℚ := ∑ r, ∑ c, b0 r c * b1 r c

/-- `_ebops_from_sum_bits_excl_max`, ops/merge.py L18-25, at each of `E` elements for `n + 1` inputs. -/
def mergeEbops {E n : ℕ} (b : Fin E → Fin (n + 1) → ℚ) : ℚ :=
  (∑ e, ∑ i, b e i) - ∑ e, univ.inf' univ_nonempty (b e)

/-- `QSum._compute_ebops`, ops/accum.py L39-43 (factor 0.65): `G` sums of `n + 1` summands. -/
def sumEbops {G n : ℕ} (b : Fin G → Fin (n + 1) → ℚ) : ℚ := mergeEbops b * (65 / 100)

/-- `QDenseT._compute_ebops` / `QEinsumDenseT._compute_ebops`, table/dense.py L132-143, L394-403, for `E` tables with input
bits `bi`, output bits `bo`; `2 ** x` is over the integers here (bits are integer valued). -/
def smallLut (b : ℕ) (x : ℕ) : ℚ := if b ≤ x then 2 ^ (x - b) else x / b
/-- See `smallLut`. -/
def tableEbops {E : ℕ} (B b : ℕ) (bi bo : Fin E → ℕ) (pf : ℚ) (npar : ℕ) : ℚ :=
  ((∑ e, smallLut b (bi e) * bo e) * (2 : ℚ) ^ ((b : ℤ) - B) + ∑ e, (bo e : ℚ)) * resolvePf pf npar / npar

end HGQ
