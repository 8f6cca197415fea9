import Verif.Model.Replay
import Verif.Model.Layers
import Mathlib.Data.Fintype.Pi
import Mathlib.Data.Fintype.Sum
import Mathlib.Data.List.FinRange

/-!
# Multi-head attention: equations, EBOPs, masks and replay

`src/hgq/layers/attn/mha.py`, `src/hgq/_dais_tracer/layers/attn.py`, `src/hgq/_alkaid_keras_plugin/attn.py`, and the Keras helpers
`_build_attention_equation`, `MultiHeadAttention._compute_attention_mask`, `_masked_softmax` they call (Keras 3, not in /repo).
-/
namespace HGQ
open Finset

/-! ## The einsum equations -/

/-- Letters of `_build_attention_equation(rank, attn_axes)`: `inl i` is the letter of axis `i` in the target (query) notation,
`inr i` the fresh letter given to the attended axis `i` of the source (key, value) notation.  Letters are only names, so numbering the
fresh ones by their axis instead of consecutively changes nothing. -/
abbrev ALabel (r : ℕ) := Fin r ⊕ Fin r

/-- `batch_dims = np.delete(range(rank), attn_axes + (rank - 1,))`. -/
def attnBatch (r : ℕ) (A : List (Fin r)) : List (Fin r) := (List.finRange r).filter fun i => decide (i ∉ A) && decide ((i : ℕ) + 1 ≠ r)

/-- `target_notation`. -/
def attnTarget (r : ℕ) : List (ALabel r) := (List.finRange r).map Sum.inl

/-- One letter of `source_notation`. -/
def srcLabel {r : ℕ} (A : List (Fin r)) (i : Fin r) : ALabel r :=
  if i ∈ attnBatch r A ∨ (i : ℕ) + 1 = r then .inl i else .inr i

/-- `source_notation`. -/
def attnSource (r : ℕ) (A : List (Fin r)) : List (ALabel r) := (List.finRange r).map (srcLabel A)

/-- `product_notation`. -/
def attnProduct (r : ℕ) (A : List (Fin r)) : List (ALabel r) :=
  (attnBatch r A).map Sum.inl ++ A.map Sum.inl ++ A.map (srcLabel A)

/-- `tuple(range(1, rank - 2))`, mha.py L312-313: the default `attention_axes`. -/
def defaultAxes (r : ℕ) : List (Fin r) := (List.finRange r).filter fun i => decide (1 ≤ (i : ℕ)) && decide ((i : ℕ) + 2 < r)

/-- Shape of a projected tensor, `_get_output_shape` (mha.py L20-22) with the batch axis: sequence axes, heads, head size. -/
def projShape (b : ℕ) (seq : List ℕ) (heads width : ℕ) : List ℕ := b :: seq ++ [heads, width]

/-- Extent of a letter of the dot-product equation (key first, query second). -/
def letterDim {r : ℕ} (qd kd : List ℕ) : ALabel r → ℕ
  | .inl i => qd.getD i 0
  | .inr i => kd.getD i 0

/-- Shape of the attention scores: result of `einsum(dot_product_equation, key, query)`, L524. -/
def scoreShape (r : ℕ) (A : List (Fin r)) (qd kd : List ℕ) : List ℕ :=
  (attnProduct r A).map (letterDim qd kd)

/-- `attn_score_shape`, L351 (softmax built with it) and L392 (EBOPs): `(batch, num_heads, *query_shape[1:-1], *value_shape[1:-1])`. -/
def builtShape (b heads : ℕ) (qs vs : List ℕ) : List ℕ := b :: heads :: qs ++ vs

/-- Does the attention output einsum (L536) get an operand of the right rank?  The softmax applies quantizers whose bit-width tensors
have the rank of the shape they were built with, so its output has the larger of both ranks. -/
def combineFits (r : ℕ) (A : List (Fin r)) (n : ℕ) : Prop := max (attnProduct r A).length (2 + n + n) = (attnProduct r A).length

/-! ## EBOPs -/

/-- An einsum of two operands summed to a scalar (`...->`): sum over all assignments of indices to letters. -/
def einsumTotal {L : Type} [Fintype L] [DecidableEq L] (dim : L → ℕ) (X Y : List L) (x y : List ℕ → ℚ) : ℚ :=
  ∑ a ∈ Fintype.piFinset fun l => range (dim l), x (X.map a) * y (Y.map a)

/-- Extents of the letters in `einsum(dot_product_ebops_equation, bw_q, bw_k)`, L411: the FIRST operand (source letters) is the query. -/
def qkDim {r : ℕ} (A : List (Fin r)) (qd kd : Fin r → ℕ) : ALabel r → ℕ
  | .inl i => kd i
  | .inr i => if i ∈ A then qd i else 1

/-- Extents of the letters in `einsum(combine_ebops_equation, bw_attn, bw_v)`, L412.  Fresh letters that do not occur have extent 1. -/
def avDim {r : ℕ} (A : List (Fin r)) (qd vd : Fin r → ℕ) : ALabel r → ℕ
  | .inl i => if i ∈ A then qd i else vd i
  | .inr i => if i ∈ A then vd i else 1

/-- `_compute_ebops`, mha.py L386-416, without the projections: `bq`, `bk`, `bv`, `ba` are the bit widths of the projected query, key,
value and of the attention scores, as functions of the index; `pf` the parallelization factor. -/
def mhaEbops {r : ℕ} (A : List (Fin r)) (qd kd vd : Fin r → ℕ) (bq bk bv ba : List ℕ → ℚ) (pf : ℚ) : ℚ :=
  let qk := einsumTotal (qkDim A qd kd) (attnSource r A) (attnTarget r) bq bk
  let av := einsumTotal (avDim A qd vd) (attnProduct r A) (attnSource r A) ba bv
  let e := qk + av
  if pf > 0 then e * pf else e

/-! ## Masks -/

/-- A two-dimensional mask (one sample). -/
structure AMask where
  rows : ℕ
  cols : ℕ
  get : ℕ → ℕ → Bool

/-- Entry of a mask broadcast to the scores. -/
def AMask.at (m : AMask) (q v : ℕ) : Bool := m.get (if m.rows = 1 then 0 else q) (if m.cols = 1 then 0 else v)

/-- The masks of a call: optional masks over query, value and key positions, the causal flag and an attention mask. -/
structure MaskArgs where
  query : Option (ℕ → Bool)
  value : Option (ℕ → Bool)
  key : Option (ℕ → Bool)
  causal : Bool
  attention : Option AMask

/-- The list `masks` in `_compute_attention_mask`, _dais_tracer/layers/attn.py L93-105 and _alkaid_keras_plugin/attn.py L96-108 (there with
a leading batch axis), for `Q` query and `V` value positions. -/
def maskList (Q V : ℕ) (m : MaskArgs) : List AMask :=
  (m.query.map fun f => AMask.mk Q 1 fun q _ => f q).toList ++ (m.value.map fun f => AMask.mk 1 V fun _ v => f v).toList ++
  (m.key.map fun f => AMask.mk 1 V fun _ v => f v).toList ++
  (if m.causal then [AMask.mk Q V fun q v => decide (v ≤ q)] else []) ++ m.attention.toList

/-- `np.prod(np.stack(masks, axis=0), axis=0)`: `np.stack` raises (`none`) unless all shapes are equal. -/
def stackProd : List AMask → Option AMask
  | [] => none
  | m :: r => if r.all (fun x => x.rows == m.rows && x.cols == m.cols) then
      some ⟨m.rows, m.cols, fun q v => (m :: r).all fun x => x.get q v⟩ else none

/-- `_compute_attention_mask` of both tracers: outer `none` means an exception, inner `none` no mask. -/
def replayMask (Q V : ℕ) (m : MaskArgs) : Option (Option AMask) :=
  match maskList Q V m with
  | [] => some none
  | l => (stackProd l).map some

/-- Keras `&` of two masks, with broadcasting. -/
def maskAnd (a b : AMask) : Option AMask :=
  if (a.rows = b.rows ∨ a.rows = 1 ∨ b.rows = 1) ∧ (a.cols = b.cols ∨ a.cols = 1 ∨ b.cols = 1) then
    some ⟨max a.rows b.rows, max a.cols b.cols, fun q v => a.at q v && b.at q v⟩
  else none

/-- One step of Keras `auto_mask = mask if auto_mask is None else auto_mask & mask`. -/
def andStep (acc : Option (Option AMask)) (x : AMask) : Option (Option AMask) :=
  acc.bind fun a => match a with | none => some (some x) | some y => (maskAnd y x).map some

/-- Keras `attention_mask = auto_mask if attention_mask is None else attention_mask & auto_mask`. -/
def andLast : Option AMask → Option AMask → Option (Option AMask)
  | none, a => some a
  | some am, none => some (some am)
  | some am, some a => (maskAnd am a).map some

/-- Keras `MultiHeadAttention._compute_attention_mask`: `query & value & key & causal`, then `attention & auto`. -/
def kerasMask (Q V : ℕ) (m : MaskArgs) : Option (Option AMask) :=
  ((maskList Q V { m with attention := none }).foldl andStep (some none)).bind (andLast m.attention)

/-! ## The layer and its replay -/

/-- A projection (`QEinsumDense`) of one tensor: input width, head size, quantized kernel `[d, heads, width]`, quantized bias, input and
output quantizers by position. -/
structure AttnProj where
  d : ℕ
  width : ℕ
  kernel : ℕ → ℕ → ℕ → ℝ
  bias : Option (ℕ → ℕ → ℝ)
  iq : ℕ → ℕ → ℝ → ℝ
  oq : ℕ → ℕ → ℕ → ℝ → ℝ

/-- `fuse`. -/
inductive Fuse | none | kv | qkv
  deriving DecidableEq

/-- A built `QMultiHeadAttention` (mha.py L25-62): sequence axes flattened, `S + 1` key positions, one exponential and one inverse table
(`allow_heterogeneous_table=False`). -/
structure Mha where
  heads : ℕ
  enableIq : Bool
  enableOq : Bool
  fuse : Fuse
  q : AttnProj
  k : AttnProj
  v : AttnProj
  S : ℕ
  stable : Bool
  expT : ℝ → ℝ
  invT : ℝ → ℝ
  smOq : ℕ → ℕ → ℕ → ℝ → ℝ
  outIq : ℕ → ℕ → ℕ → ℝ → ℝ
  outKernel : ℕ → ℕ → ℕ → ℝ
  outBias : Option (ℕ → ℝ)
  outOq : ℕ → ℕ → ℝ → ℝ
  oq : ℕ → ℕ → ℝ → ℝ

/-- The input quantizer of the query projection after `build`, L205-207. -/
def Mha.qIq (m : Mha) : ℕ → ℕ → ℝ → ℝ := if m.fuse = .qkv then m.v.iq else m.q.iq
/-- The input quantizer of the key projection after `build`, L208-210. -/
def Mha.kIq (m : Mha) : ℕ → ℕ → ℝ → ℝ := if m.fuse = .qkv ∨ m.fuse = .kv then m.v.iq else m.k.iq

/-- `QEinsumDense.call` of a projection, with the input quantizer `iq` if enabled; output quantizers are always on (L162, L181, L200). -/
noncomputable def attnDense (en : Bool) (iq : ℕ → ℕ → ℝ → ℝ) (p : AttnProj) (x : ℕ → ℕ → ℝ) (t n h : ℕ) : ℝ :=
  p.oq t n h (proj p.d (fun a => if en then iq t a (x t a) else x t a) (fun a h => p.kernel a n h) (fun h => (p.bias.map fun b => b n h).getD 0) h)

/-- Scores `einsum(dot_product_equation, key, query)`, L524 (the factor of L520 is 1.0, L347); head size `w`. -/
noncomputable def attnScore (w : ℕ) (Q K : ℕ → ℕ → ℕ → ℝ) (n t s : ℕ) : ℝ := ∑ h ∈ range w, K s n h * Q t n h

/-- `_compute_attention` after the softmax (L536), the output projection (L476) and the layer's output quantizer (L478-479). -/
noncomputable def attnTail (m : Mha) (W : ℕ → ℕ → ℕ → ℝ) (V : ℕ → ℕ → ℕ → ℝ) (t o : ℕ) : ℝ :=
  let ctx := fun n h => ∑ s ∈ range (m.S + 1), W n t s * V s n h
  let y := ∑ n ∈ range m.heads, ∑ h ∈ range m.v.width, m.outIq t n h (ctx n h) * m.outKernel n h o
  let y := y + (m.outBias.map fun b => b o).getD 0
  let y := if m.enableOq then m.outOq t o y else y
  if m.enableOq then m.oq t o y else y

/-- `QMultiHeadAttention.call` at inference, mha.py L434-483: `value`, `key` default to `query`, `value`.  The scale `1/sqrt(key_dim)`
is part of `expT` (L339, then set to 1.0 at L347). -/
noncomputable def mhaCall (m : Mha) (x : ℕ → ℕ → ℝ) (value key : Option (ℕ → ℕ → ℝ)) (mask : Option (ℕ → ℕ → Bool)) (t o : ℕ) : ℝ :=
  let xv := value.getD x
  let xk := key.getD xv
  let Q := attnDense m.enableIq m.qIq m.q x
  let K := attnDense m.enableIq m.kIq m.k xk
  let V := attnDense m.enableIq m.v.iq m.v xv
  let W := fun n t s => m.smOq n t s (if hs : s < m.S + 1 then
    softmaxCall id m.expT m.invT m.stable (mask.map fun f (i : Fin (m.S + 1)) => f t i) (fun i => attnScore m.k.width Q K n t i) ⟨s, hs⟩ else 0)
  attnTail m W V t o

/-- Entry of part `j` of a fused projection. -/
def fusedPart (out : ℕ → ℕ → Option (List (ℕ × (ℕ → ℝ)))) (j t n h : ℕ) : ℝ :=
  (((out t n).getD []).getD j (0, fun _ => 0)).2 h

/-- The concatenated kernel and bias block of one projection for head `n`: a missing bias is `np.zeros_like(kernel[0])`, _dais_tracer/layers/attn.py L18-28. -/
def fusedBlock (p : AttnProj) (n : ℕ) : ℕ × (ℕ → ℕ → ℝ) × (ℕ → ℝ) :=
  (p.width, fun a h => p.kernel a n h, fun h => match p.bias with | some b => b n h | none => 0)

/-- `_fused_qkv_proj`, _dais_tracer/layers/attn.py L17-75 and _alkaid_keras_plugin/attn.py L20-78: projected query, key and value.
`value`, `key` are `none` if left out or the same tensor object as their default (`mha(x, x, x)`), `some` for another object.
The result `none` is an exception: the identity assertions, a failing `np.split`, or the access to
the `iq` of a projection whose input quantizer is disabled (core/base.py L265-268 raises AttributeError), L57, L62, L66, L70. -/
noncomputable def replayProj (m : Mha) (x : ℕ → ℕ → ℝ) (value key : Option (ℕ → ℕ → ℝ)) :
    Option ((ℕ → ℕ → ℕ → ℝ) × (ℕ → ℕ → ℕ → ℝ) × (ℕ → ℕ → ℕ → ℝ)) :=
  let xv := value.getD x
  let xk := key.getD xv
  let single (iq : ℕ → ℕ → ℝ → ℝ) (p : AttnProj) (y : ℕ → ℕ → ℝ) : ℕ → ℕ → ℕ → ℝ := fun t n h =>
    p.oq t n h (proj p.d (fun a => iq t a (y t a)) (fun a h => p.kernel a n h) (fusedBlock p n).2.2 h)
  match m.fuse with
  | .qkv =>
    if value.isSome ∨ key.isSome then none else
      let out := fun t n => fusedProj m.q.d (fun a => if m.enableIq then m.qIq t a (x t a) else x t a)
        [fusedBlock m.q n, fusedBlock m.k n, fusedBlock m.v n]
      if (out 0 0).isNone then none else
        some (fun t n h => m.q.oq t n h (fusedPart out 0 t n h), fun t n h => m.k.oq t n h (fusedPart out 1 t n h),
          fun t n h => m.v.oq t n h (fusedPart out 2 t n h))
  | .kv =>
    if key.isSome then none else
      let out := fun t n => fusedProj m.k.d (fun a => if m.enableIq then m.kIq t a (xk t a) else xk t a) [fusedBlock m.k n, fusedBlock m.v n]
      if (out 0 0).isNone then none else
        if m.enableIq then
          some (single m.qIq m.q x, fun t n h => m.k.oq t n h (fusedPart out 0 t n h), fun t n h => m.v.oq t n h (fusedPart out 1 t n h))
        else none
  | .none =>
    if m.enableIq then some (single m.qIq m.q x, single m.kIq m.k xk, single m.v.iq m.v xv) else none

/-- `ReplayMHA._compute_attention` after the softmax (L132-134), the replayed output projection (`ReplayQDense`: input quantizer, einsum,
bias, output quantizer if enabled, _dais_tracer/layers/dense.py L20-37 and _base.py L87-139) and L169-170 of attn.py. -/
noncomputable def replayTail (m : Mha) (W : ℕ → ℕ → ℕ → ℝ) (V : ℕ → ℕ → ℕ → ℝ) (t o : ℕ) : ℝ :=
  let ctx := fun n h => ∑ s ∈ range (m.S + 1), W n t s * V s n h
  let out := proj (m.heads * m.v.width) (fun c => m.outIq t (c / m.v.width) (c % m.v.width) (ctx (c / m.v.width) (c % m.v.width)))
    (fun c o => m.outKernel (c / m.v.width) (c % m.v.width) o) (fun o => match m.outBias with | some b => b o | none => 0) o
  match m.enableOq with
  | true => m.oq t o (m.outOq t o out)
  | false => out

/-- `ReplayMHA.call`, _dais_tracer/layers/attn.py L136-174, `_QMHA.call` of the Alkaid plugin: `low` is the smallest lower bound of the
traced scores minus one.  The mask is given (see `replayMask`). -/
noncomputable def replayMha (m : Mha) (low : ℝ) (x : ℕ → ℕ → ℝ) (value key : Option (ℕ → ℕ → ℝ)) (mask : Option (ℕ → ℕ → Bool)) :
    Option (ℕ → ℕ → ℝ) :=
  (replayProj m x value key).map fun (Q, K, V) =>
    let W := fun n t s => m.smOq n t s (if hs : s < m.S + 1 then
      replaySoftmax id m.expT m.invT m.stable (mask.map fun f (i : Fin (m.S + 1)) => f t i) low (fun i => attnScore m.k.width Q K n t i) ⟨s, hs⟩ else 0)
    replayTail m W V

end HGQ
