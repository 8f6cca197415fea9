import Mathlib.Analysis.SpecialFunctions.Log.Basic
import Mathlib.Analysis.SpecialFunctions.Pow.Real
import Verif.Model.FixedPoint

/-!
# Model of the EBOPs loss under automatic differentiation

The bit widths are trained through the loss `ebops * ebops_factor * beta` (`layers/core/base.py` L95-104) and the
regularizers on the bit-width variables.  Every tensor expression of `_compute_ebops` is evaluated here on dual
numbers: the value and the partial derivatives the backend propagates, with the straight-through `round_conv`.
Numbers are exact reals (float32 rounding is not modelled).  A bit-width variable is a cell of `_i`, `_f` or `_b`;
`V` is the type of all of them, `θ : V → ℝ` their current values.
Backend derivatives of `relu`, `minimum`, `maximum`, `where` are trusted: `relu` has derivative `0` at `0`, ties of
`minimum`/`maximum` share the upstream gradient in some proportion `t` (the parameter of the operation; it differs
between backends).
-/

namespace HGQ

/-- `ops.round` on reals (half to even), the value of `round_conv`, `quantizer/internal/base.py` L20-21. -/
noncomputable def roundEvenR (x : ℝ) : ℝ :=
  if x - ⌊x⌋ < 1 / 2 then ⌊x⌋
  else if 1 / 2 < x - ⌊x⌋ then ⌊x⌋ + 1
  else if ⌊x⌋ % 2 = 0 then ⌊x⌋ else ⌊x⌋ + 1

/-- A scalar tensor with the derivatives automatic differentiation assigns to it. -/
structure Dual (V : Type) where
  val : ℝ
  grad : V → ℝ

namespace Dual
variable {V : Type}

/-- A tensor that does not depend on any variable (python numbers, `ops.cast(b > 0)`, `k`). -/
def const (c : ℝ) : Dual V := ⟨c, fun _ => 0⟩
/-- Reading a variable: `ops.cast(self._i, ...)`, fixed_point_quantizer.py L250, L254, L441, L445. -/
noncomputable def var [DecidableEq V] (θ : V → ℝ) (v : V) : Dual V := ⟨θ v, fun w => if w = v then 1 else 0⟩
/-- `a + b`. -/
noncomputable def add (a b : Dual V) : Dual V := ⟨a.val + b.val, fun v => a.grad v + b.grad v⟩
/-- `a - b`. -/
noncomputable def sub (a b : Dual V) : Dual V := ⟨a.val - b.val, fun v => a.grad v - b.grad v⟩
/-- `a * b`. -/
noncomputable def mul (a b : Dual V) : Dual V := ⟨a.val * b.val, fun v => a.grad v * b.val + a.val * b.grad v⟩
/-- Product with (or division by) a python number. -/
noncomputable def scale (c : ℝ) (a : Dual V) : Dual V := ⟨c * a.val, fun v => c * a.grad v⟩
/-- `round_conv`, `quantizer/internal/base.py` L19-28: rounds, and passes the upstream gradient unchanged. -/
noncomputable def roundConv (a : Dual V) : Dual V := ⟨roundEvenR a.val, a.grad⟩
/-- `ops.relu`; derivative `0` at `0`. -/
noncomputable def relu (a : Dual V) : Dual V := ⟨max a.val 0, fun v => if 0 < a.val then a.grad v else 0⟩
/-- `2.0 ** a`. -/
noncomputable def pow2 (a : Dual V) : Dual V := ⟨(2 : ℝ) ^ a.val, fun v => Real.log 2 * (2 : ℝ) ^ a.val * a.grad v⟩
/-- `ops.minimum(a, b)`; at a tie the gradient is shared `t : 1 - t`. -/
noncomputable def minimum (t : ℝ) (a b : Dual V) : Dual V :=
  ⟨min a.val b.val, fun v => if a.val < b.val then a.grad v else if b.val < a.val then b.grad v
    else t * a.grad v + (1 - t) * b.grad v⟩
/-- `ops.maximum(a, b)`; at a tie the gradient is shared `t : 1 - t`. -/
noncomputable def maximum (t : ℝ) (a b : Dual V) : Dual V :=
  ⟨max a.val b.val, fun v => if b.val < a.val then a.grad v else if a.val < b.val then b.grad v
    else t * a.grad v + (1 - t) * b.grad v⟩
/-- `ops.sum`. -/
noncomputable def sum (l : List (Dual V)) : Dual V := l.foldr add (const 0)
/-- `ops.mean`. -/
noncomputable def mean (l : List (Dual V)) : Dual V := scale (1 / l.length) (sum l)
/-- The minimum of a non-empty list: the loop of `_ebops_from_sum_bits_excl_max`, `layers/ops/merge.py` L21-23, and
`ops.min(bits, axis)` (`layers/ops/accum.py` L41, `layers/softmax.py` L152) of one group.  `t n` shares the ties at the
`n`-th step. -/
noncomputable def minChain (t : ℕ → ℝ) : ℕ → Dual V → List (Dual V) → Dual V
  | _, a, [] => a
  | n, a, b :: l => minChain t (n + 1) (minimum (t n) a b) l
end Dual

/-- A fixed-point quantizer as the EBOPs see it.  `kbi`: parametrized by `b, i` (else `i, f`).  `iv c` and `pv c` are
the variables of cell `c`: `_i`, and `_b` or `_f`; `k c` is `_k` as a number; `cell e` is the cell of tensor element `e`
(`bw_to_x`, `quantizer/internal/base.py`). -/
structure BwQ (V : Type) where
  kbi : Bool
  mode : OverflowMode
  k : ℕ → ℝ
  iv : ℕ → V
  pv : ℕ → V
  cell : ℕ → ℕ

section
variable {V : Type} [DecidableEq V]
open Dual

/-- Property `b` of a cell: KBI `round_conv(_b)` (fixed_point_quantizer.py L248-250), KIF `relu(i + f)` with rounded
`i`, `f` (L435-445). -/
noncomputable def BwQ.b (q : BwQ V) (θ : V → ℝ) (c : ℕ) : Dual V :=
  if q.kbi then roundConv (var θ (q.pv c))
  else relu (add (roundConv (var θ (q.iv c))) (roundConv (var θ (q.pv c))))

/-- Property `bits`, fixed_point_quantizer.py L93-97. -/
noncomputable def BwQ.bits (q : BwQ V) (θ : V → ℝ) (c : ℕ) : Dual V :=
  if q.mode = .SAT then add (q.b θ c) (const (q.k c)) else q.b θ c

/-- Property `fbits`, fixed_point_quantizer.py L100-105 (the cast of `b > 0` has no derivative). -/
noncomputable def BwQ.fbits (q : BwQ V) (θ : V → ℝ) (c : ℕ) : Dual V :=
  if q.mode = .WRAP then add (q.b θ c) (const (q.k c * (if 0 < (q.b θ c).val then 1 else 0)))
  else add (q.b θ c) (const (q.k c))

/-- `Quantizer.bits_(shape)` at element `e`, `quantizer/quantizer.py` L86-88. -/
noncomputable def BwQ.bits_ (q : BwQ V) (θ : V → ℝ) (e : ℕ) : Dual V := q.bits θ (q.cell e)
/-- `Quantizer.fbits_(shape)` at element `e`, `quantizer/quantizer.py` L90-92. -/
noncomputable def BwQ.fbits_ (q : BwQ V) (θ : V → ℝ) (e : ℕ) : Dual V := q.fbits θ (q.cell e)

/-- `ops.matmul(a, b)` of a `R × C` and a `C × U` tensor (row-major), all entries. -/
noncomputable def dualMatmul (R C U : ℕ) (a b : ℕ → Dual V) : List (Dual V) :=
  (List.range R).flatMap fun p => (List.range U).map fun u => Dual.sum ((List.range C).map fun c => mul (a (p * C + c)) (b (c * U + u)))

/-- The bias term: `ops.mean(bw_bias) * size` (zero when there is no bias), e.g. `layers/core/dense.py` L74-78. -/
noncomputable def biasCost (θ : V → ℝ) (bq : Option (BwQ V)) (U : ℕ) (size : ℝ) : Dual V :=
  match bq with
  | none => const 0
  | some q => scale size (mean ((List.range U).map (q.bits_ θ)))

/-- `QDense._compute_ebops`, `layers/core/dense.py` L70-80, for `P` positions, `C` inputs and `U` units.  `ratio` is
`parallelization_factor / n_parallel`. -/
noncomputable def denseCost (θ : V → ℝ) (P C U : ℕ) (iq kq : BwQ V) (bq : Option (BwQ V)) (ratio : ℝ) : Dual V :=
  scale ratio (add (Dual.sum (dualMatmul P C U (iq.bits_ θ) (kq.bits_ θ))) (biasCost θ bq U (P * U)))

/-- `QBaseConv._compute_ebops`, `layers/conv.py` L91-102: `macs` lists the (input element, kernel element) pairs the
convolution multiplies; the parallelization ratio applies to the products only.  `size` is `prod(shape[:-1]) * filters`. -/
noncomputable def convCost (θ : V → ℝ) (macs : List (ℕ × ℕ)) (iq kq : BwQ V) (bq : Option (BwQ V)) (U : ℕ) (size ratio : ℝ) : Dual V :=
  add (scale ratio (Dual.sum (macs.map fun p => mul (iq.bits_ θ p.1) (kq.bits_ θ p.2)))) (biasCost θ bq U size)

/-- `QEinsumDense._compute_ebops`, `layers/core/einsum_dense.py` L85-93 (`macs` are the index pairs of the equation). -/
noncomputable def einsumDenseCost (θ : V → ℝ) (macs : List (ℕ × ℕ)) (iq kq : BwQ V) (bq : Option (BwQ V)) (U : ℕ) (size ratio : ℝ) : Dual V :=
  scale ratio (add (Dual.sum (macs.map fun p => mul (iq.bits_ θ p.1) (kq.bits_ θ p.2))) (biasCost θ bq U size))

/-- `QBatchNormalization._compute_ebops`, `layers/batch_normalization.py` L200-206; `ch e` is the channel of element `e`. -/
noncomputable def bnCost (θ : V → ℝ) (E U : ℕ) (ch : ℕ → ℕ) (iq kq bq : BwQ V) : Dual V :=
  add (Dual.sum ((List.range E).map fun e => mul (iq.bits_ θ e) (kq.bits_ θ (ch e)))) (biasCost θ (some bq) U E)

/-- `QMultiply._compute_ebops`, `layers/ops/merge.py` L54-60: product over the inputs, summed over the elements. -/
noncomputable def multiplyCost (θ : V → ℝ) (E : ℕ) (q : BwQ V) (qs : List (BwQ V)) : Dual V :=
  Dual.sum ((List.range E).map fun e => qs.foldl (fun acc q' => mul acc (q'.bits_ θ e)) (q.bits_ θ e))

/-- `QEinsum._compute_ebops`, `layers/ops/einsum.py` L61-64, also `QDot` (`layers/ops/merge.py` L71-74): each entry of
`terms` lists the factors (quantizer, element) of one product. -/
noncomputable def einsumCost (θ : V → ℝ) (terms : List (List (BwQ V × ℕ))) : Dual V :=
  Dual.sum (terms.map fun t => (t.map fun p => p.1.bits_ θ p.2).foldl mul (const 1))

/-- `_ebops_from_sum_bits_excl_max`, `layers/ops/merge.py` L18-25, for `QAdd` (factor 0.65, L28-30), `QMaximum` and
`QMinimum` (factor 1, L77-84): sum of all widths minus, per element, the smallest. -/
noncomputable def mergeCost (θ : V → ℝ) (factor : ℝ) (t : ℕ → ℕ → ℝ) (E : ℕ) (q : BwQ V) (qs : List (BwQ V)) : Dual V :=
  scale factor (sub
    (Dual.sum ((List.range E).map fun e => Dual.sum ((q :: qs).map fun q' => q'.bits_ θ e)))
    (Dual.sum ((List.range E).map fun e => minChain (t e) 0 (q.bits_ θ e) (qs.map fun q' => q'.bits_ θ e))))

/-- `QSubtract._compute_ebops`, `layers/ops/merge.py` L46-50. -/
noncomputable def subtractCost (θ : V → ℝ) (t : ℕ → ℝ) (E : ℕ) (q0 q1 : BwQ V) : Dual V :=
  Dual.sum ((List.range E).map fun e => maximum (t e) (q0.bits_ θ e) (q1.bits_ θ e))

/-- `QSum._compute_ebops`, `layers/ops/accum.py` L39-43: `groups` are the (non-empty) groups of elements reduced
together. -/
noncomputable def sumCost (θ : V → ℝ) (t : ℕ × List ℕ → ℕ → ℝ) (groups : List (ℕ × List ℕ)) (q : BwQ V) : Dual V :=
  scale 0.65 (sub (Dual.sum (groups.map fun g => Dual.sum ((g.1 :: g.2).map (q.bits_ θ))))
    (Dual.sum (groups.map fun g => minChain (t g) 0 (q.bits_ θ g.1) (g.2.map (q.bits_ θ)))))

/-- `QBasePooling._compute_ebops`, `layers/pooling.py` L28-30. -/
noncomputable def poolCost (θ : V → ℝ) (E : ℕ) (q : BwQ V) (ratio : ℝ) : Dual V :=
  scale ratio (Dual.sum ((List.range E).map (q.bits_ θ)))

/-- `QUnaryFunctionLUT._compute_ebops`, `layers/activation.py` L63-67. -/
noncomputable def lutCost (θ : V → ℝ) (E : ℕ) (iq oq : BwQ V) : Dual V :=
  scale 1e-4 (Dual.sum ((List.range E).map fun e => mul (pow2 (iq.bits_ θ e)) (oq.bits_ θ e)))

/-- `ops.where(bits_in >= b, 2 ** (bits_in - b), bits_in / b)`, `layers/table/dense.py` L139. -/
noncomputable def smallLutCost (b : ℝ) (x : Dual V) : Dual V :=
  if b ≤ x.val then pow2 (sub x (const b)) else scale (1 / b) x

/-- `QDenseT._compute_ebops`, `layers/table/dense.py` L132-143; `bB = 2 ** (b - B)`. -/
noncomputable def denseTCost (θ : V → ℝ) (E : ℕ) (iq toq : BwQ V) (b bB ratio : ℝ) : Dual V :=
  scale ratio (add
    (scale bB (Dual.sum ((List.range E).map fun e => mul (smallLutCost b (iq.fbits_ θ e)) (toq.fbits_ θ e))))
    (Dual.sum ((List.range E).map (toq.fbits_ θ))))

/-- `QSimpleRNNCell._compute_ebops` times `parallelization_factor`, `layers/rnn/simple_rnn.py` L274-289, L603-606;
`R` is the number of rows of the input the cell sees. -/
noncomputable def rnnCost (θ : V → ℝ) (R C U : ℕ) (iq kq sq rkq : BwQ V) (bq : Option (BwQ V)) (pf : ℝ) : Dual V :=
  scale pf (add (add (Dual.sum (dualMatmul R C U (iq.bits_ θ) (kq.bits_ θ))) (Dual.sum (dualMatmul 1 U U (sq.bits_ θ) (rkq.bits_ θ))))
    (biasCost θ bq U (R * C)))

/-- `QMultiHeadAttention._compute_ebops`, `layers/attn/mha.py` L406-416: the two einsums of the widths, times
`parallelization_factor` when positive (`pf`, else 1). -/
noncomputable def attnCost (θ : V → ℝ) (qk av : List (ℕ × ℕ)) (q k a v : BwQ V) (pf : ℝ) : Dual V :=
  scale pf (add (Dual.sum (qk.map fun p => mul (q.bits_ θ p.1) (k.bits_ θ p.2)))
    (Dual.sum (av.map fun p => mul (a.bits_ θ p.1) (v.bits_ θ p.2))))

/-- `QSoftmax._compute_ebops`, `layers/softmax.py` L134-161, on `E` elements with groups along the axes; `grp e` is the
group of element `e`.  Stable: the subtraction costs the widths of `sub` (`iq`, or the input quantizer of the exp table
when `iq` is disabled).  Not stable: the exp table is counted here.  `ratio` is `factor`. -/
noncomputable def softmaxCost (θ : V → ℝ) (stable : Bool) (t : ℕ × List ℕ → ℕ → ℝ) (E : ℕ) (groups : List (ℕ × List ℕ))
    (grp : ℕ → ℕ) (sub' expq invq : BwQ V) (ratio : ℝ) : Dual V :=
  let accum := sub (Dual.sum (groups.map fun g => Dual.sum ((g.1 :: g.2).map (expq.bits_ θ))))
    (Dual.sum (groups.map fun g => minChain (t g) 0 (expq.bits_ θ g.1) (g.2.map (expq.bits_ θ))))
  let mult := Dual.sum ((List.range E).map fun e => mul (expq.bits_ θ e) (invq.bits_ θ (grp e)))
  let base := add (add (if stable then Dual.sum ((List.range E).map (sub'.bits_ θ)) else const 0) accum) mult
  scale ratio (if stable then base else add base (lutCost θ E sub' expq))

/-- The bias term of a GRU cell: the sum of the widths of the first `n` biases, `layers/rnn/gru.py` L356-363. -/
noncomputable def gruBiasCost (θ : V → ℝ) (bq : Option (BwQ V)) (n : ℕ) : Dual V :=
  match bq with
  | none => const 0
  | some q => Dual.sum ((List.range n).map (q.bits_ θ))

/-- `QGRUCell._compute_ebops` times `parallelization_factor`, `layers/rnn/gru.py` L348-384, L625-628, for one row, `C`
inputs and `U` units.  The kernels have `3U` columns. -/
noncomputable def gruCost (θ : V → ℝ) (resetAfter : Bool) (C U : ℕ) (sq iq kq rkq rhq zrq paq : BwQ V) (bq : Option (BwQ V)) (pf : ℝ) : Dual V :=
  let bias := gruBiasCost θ bq (if resetAfter then 2 * (3 * U) else 3 * U)
  let e0 := Dual.sum (dualMatmul 1 C (3 * U) (iq.bits_ θ) (kq.bits_ θ))
  let e1 := if resetAfter then Dual.sum (dualMatmul 1 U (3 * U) (sq.bits_ θ) (rkq.bits_ θ))
    else Dual.sum (dualMatmul 1 U (2 * U) (sq.bits_ θ) fun j => rkq.bits_ θ (j / (2 * U) * (3 * U) + j % (2 * U)))
  let r := fun j => zrq.bits_ θ (U + j)
  let z := fun j => zrq.bits_ θ j
  let e2 := if resetAfter then Dual.sum ((List.range U).map fun j => mul (r j) (rhq.bits_ θ j))
    else add (Dual.sum (dualMatmul 1 U U (rhq.bits_ θ) fun j => rkq.bits_ θ (j / U * (3 * U) + 2 * U + j % U)))
      (Dual.sum ((List.range U).map fun j => mul (r j) (sq.bits_ θ j)))
  let e3 := Dual.sum ((List.range U).map fun j => mul (z j) (add (paq.bits_ θ j) (sq.bits_ θ j)))
  scale pf (add (add (add (add e0 e1) e2) e3) bias)

/-- The layers whose EBOPs are modelled, with everything `_compute_ebops` reads. -/
inductive CostLayer (V : Type) where
  | dense (P C U : ℕ) (iq kq : BwQ V) (bq : Option (BwQ V)) (ratio : ℝ)
  | conv (macs : List (ℕ × ℕ)) (iq kq : BwQ V) (bq : Option (BwQ V)) (U : ℕ) (size ratio : ℝ)
  | einsumDense (macs : List (ℕ × ℕ)) (iq kq : BwQ V) (bq : Option (BwQ V)) (U : ℕ) (size ratio : ℝ)
  | bn (E U : ℕ) (ch : ℕ → ℕ) (iq kq bq : BwQ V)
  | multiply (E : ℕ) (q : BwQ V) (qs : List (BwQ V))
  | einsum (terms : List (List (BwQ V × ℕ)))
  | merge (factor : ℝ) (t : ℕ → ℕ → ℝ) (E : ℕ) (q : BwQ V) (qs : List (BwQ V))
  | subtract (t : ℕ → ℝ) (E : ℕ) (q0 q1 : BwQ V)
  | accum (t : ℕ × List ℕ → ℕ → ℝ) (groups : List (ℕ × List ℕ)) (q : BwQ V)
  | pool (E : ℕ) (q : BwQ V) (ratio : ℝ)
  | lut (E : ℕ) (iq oq : BwQ V)
  | denseT (E : ℕ) (iq toq : BwQ V) (b bB ratio : ℝ)
  | rnn (R C U : ℕ) (iq kq sq rkq : BwQ V) (bq : Option (BwQ V)) (pf : ℝ)
  | attn (qk av : List (ℕ × ℕ)) (q k a v : BwQ V) (pf : ℝ)
  | softmax (stable : Bool) (t : ℕ × List ℕ → ℕ → ℝ) (E : ℕ) (groups : List (ℕ × List ℕ)) (grp : ℕ → ℕ) (sub' expq invq : BwQ V) (ratio : ℝ)
  | gru (resetAfter : Bool) (C U : ℕ) (sq iq kq rkq rhq zrq paq : BwQ V) (bq : Option (BwQ V)) (pf : ℝ)

/-- `_compute_ebops` of a layer. -/
noncomputable def CostLayer.ebops (θ : V → ℝ) : CostLayer V → Dual V
  | dense P C U iq kq bq r => denseCost θ P C U iq kq bq r
  | conv macs iq kq bq U s r => convCost θ macs iq kq bq U s r
  | einsumDense macs iq kq bq U s r => einsumDenseCost θ macs iq kq bq U s r
  | bn E U ch iq kq bq => bnCost θ E U ch iq kq bq
  | multiply E q qs => multiplyCost θ E q qs
  | einsum terms => einsumCost θ terms
  | merge f t E q qs => mergeCost θ f t E q qs
  | subtract t E q0 q1 => subtractCost θ t E q0 q1
  | accum t g q => sumCost θ t g q
  | pool E q r => poolCost θ E q r
  | lut E iq oq => lutCost θ E iq oq
  | denseT E iq toq b bB r => denseTCost θ E iq toq b bB r
  | rnn R C U iq kq sq rkq bq pf => rnnCost θ R C U iq kq sq rkq bq pf
  | attn qk av q k a v pf => attnCost θ qk av q k a v pf
  | softmax st t E g grp s' ex iv r => softmaxCost θ st t E g grp s' ex iv r
  | gru ra C U sq iq kq rkq rhq zrq paq bq pf => gruCost θ ra C U sq iq kq rkq rhq zrq paq bq pf

/-- A layer with its `ebops_factor` and the current `beta` (`layers/core/base.py` L102, L104). -/
structure LossLayer (V : Type) where
  layer : CostLayer V
  factor : ℝ
  beta : ℝ

/-- What `self.add_loss` adds: `_compute_ebops(*shapes) * ebops_factor * beta`, `layers/core/base.py` L101-104. -/
noncomputable def LossLayer.loss (θ : V → ℝ) (l : LossLayer V) : Dual V := scale l.beta (scale l.factor (l.layer.ebops θ))

/-- What `add_weight` records for a bit-width variable: trainable, constraint (an interval; `none` is no bound) and
the `l1` of its `MonoL1` regularizer (`0`: none). -/
structure BwVar where
  trainable : Bool
  lo : Option ℝ
  hi : Option ℝ
  l1 : ℝ

/-- The `_i` variable: trainable unless the overflow mode is WRAP, fixed_point_quantizer.py L233-240, L381-388. -/
def BwQ.mkI (q : BwQ V) (lo hi : Option ℝ) (l1 : ℝ) : BwVar := ⟨q.mode ≠ .WRAP, lo, hi, l1⟩
/-- The `_b` / `_f` variable: trainable, L225-232, L390-397. -/
def BwQ.mkP (_ : BwQ V) (lo hi : Option ℝ) (l1 : ℝ) : BwVar := ⟨true, lo, hi, l1⟩

/-- The constraint of a bit-width variable: `MinMax`, `Min`, `Max` (`constraints/__init__.py` L12-24, L42-69). -/
noncomputable def BwVar.project (i : BwVar) (x : ℝ) : ℝ :=
  let y := match i.lo with | none => x | some a => max x a
  match i.hi with | none => y | some b => min y b

/-- Derivative of all the losses that concern bit widths: the EBOPs losses of the layers and `MonoL1` (`l1 * sum(x)`,
`regularizers/__init__.py` L14-15; on the raw variable). -/
noncomputable def bwGrad (info : V → BwVar) (net : List (LossLayer V)) (θ : V → ℝ) (v : V) : ℝ :=
  (Dual.sum (net.map (LossLayer.loss θ))).grad v + (info v).l1

/-- One optimizer update (external, Keras): each trainable variable moves against the combination
`Σ_s w s v * g s v` of the gradients `g` seen so far (plain SGD, momentum, RMSprop and Adam without weight decay are
instances, `w ≥ 0` possibly depending on everything), then its constraint is applied; a non-trainable variable
takes the value `data v` the quantizers assigned to it during the forward pass (fixed_point_quantizer.py L288, L413). -/
noncomputable def optStep (info : V → BwVar) (w : ℕ → V → ℝ) (g : List (V → ℝ)) (data θ : V → ℝ) (v : V) : ℝ :=
  if (info v).trainable then (info v).project (θ v - (g.zipIdx.map fun p => w p.2 v * p.1 v).sum) else data v

/-- A training run driven by the bit-width losses alone (no task gradient): state after each step, newest gradient
first in the history.  The layers' `beta` may change from step to step (`net n`), as the schedule callbacks do. -/
noncomputable def bwRun (info : V → BwVar) (net : ℕ → List (LossLayer V)) (w : ℕ → ℕ → V → ℝ) (data : ℕ → V → ℝ) (θ0 : V → ℝ) :
    ℕ → (V → ℝ) × List (V → ℝ)
  | 0 => (θ0, [])
  | n + 1 =>
    let s := bwRun info net w data θ0 n
    let h := bwGrad info (net n) s.1 :: s.2
    (optStep info (w n) h (data n) s.1, h)
end

end HGQ
