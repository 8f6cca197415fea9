import Verif.Model.FixedPoint
import Mathlib.Algebra.BigOperators.Group.List.Basic
import Mathlib.Algebra.BigOperators.Group.Finset.Basic

/-!
# The same computations in float32

The other files compute with exact rationals.  Here the quantizers and the matrix product of dense layers are evaluated in float32: every
operation is followed by the rounding of IEEE binary32 (24-bit significand, smallest step `2^-149`, ties to even, overflow from `2^128`).
The order and association of the sum, and whether multiply-adds are fused, is up to the backend (XLA, cuBLAS, Eigen), so it is arbitrary.
-/
namespace HGQ

/-- The exponent of the last place of a float32 near `x`. -/
def ulpExp (x : ℚ) : ℤ := max (Int.log 2 |x| - 23) (-149)

/-- Rounding to the nearest float32, ties to even; no upper limit of the exponent. -/
def roundF32 (x : ℚ) : ℚ := (roundHalfEven (x * 2 ^ (- ulpExp x)) : ℚ) * 2 ^ ulpExp x

/-- Result of one float32 operation with exact result `x`; `none` stands for an infinite result. -/
def fl (x : ℚ) : Option ℚ := if |roundF32 x| < 2 ^ (128 : ℤ) then some (roundF32 x) else none

/-- A way to evaluate a sum of products: a product, the sum of two evaluated parts, or a fused multiply-add onto an evaluated part. -/
inductive SumTree
  | prod (x w : ℚ)
  | add (l r : SumTree)
  | fma (x w : ℚ) (acc : SumTree)

/-- The products that are added. -/
def SumTree.terms : SumTree → List (ℚ × ℚ)
  | .prod x w => [(x, w)]
  | .add l r => l.terms ++ r.terms
  | .fma x w acc => (x, w) :: acc.terms

/-- Evaluation in float32 (`ops.matmul`, `ops.einsum`, `ops.conv` and `ops.add`, core/dense.py L63-65, core/einsum_dense.py, conv.py). -/
def SumTree.eval : SumTree → Option ℚ
  | .prod x w => fl (x * w)
  | .add l r => do fl ((← l.eval) + (← r.eval))
  | .fma x w acc => do fl (x * w + (← acc.eval))

/-- Rounding of the scaled input in float32: `floor(y + 0.5)`, `floor(y)`, `round(y)` (external `quantizers` package; the last two are
exact operations on floats). -/
def roundMantF32 (m : RoundMode) (y : ℚ) : Option ℤ :=
  match m with
  | .RND => (fl (y + 1/2)).map Int.floor
  | .TRN => some ⌊y⌋
  | .RND_CONV => some (roundHalfEven y)

/-- `round(x, f)` in float32: `round(x * 2^f) / 2^f`. -/
def roundAtF32 (m : RoundMode) (f : ℤ) (x : ℚ) : Option ℚ := do
  let y ← fl (x * 2 ^ f)
  let n ← roundMantF32 m y
  fl ((← fl (n : ℚ)) * 2 ^ (-f))

/-- Overflow handling in float32.  `mod` by a power of two is an exact operation on floats. -/
def overflowF32 (om : OverflowMode) (k : Bool) (i f : ℤ) (v : ℚ) : Option ℚ :=
  match om with
  | .WRAP => do
    let s ← fl (v + kq k * 2 ^ i)
    let M : ℚ := 2 ^ (kz k + i)
    fl ((s - M * ⌊s / M⌋) - kq k * 2 ^ i)
  | .SAT => do
    let hi ← fl (2 ^ i - 2 ^ (-f))
    let lo ← fl (- (kq k) * 2 ^ i)
    some (clip lo hi v)
  | .SAT_SYM => do
    let hi ← fl (2 ^ i - 2 ^ (-f))
    let lo ← fl (- (kq k) * hi)
    some (clip lo hi v)

/-- Inference of a fixed-point quantizer in float32, fixed_point_quantizer.py L142-150 (cf. `quantize`); `where` drops whatever was computed
for a cell without bits. -/
def quantizeF32 (rm : RoundMode) (om : OverflowMode) (k : Bool) (i f : ℤ) (x : ℚ) : Option ℚ :=
  if kz k + i + f > 0 then do overflowF32 om k i f (← roundAtF32 rm f x) else some 0

/-- Settings of one quantizer cell.  `roundOnly`: a trainable WRAP quantizer of weights, which rounds without wrapping
(fixed_point_quantizer.py L302-305, L426-427). -/
structure QSpec where
  rm : RoundMode
  om : OverflowMode
  k : Bool
  i : ℤ
  f : ℤ
  roundOnly : Bool

/-- Exact quantization by a cell. -/
def QSpec.exact (q : QSpec) (x : ℚ) : ℚ := if q.roundOnly then roundAt q.rm q.f x else quantize q.rm q.om q.k q.i q.f x
/-- Quantization by a cell in float32. -/
def QSpec.f32 (q : QSpec) (x : ℚ) : Option ℚ :=
  if q.roundOnly then roundAtF32 q.rm q.f x else quantizeF32 q.rm q.om q.k q.i q.f x

/-- A quantized dense layer with linear or ReLU activation, core/dense.py L60-68: one input quantizer cell per feature, one weight cell per
entry of the kernel, one bias cell per unit.  `kernel o j` is the entry of input `j` and unit `o`. -/
structure DenseF where
  nIn : ℕ
  nOut : ℕ
  iq : ℕ → QSpec
  kq : ℕ → ℕ → QSpec
  bq : ℕ → QSpec
  kernel : ℕ → ℕ → ℚ
  bias : ℕ → ℚ
  relu : Bool

/-- The activation (exact on floats). -/
def DenseF.act (L : DenseF) (v : ℚ) : ℚ := if L.relu then max v 0 else v

/-- `QDense.call` (inference) in exact arithmetic, core/dense.py L60-68. -/
def DenseF.exact (L : DenseF) (x : ℕ → ℚ) (o : ℕ) : ℚ :=
  L.act ((∑ j ∈ Finset.range L.nIn, (L.iq j).exact (x j) * (L.kq o j).exact (L.kernel o j)) + (L.bq o).exact (L.bias o))

/-- How a backend evaluates the sum of products of each unit. -/
abbrev SumOrder := ℕ → List (ℚ × ℚ) → SumTree

/-- `QDense.call` (inference) in float32, core/dense.py L60-68, for one sample; `none` once something is infinite. -/
def DenseF.f32 (L : DenseF) (S : SumOrder) (x : ℕ → Option ℚ) (o : ℕ) : Option ℚ := do
  let ps ← (List.range L.nIn).mapM fun j => do
    let xq ← (L.iq j).f32 (← x j)
    let wq ← (L.kq o j).f32 (L.kernel o j)
    pure (xq, wq)
  let acc ← (S o ps).eval
  let b ← (L.bq o).f32 (L.bias o)
  let r ← fl (acc + b)
  pure (L.act r)

/-- A model made of dense layers, in exact arithmetic. -/
def runExact : List DenseF → (ℕ → ℚ) → (ℕ → ℚ)
  | [], x => x
  | L :: Ls, x => runExact Ls (L.exact x)

/-- The model in float32; each layer with its own order of summation. -/
def runF32 : List (DenseF × SumOrder) → (ℕ → Option ℚ) → (ℕ → Option ℚ)
  | [], x => x
  | (L, S) :: Ls, x => runF32 Ls (L.f32 S x)

end HGQ
