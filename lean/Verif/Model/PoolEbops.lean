import Mathlib.Algebra.BigOperators.Group.List.Basic
import Mathlib.Data.Rat.Defs
import Mathlib.Algebra.Field.Rat
import Verif.Model.Mapper

/-!
# EBOPs of pooling layers (layers/pooling.py)
-/
namespace HGQ

/-- One spatial axis of a pooling layer: input size, pool size, stride, padding `'same'` or `'valid'`. -/
structure PoolAxis where
  n : ℕ
  p : ℕ
  s : ℕ
  same : Bool

/-- Output size of the axis: Keras' `compute_output_shape`, called in pooling.py L39 (`floor((n - 1) / s) + 1` for `'same'`,
`floor((n - p) / s) + 1` for `'valid'`; 0 if the input is smaller than the window, where Keras raises or returns an empty tensor). -/
def PoolAxis.out (a : PoolAxis) : ℕ :=
  if a.same then (if a.n = 0 then 0 else (a.n - 1) / a.s + 1) else if a.n < a.p then 0 else (a.n - a.p) / a.s + 1

/-- A spatial axis of a possibly unknown size. -/
structure PoolAxis? where
  n : Option ℕ
  p : ℕ
  s : ℕ
  same : Bool

/-- The output size, unknown if the input size is (Keras' `compute_output_shape`). -/
def PoolAxis?.out (a : PoolAxis?) : Option ℕ := a.n.map fun n => PoolAxis.out ⟨n, a.p, a.s, a.same⟩

/-- What `build` leaves: `n_parallel` and the resolved factor, pooling.py L37-47.  `globalPool`: the output has no spatial axes, or axes of
size 1 with `keepdims`, so that `prod(outputs_shape[1:-1])` (channels last) and `prod(outputs_shape[2:])` (channels first) are 1.
`none` is the failing assertion. -/
def poolBuild (globalPool : Bool) (as : List PoolAxis?) (pf : ℤ) : Option (Option ℕ × ℤ) :=
  let outs := if globalPool then [] else as.map PoolAxis?.out
  let npar : Option ℕ := if none ∈ outs then none else some (outs.map (·.getD 0)).prod
  if pf ≤ 0 then npar.map fun m => (some m, (m : ℤ)) else some (npar, pf)

/-- `_compute_ebops`, pooling.py L28-30, in a call on an input of spatial shape `ns` with `C` channels: `b idx c` are the bits of the input
quantizer.  `none`: the division by `None` raises. -/
def poolEbops (built : Option ℕ × ℤ) (ns : List ℕ) (C : ℕ) (b : List ℕ → ℕ → ℚ) : Option ℚ :=
  built.1.map fun m => (((indices ns).map fun idx => ((List.range C).map (b idx)).sum).sum) * built.2 / m

/-- The EBOPs a pooling layer built for known sizes reports. -/
def poolLayerEbops (globalPool : Bool) (as : List PoolAxis) (pf : ℤ) (C : ℕ) (b : List ℕ → ℕ → ℚ) : Option ℚ :=
  (poolBuild globalPool (as.map fun a => ⟨some a.n, a.p, a.s, a.same⟩) pf).bind fun st => poolEbops st (as.map (·.n)) C b

end HGQ
