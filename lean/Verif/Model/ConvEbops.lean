import Verif.Model.Patches
import Verif.Model.Ebops

/-!
# EBOPs of convolutions from their geometry, in both data formats

`QBaseConv.build` and `_compute_ebops`, `layers/conv.py` L56-71 and L91-102.
-/
namespace HGQ

/-- `convolution_op(bits, bits)` of Keras at output position `p`, filter `o` (zero padding, groups); the input has channels first or last. -/
def convOpAt (cfirst same : Bool) (ws : List Win) (sp : List ℕ) (a b : ℕ) (x kernel : Arr ℚ) (p : List ℕ) (o : ℕ) : ℚ :=
  ((List.range (ws.map (·.k)).prod).map fun q =>
    let κ := unflat (ws.map (·.k)) q
    match srcs same ws sp p κ with
    | some s => ((List.range a).map fun c =>
        x.get (if cfirst then (o / b * a + c) :: s else s ++ [o / b * a + c]) * kernel.get (κ ++ [c, o])).sum
    | none => 0).sum

/-- Sum of `convolution_op` over all output positions and filters, L94. -/
def convOpSum (cfirst same : Bool) (ws : List Win) (sp : List ℕ) (a b G : ℕ) (x kernel : Arr ℚ) : ℚ :=
  ((List.range (outs same ws sp).prod).map fun j => ((List.range (G * b)).map fun o => convOpAt cfirst same ws sp a b x kernel (unflat (outs same ws sp) j) o).sum).sum

/-- `_compute_ebops`: the input shape of one sample with a batch of one is `1 :: x.shape`; `n_parallel` is the number of output positions (L61-66); a factor
`≤ 0` is replaced by it (L68-70); the bias is charged `prod(shape[:-1]) * filters` times its mean width (L97-100). -/
def convEbopsG (cfirst same : Bool) (ws : List Win) (sp : List ℕ) (a b G : ℕ) (x kernel : Arr ℚ) (bias : Option (ℕ → ℚ)) (factor : ℚ) : ℚ :=
  let npar : ℚ := (outs same ws sp).prod
  let factor := if factor ≤ 0 then npar else factor
  let e := convOpSum cfirst same ws sp a b G x kernel * (factor / npar)
  match bias with
  | some β => e + ((List.range (G * b)).map β).sum / (G * b : ℕ) * ((1 :: x.shape).dropLast.prod * (G * b) : ℕ)
  | none => e

end HGQ
