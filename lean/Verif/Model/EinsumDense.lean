import Verif.Model.Ebops
import Mathlib.Data.List.Basic

/-!
# `_einsum_free0_size` (layers/core/einsum_dense.py L10-20)

The function works on the raw text of the equation, so the model does too: a text is a `List Char`.
-/

namespace HGQ

/-- Python's `s.split(sep, 1)` followed by unpacking into two names; `none` is the `ValueError` when `sep` does not occur
(used at einsum_dense.py L11-12). -/
def pySplit1 (sep : List Char) : List Char → Option (List Char × List Char)
  | [] => if sep = [] then some ([], []) else none
  | c :: cs =>
    if sep.isPrefixOf (c :: cs) then some ([], (c :: cs).drop sep.length)
    else (pySplit1 sep cs).map fun p => (c :: p.1, p.2)

/-- Python's `s.replace('...', new)` (einsum_dense.py L14): non-overlapping, left to right. -/
def replaceDots (new : List Char) : List Char → List Char
  | '.' :: '.' :: '.' :: cs => new ++ replaceDots new cs
  | c :: cs => c :: replaceDots new cs
  | [] => []

/-- `_einsum_free0_size(equation, input_shape)`, einsum_dense.py L10-20.  `none` is an exception: the unpacking error of L11-12
or the assertion of L18.  `'?' * n` is empty for negative `n`; `ax in _ker` is a substring test on one character. -/
def einsumFree0 (equation : List Char) (shape : List (Option ℕ)) : Option ℕ :=
  (pySplit1 [','] equation).bind fun ik =>
  (pySplit1 ['-', '>'] ik.2).bind fun ko =>
    let elided : ℤ := (shape.length : ℤ) - ik.1.length + 3
    let inp := replaceDots (List.replicate elided.toNat '?') ik.1
    ((inp.drop 1).zip (shape.drop 1)).foldl
      (fun acc p => acc.bind fun n =>
        if p.1 ∉ ko.1 ∧ (p.1 ∈ ko.2 ∨ p.1 = '?') then p.2.map (n * ·) else some n) (some 1)

/-- `QEinsumDense._compute_ebops` (L85-93) of a built layer (L62-65): `n_parallel` is what `_einsum_free0_size` returned at
build time, a negative `parallelization_factor` becomes that number.  `none`: the build raised. -/
def qEinsumDenseEbops {A : Type} [Fintype A] {m : ℕ} (equation : List Char) (shape : List (Option ℕ)) (bi bk : A → ℚ)
    (bb : Option (Fin m → ℚ)) (size : ℕ) (pf : ℚ) : Option ℚ :=
  (einsumFree0 equation shape).map fun n => einsumEbops bi bk bb size pf n

end HGQ
