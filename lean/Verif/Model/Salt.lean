import Mathlib.Algebra.BigOperators.Group.Finset.Basic
import Mathlib.Algebra.Module.Rat
import Mathlib.Data.Rat.Floor

/-!
# Key and value projection of `QSALTAttention`, `src/hgq/layers/attn/salt.py`

A sequence of feature rows is a function `ℕ → V` with a length (the batch axis is left out: every operation acts on each sample
alone); only the entries below the length count.
-/
namespace HGQ

/-- Array given to the projection: rank 3 `(b, n, d)` or rank 4 `(b, m, n, d)`. -/
inductive SaltArr (V : Type)
  | r3 (n : ℕ) (x : ℕ → V)
  | r4 (m n : ℕ) (x : ℕ → ℕ → V)

/-- `ceil(n / m) * m - n`, salt.py L105, L110 (the float division taken exactly). -/
def saltPad (n m : ℕ) : ℕ := (⌈(n : ℚ) / m⌉ * m - n).toNat

/-- `(n + n_pad) // m`, L106, L111. -/
def saltLen (n m : ℕ) : ℕ := (n + saltPad n m) / m

variable {V : Type} [AddCommGroup V] [Module ℚ V]

/-- `ops.pad(x, [[0, 0], [0, p], [0, 0]])`, L166, L170. -/
def saltPadRows (n p : ℕ) (x : ℕ → V) : ℕ × (ℕ → V) := (n + p, fun t => if t < n then x t else 0)

/-- `ops.reshape(x, (-1, m, l, d))`, L167, L171: row-major; an exception unless the sizes agree. -/
def saltReshape (m l : ℕ) (x : ℕ × (ℕ → V)) : Option (SaltArr V) :=
  if x.1 = m * l then some (.r4 m l fun j t => x.2 (j * l + t)) else none

/-- `QEinsumDense` with `'bmnd,mn->bmd'` (clustered) or `'bnd,nm->bmd'`, L98-99: the input must have the rank of the equation and the
shape the layer was built for; `w` has the indices in the order of the equation. Quantizers left out. -/
def saltProj (cluster : Bool) (m l : ℕ) (w : ℕ → ℕ → ℚ) : SaltArr V → Option (ℕ → V)
  | .r3 n x => if ¬ cluster ∧ n = l then some fun j => ∑ t ∈ Finset.range n, w t j • x t else none
  | .r4 m' n x => if cluster ∧ m' = m ∧ n = l then some fun j => ∑ t ∈ Finset.range n, w j t • x j t else none

/-- Length of the axis summed over: the cluster length or the whole sequence, L104-113. -/
def saltAxis (cluster : Bool) (n m : ℕ) : ℕ := if cluster then saltLen n m else n

/-- The key path of `call`, L165-167 and L173: padded and reshaped if clustered. -/
def saltKey (cluster : Bool) (n m : ℕ) (w : ℕ → ℕ → ℚ) (x : ℕ → V) : Option (ℕ → V) :=
  (if cluster then saltReshape m (saltLen n m) (saltPadRows n (saltPad n m) x) else some (.r3 n x)).bind
    (saltProj cluster m (saltAxis cluster n m) w)

/-- The value path, L169-171 and L174: padded and reshaped if the padding is not zero. -/
def saltValue (cluster : Bool) (n m : ℕ) (w : ℕ → ℕ → ℚ) (x : ℕ → V) : Option (ℕ → V) :=
  let nvPad := if cluster then saltPad n m else 0
  (if 0 < nvPad then saltReshape m (saltLen n m) (saltPadRows n nvPad x) else some (.r3 n x)).bind
    (saltProj cluster m (saltAxis cluster n m) w)

end HGQ
