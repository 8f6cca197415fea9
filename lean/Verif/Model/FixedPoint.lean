import Mathlib.Data.Int.Log
import Mathlib.Data.Rat.Floor
import Mathlib.Data.Rat.Lemmas

/-!
# Model of the fixed-point quantizers (numeric core)

Models `src/hgq/quantizer/internal/fixed_point_quantizer.py`.  Numbers are exact rationals
(every finite float is one); float rounding inside tensor kernels is not modelled.
The stateless quantizer (`_get_fixed_quantizer` of the external `quantizers` package) is modelled from
its documented behaviour: this is part of the trusted base, see DESIGN.md.
-/

namespace HGQ

/-- Rounding modes (fixed_point_quantizer.py L165-166, L322-323).  The `S_*` modes round stochastically
only when `training is True` (L279, L404); this model covers their non-training behaviour, which is that of
the base mode, so they are folded into `RND` and `RND_CONV`. -/
inductive RoundMode | RND | RND_CONV | TRN
  deriving DecidableEq, Repr

/-- Overflow modes (fixed_point_quantizer.py L167-168, L324-325). -/
inductive OverflowMode | WRAP | SAT | SAT_SYM
  deriving DecidableEq, Repr

/-- `ops.round` (half to even) to an integer: `round_conv` in `quantizer/internal/base.py` L19-28 and the
`quantizers` package function of the same name; also the `RND_CONV` rounding of the mantissa. -/
def roundHalfEven (y : ℚ) : ℤ :=
  let r := ⌊y⌋
  let d := y - r
  if d < 1/2 then r
  else if 1/2 < d then r + 1
  else if r % 2 = 0 then r else r + 1

/-- Rounding of the scaled mantissa `x * 2^f` by `stateless_quantizer` (external `quantizers` package, called
at fixed_point_quantizer.py L147, L288, L295, L305, L405). -/
def roundMant (m : RoundMode) (y : ℚ) : ℤ :=
  match m with
  | .RND => ⌊y + 1/2⌋
  | .TRN => ⌊y⌋
  | .RND_CONV => roundHalfEven y

/-- `stateless_quantizer.round(x, f, False, seed)`: round `x` to a multiple of `2^-f`
(external; called at fixed_point_quantizer.py L288, L295, L305, L405). -/
def roundAt (m : RoundMode) (f : ℤ) (x : ℚ) : ℚ :=
  (roundMant m (x * 2 ^ f) : ℚ) * 2 ^ (-f)

/-- The value of `k` as used in arithmetic: `ops.cast(self._k, dtype)` (L245-246, L432-433). -/
def kq (k : Bool) : ℚ := if k then 1 else 0

/-- Integer version of `k`, used in exponents and in `k + i + f` (L149). -/
def kz (k : Bool) : ℤ := if k then 1 else 0

/-- Upper end of the range: property `max`, fixed_point_quantizer.py L114-116. -/
def qmax (i f : ℤ) : ℚ := 2 ^ i - 2 ^ (-f)

/-- Lower end of the range: property `min`, fixed_point_quantizer.py L107-112
(`symmetric` is `overflow_mode.endswith('SYM')`, L62). -/
def qmin (om : OverflowMode) (k : Bool) (i f : ℤ) : ℚ :=
  match om with
  | .SAT_SYM => - (kq k) * (2 ^ i - 2 ^ (-f))
  | _ => - (kq k) * 2 ^ i

/-- Property `epsilon`, fixed_point_quantizer.py L118-120. -/
def qepsilon (f : ℤ) : ℚ := 2 ^ (-f)

/-- `ops.clip`. -/
def clip (lo hi x : ℚ) : ℚ := min (max x lo) hi

/-- WRAP overflow of the external stateless quantizer outside training:
`((v + k*2^i) mod 2^(k+i)) - k*2^i`. -/
def wrap (k : Bool) (i : ℤ) (v : ℚ) : ℚ :=
  let s := v + kq k * 2 ^ i
  let M : ℚ := 2 ^ (kz k + i)
  (s - M * ⌊s / M⌋) - kq k * 2 ^ i

/-- The stateless quantizer `stateless_quantizer(x, k, i, f, training, seed)` (external; called at
fixed_point_quantizer.py L147).  In training WRAP only rounds. -/
def stateless (rm : RoundMode) (om : OverflowMode) (training : Bool) (k : Bool) (i f : ℤ) (x : ℚ) : ℚ :=
  match om with
  | .WRAP => if training then roundAt rm f x else wrap k i (roundAt rm f x)
  | om => clip (qmin om k i f) (qmax i f) (roundAt rm f x)

/-- `FixedPointQuantizerBase.call`, fixed_point_quantizer.py L142-150, for one element whose bit-width cell
holds `k, i, f`. -/
def baseCall (rm : RoundMode) (om : OverflowMode) (training : Bool) (k : Bool) (i f : ℤ) (x : ℚ) : ℚ :=
  let ret := stateless rm om training k i f x
  if training then ret
  else if kz k + i + f > 0 then ret else 0

/-- Inference of a fixed-point quantizer (`call(x, training=False)` reaching the base class,
fixed_point_quantizer.py L142-150). -/
def quantize (rm : RoundMode) (om : OverflowMode) (k : Bool) (i f : ℤ) (x : ℚ) : ℚ :=
  baseCall rm om false k i f x

/-- KIF property `b`: `relu(i + f)`, fixed_point_quantizer.py L435-437. -/
def kifB (i f : ℤ) : ℤ := max (i + f) 0

/-- Property `bits`, fixed_point_quantizer.py L92-97 (as a function of `b` and `k`). -/
def bitsOf (om : OverflowMode) (k : Bool) (b : ℤ) : ℤ :=
  match om with
  | .SAT => b + kz k
  | _ => b

/-- Property `fbits`, fixed_point_quantizer.py L99-105. -/
def fbitsOf (om : OverflowMode) (k : Bool) (b : ℤ) : ℤ :=
  match om with
  | .WRAP => b + kz k * (if b > 0 then 1 else 0)
  | _ => b + kz k

end HGQ
