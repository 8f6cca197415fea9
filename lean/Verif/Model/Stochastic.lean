import Verif.Model.Trace

/-!
# Stochastic rounding (`round_mode='S_RND'`, `'S_RND_CONV'`)

The draws are a parameter: one number of `[0, 1)` for each element.  `K` is the field of the draws (rationals to compute, reals for the uniform distribution).
The rounding itself is in the external `quantizers` package (`stateless_quantizer`): a value between two neighbours goes to the upper one iff the draw is below
its distance from the lower one, in units of `2^-f`.  This is part of the trusted base.
-/
namespace HGQ

/-- Stochastic rounding of a mantissa (external). -/
def mantDraw {K : Type} [Field K] [LinearOrder K] (u : K) (y : ℚ) : ℤ := if u < ((y - ⌊y⌋ : ℚ) : K) then ⌊y⌋ + 1 else ⌊y⌋

/-- `stateless_quantizer.round(x, f, True, seed_gen)` of an `S_*` mode (external; called at fixed_point_quantizer.py L288, L295, L405). -/
def roundDraw {K : Type} [Field K] [LinearOrder K] (f : ℤ) (u : K) (x : ℚ) : ℚ := (mantDraw u (x * 2 ^ f) : ℚ) * 2 ^ (-f)

/-- `stateless_quantizer.round(inputs, f, stochastic, seed_gen)` on the elements of a cell: base mode `rm`, or with the draws. -/
def roundAll {K : Type} [Field K] [LinearOrder K] (stochastic : Bool) (rm : RoundMode) (f : ℤ) (us : List K) (xs : List ℚ) : List ℚ :=
  if stochastic then List.zipWith (roundDraw f) us xs else xs.map (roundAt rm f)

/-- Overflow of a rounded value by the stateless quantizer (external, as in `stateless`). -/
def overflowOf (om : OverflowMode) (training k : Bool) (i f : ℤ) (v : ℚ) : ℚ :=
  match om with
  | .WRAP => if training then v else wrap k i v
  | om => clip (qmin om k i f) (qmax i f) v

/-- `FixedPointQuantizerBase.call`, fixed_point_quantizer.py L142-150, of a quantizer whose mode is stochastic (`st`) or not: the argument `training is True` of the
stateless quantizer (L147) selects the draws. -/
def baseCallS {K : Type} [Field K] [LinearOrder K] (st : Bool) (rm : RoundMode) (om : OverflowMode) (training k : Bool) (i f : ℤ) (us : List K) (xs : List ℚ) : List ℚ :=
  (roundAll (st && training) rm f us xs).map fun v =>
    let ret := overflowOf om training k i f v
    if training then ret else if kz k + i + f > 0 then ret else 0

/-- `FixedPointQuantizerKIF.call`, fixed_point_quantizer.py L401-429, on the elements `xs` of one cell with the draws `us`; `st` is `stateless_quantizer.stochastic`,
`q.rm` the mode without `S_`. -/
def kifCallS {K : Type} [Field K] [LinearOrder K] (st : Bool) (q : QOpts) (s : KIFState) (fl : Flag) (us : List K) (xs : List ℚ) : KIFState × List ℚ :=
  let base := (s, baseCallS st q.rm q.om fl.isTrue s.k s.i s.f us xs)
  if q.om = .WRAP ∧ q.trainable then
    let rinputs := roundAll (st && fl.isTrue) q.rm s.f us xs
    if fl.truthy || fl.eqTracing then
      let newI₀ : ℚ := minimalIXf (absmax rinputs) s.f q.symmetric
      if fl.truthy then
        ({ s with iw := decayMax s.iw q.decay newI₀ }, rinputs)
      else
        ({ s with k := s.k || anyNeg rinputs, iw := max (s.i : ℚ) (applyC q.ic newI₀) }, rinputs)
    else if q.isWeight then (s, rinputs)
    else base
  else base

/-- `FixedPointQuantizerKBI.call`, fixed_point_quantizer.py L277-307, likewise (simplifications of `kbiCall`).  L304 compares `stateless_quantizer.round_mode` with
`'RND'`; the model takes it without the prefix `S_`. -/
def kbiCallS {K : Type} [Field K] [LinearOrder K] (st : Bool) (q : QOpts) (s : KBIState) (fl : Flag) (us : List K) (xs : List ℚ) : KBIState × List ℚ :=
  let base := (s, baseCallS st q.rm q.om fl.isTrue s.k s.i s.f us xs)
  let stochastic := st && fl.isTrue
  if q.om = .WRAP ∧ q.trainable then
    if fl.truthy || fl.eqTracing then
      let newI₀ : ℚ := minimalIXb (absmax xs) s.b q.symmetric
      if fl.truthy then
        let s' := { s with iw := applyC q.ic (decayMax s.iw q.decay newI₀) }
        (s', roundAll stochastic q.rm s'.f us xs)
      else
        let newI := applyC q.ic (max (s.i : ℚ) newI₀)
        let rinputs := roundAll stochastic q.rm (s.b - roundHalfEven newI) us xs
        ({ s with k := s.k || (anyNeg rinputs && decide (s.b > 0)), iw := newI }, rinputs)
    else if q.isWeight ∧ q.rm = .RND then (s, roundAll false q.rm s.f us xs)
    else base
  else base

end HGQ
