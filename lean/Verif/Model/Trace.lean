import Verif.Model.FixedPoint
import Verif.Model.Constraints

/-!
# Stateful behaviour of the WRAP quantizers: training, tracing, inference

Models `FixedPointQuantizerKIF.call`, `FixedPointQuantizerKBI.call`
(`src/hgq/quantizer/internal/fixed_point_quantizer.py` L277-307, L401-429) and
`_reset_minmax` / the tracing loop (`src/hgq/utils/minmax_trace.py` L13-21, L76-81)
for **one bit-width cell**: a batch is the list of the input elements that share the cell
(the fibre of `bw_to_x`; see `Verif/Model/Mapper.lean` for the tensor level).
-/
namespace HGQ

/-- Values of the `training` argument that occur: `None`, `False`, `True`,
`TrainingFlagWrapper('tracing')` (minmax_trace.py L24-32, L78) and the bare string `'tracing'`. -/
inductive Flag | none | false | true | tracing | rawString
  deriving DecidableEq, Repr

/-- Python truth value: `TrainingFlagWrapper.__bool__` is `self.value is True` (minmax_trace.py L31-32);
a non-empty string is truthy. -/
def Flag.truthy : Flag → Bool
  | .true => Bool.true
  | .rawString => Bool.true
  | _ => Bool.false

/-- `training == 'tracing'`: `TrainingFlagWrapper.__eq__` compares the value (minmax_trace.py L28-29). -/
def Flag.eqTracing : Flag → Bool
  | .tracing => Bool.true
  | .rawString => Bool.true
  | _ => Bool.false

/-- `training is True`. -/
def Flag.isTrue : Flag → Bool
  | .true => Bool.true
  | _ => Bool.false

/-- `ops.max(ops.abs(x))` over the elements of one cell (`x_to_bw_absmax`, quantizer/internal/base.py L185-186).
The real reduction fails on an empty cell; the model returns 0 there. -/
def absmax (xs : List ℚ) : ℚ := xs.foldr (fun x a => max |x| a) 0

/-- `ops.any(x < 0)` over the elements of one cell (`x_to_bw_sign`, quantizer/internal/base.py L188-189). -/
def anyNeg (xs : List ℚ) : Bool := xs.any (fun x => x < 0)

/-- `keras.backend.epsilon()`. -/
def kerasEps : ℚ := 1 / 10000000

/-- `ceil(log2 r)` for `r > 0`. -/
def ceilLog2 (r : ℚ) : ℤ := Int.clog 2 r

/-- `minimal_i_given_xf`, fixed_point_quantizer.py L25-31 (`log2` of a non-positive number is never selected by the
`where` for the arguments used, which are magnitudes). -/
def minimalIXf (x : ℚ) (f : ℤ) (symmetric : Bool) : ℤ :=
  if symmetric then ceilLog2 (|x| + 2 ^ (-f))
  else if x ≥ 0 then ceilLog2 (x + 2 ^ (-f)) else ceilLog2 (-x - kerasEps)

/-- `minimal_i_given_xb`, fixed_point_quantizer.py L16-22. -/
def minimalIXb (x : ℚ) (b : ℤ) (symmetric : Bool) : ℤ :=
  if symmetric then ceilLog2 ((x + kerasEps) / (1 - 2 ^ (-b) + kerasEps))
  else if b > 0 then
    (if x ≥ 0 then ceilLog2 ((x + kerasEps) / (1 - 2 ^ (-b) + kerasEps)) else ceilLog2 (-x - kerasEps))
  else 32

/-- Static options of a quantizer (constructor arguments, fixed_point_quantizer.py L181-213, L338-369).
`decay = none` stands for `float('inf')`. -/
structure QOpts where
  rm : RoundMode
  om : OverflowMode
  trainable : Bool
  isWeight : Bool
  ic : Option Constraint
  decay : Option ℚ

/-- Property `symmetric`, fixed_point_quantizer.py L65-66. -/
def QOpts.symmetric (q : QOpts) : Bool := q.om = .SAT_SYM

/-- Variables of a KIF cell: `_k`, `_i`, `_f` (raw, before rounding), fixed_point_quantizer.py L374-398. -/
structure KIFState where
  k : Bool
  iw : ℚ
  fw : ℚ
  deriving DecidableEq, Repr

/-- Properties `i` and `f` of KIF: rounded weights (L439-445). -/
def KIFState.i (s : KIFState) : ℤ := roundHalfEven s.iw
/-- See `KIFState.i`. -/
def KIFState.f (s : KIFState) : ℤ := roundHalfEven s.fw

/-- `max(self._i - decay, new)` with `decay = inf` giving `new` (L283, L410). -/
def decayMax (iw : ℚ) (decay : Option ℚ) (new : ℚ) : ℚ :=
  match decay with
  | none => new
  | some d => max (iw - d) new

/-- `FixedPointQuantizerKIF.call`, fixed_point_quantizer.py L401-429, on the elements `xs` of one cell.
Returns the new state and the outputs.  Note L411-412: in the training branch the constraint is applied to `_new_i`
after `new_i` was computed, so the assigned value is unconstrained. -/
def kifCall (q : QOpts) (s : KIFState) (fl : Flag) (xs : List ℚ) : KIFState × List ℚ :=
  let base := (s, xs.map (baseCall q.rm q.om fl.isTrue s.k s.i s.f))
  if q.om = .WRAP ∧ q.trainable then
    let rinputs := xs.map (roundAt q.rm s.f)
    if fl.truthy || fl.eqTracing then
      let newI₀ : ℚ := minimalIXf (absmax rinputs) s.f q.symmetric
      if fl.truthy then
        let newI := decayMax s.iw q.decay newI₀
        ({ s with iw := newI }, rinputs)
      else
        let newI₁ := applyC q.ic newI₀
        let newI := max (s.i : ℚ) newI₁
        ({ s with k := s.k || anyNeg rinputs, iw := newI }, rinputs)
    else if q.isWeight then (s, rinputs)
    else base
  else base

/-- `_reset_minmax` on a KIF quantizer, minmax_trace.py L13-19 (`hasattr(_i_decay_speed)` iff WRAP, L59-61 of the
quantizer file). -/
def kifReset (q : QOpts) (s : KIFState) : KIFState :=
  if q.om = .WRAP ∧ q.trainable then { s with k := false, iw := -1000000000 } else s

/-- The tracing loop of `trace_minmax` seen by one KIF cell, minmax_trace.py L76-81. -/
def kifTrace (q : QOpts) (s : KIFState) (batches : List (List ℚ)) : KIFState :=
  batches.foldl (fun s xs => (kifCall q s .tracing xs).1) s

/-- `trace_minmax(model, data, reset)` seen by one KIF cell, minmax_trace.py L67-81. -/
def kifTraceMinmax (q : QOpts) (reset : Bool) (s : KIFState) (batches : List (List ℚ)) : KIFState :=
  kifTrace q (if reset then kifReset q s else s) batches

/-- Variables of a KBI cell: `_k`, `_b`, `_i` (fixed_point_quantizer.py L218-241). -/
structure KBIState where
  k : Bool
  bw : ℚ
  iw : ℚ
  deriving DecidableEq, Repr

/-- Property `b` of KBI (L248-250). -/
def KBIState.b (s : KBIState) : ℤ := roundHalfEven s.bw
/-- Property `i` of KBI (L252-254). -/
def KBIState.i (s : KBIState) : ℤ := roundHalfEven s.iw
/-- Property `f` of KBI: `b - i` (L256-258). -/
def KBIState.f (s : KBIState) : ℤ := s.b - s.i

/-- `FixedPointQuantizerKBI.call`, fixed_point_quantizer.py L277-307, on the elements `xs` of one cell.
Simplification: in the tracing branch L294 uses `f = b - new_i` with the raw `new_i`; the model rounds `new_i`, which
is exact whenever the constraint (if any) has integer bounds. -/
def kbiCall (q : QOpts) (s : KBIState) (fl : Flag) (xs : List ℚ) : KBIState × List ℚ :=
  let base := (s, xs.map (baseCall q.rm q.om fl.isTrue s.k s.i s.f))
  if q.om = .WRAP ∧ q.trainable then
    if fl.truthy || fl.eqTracing then
      let newI₀ : ℚ := minimalIXb (absmax xs) s.b q.symmetric
      if fl.truthy then
        let newI := applyC q.ic (decayMax s.iw q.decay newI₀)
        let s' := { s with iw := newI }
        (s', xs.map (roundAt q.rm s'.f))
      else
        let newI := applyC q.ic (max (s.i : ℚ) newI₀)
        let f := s.b - roundHalfEven newI
        let rinputs := xs.map (roundAt q.rm f)
        let newK := s.k || (anyNeg rinputs && decide (s.b > 0))
        ({ s with k := newK, iw := newI }, rinputs)
    else if q.isWeight ∧ q.rm = .RND then (s, xs.map (roundAt q.rm s.f))
    else base
  else base

/-- `_reset_minmax` on a KBI quantizer, minmax_trace.py L13-19. -/
def kbiReset (q : QOpts) (s : KBIState) : KBIState :=
  if q.om = .WRAP ∧ q.trainable then { s with k := false, iw := -1000000000 } else s

/-- The tracing loop of `trace_minmax` seen by one KBI cell, minmax_trace.py L76-81. -/
def kbiTrace (q : QOpts) (s : KBIState) (batches : List (List ℚ)) : KBIState :=
  batches.foldl (fun s xs => (kbiCall q s .tracing xs).1) s

/-- `trace_minmax(model, data, reset)` seen by one KBI cell, minmax_trace.py L67-81. -/
def kbiTraceMinmax (q : QOpts) (reset : Bool) (s : KBIState) (batches : List (List ℚ)) : KBIState :=
  kbiTrace q (if reset then kbiReset q s else s) batches

end HGQ
