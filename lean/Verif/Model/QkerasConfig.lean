import Verif.Model.Qkeras

/-!
# `quantized_bits` and `quantized_relu` as configuration objects

`src/qkeras/quantizers/quantized_bits.py`, `src/qkeras/quantizers/__init__.py`.  Python calls are bound by position and by name.  The base class
`QuantizerConfig.__init__` is used with type `kbi` and place `datalane`; the bit-width mapper is passed explicitly, so the axes in the default table have no effect.
-/
namespace HGQ

/-- Python values that occur as arguments; `obj` is a constraint or regularizer. -/
inductive PyV | none | bool (b : Bool) | int (z : ℤ) | float (q : ℚ) | str (s : String) | axes (l : List ℤ) | obj (n : ℕ)
deriving DecidableEq

/-- `isinstance(v, numbers)` with its value; a bool is an int. -/
def PyV.num? : PyV → Option ℚ
  | .bool b => some (if b then 1 else 0)
  | .int z => some z
  | .float q => some q
  | _ => Option.none

/-- `isinstance(v, int)`. -/
def PyV.isInt : PyV → Bool
  | .bool _ | .int _ => true
  | _ => false

/-- `isinstance(v, str)`. -/
def PyV.isStr : PyV → Bool
  | .str _ => true
  | _ => false

/-- `bool(v)`. -/
def PyV.truthy : PyV → Bool
  | .none => false
  | .bool b => b
  | .int z => decide (z ≠ 0)
  | .float q => decide (q ≠ 0)
  | .str s => decide (s ≠ "")
  | .axes l => decide (l ≠ [])
  | .obj _ => true

/-- Python's binding of a call to a parameter list without `*args` and `**kwargs`: `none` is a `TypeError` (too many positional arguments, unknown keyword,
parameter given twice, keyword repeated). -/
def bindCall {V : Type} (params : List String) (args : List V) (kw : List (String × V)) : Option (List (String × V)) :=
  if args.length ≤ params.length ∧ (kw.map (·.1)).Nodup ∧ ∀ k ∈ kw.map (·.1), k ∈ params.drop args.length then some (params.zip args ++ kw) else none

/-- Value of a parameter after `apply_defaults`. -/
def argOf {V : Type} (bnd : List (String × V)) (k : String) (default : V) : V := (bnd.lookup k).getD default

/-- Parameters of `quantized_bits.__init__`, L24-41. -/
def qbitsParams : List String := ["bits", "integer", "symmetric", "keep_negative", "alpha", "use_stochastic_rounding", "scale_axis", "qnoise_factor", "var_name",
  "use_ste", "use_variables", "bc", "br", "ic", "ir"]

/-- Defaults for the constraints: `Min(0)` and `MinMax(-12, 12)`, L37-40. -/
def bcDefault : PyV := .obj 0
def icDefault : PyV := .obj 1

/-- A `quantized_bits` object. -/
structure QBObj where
  trainable : Bool
  useVariables : PyV
  k0 : PyV
  b0 : PyV
  i0 : PyV
  symmetric : Bool
  stochastic : Bool
  bc : PyV
  br : PyV
  ic : PyV
  ir : PyV
  axes : List ℤ
  scaler : Option ℚ
  qnoise : Option ℚ
deriving DecidableEq

/-- `use_variables`, L83-87: None means whether `alpha` is trainable. -/
def uvOf (v : PyV) (trainable : Bool) : PyV := if v = .none then .bool trainable else v

/-- `heterogeneous_axis`, L94-96: `tuple(scale_axis)` if given and trainable. -/
def axesOf (v : PyV) (trainable : Bool) : Option (List ℤ) :=
  match v with
  | .none => some []
  | .axes l => some (if trainable then l else [])
  | _ => if trainable then none else some []

/-- `qnoise_factor` in the base class, config.py L481-483. -/
def qnoiseOf (v : PyV) : Option (Option ℚ) :=
  if v = .none then some none else
  match v.num? with
  | some r => if 0 ≤ r ∧ r ≤ 1 then some (some r) else none
  | none => none

/-- Body of `quantized_bits.__init__`, L77-121, with bound arguments; `none` is an exception.  `scale_axis` is a sequence of integers or None;
`qnoise_factor` a number between 0 and 1 or None (base class, config.py L481-483). -/
def qbitsInit (a : List (String × PyV)) : Option QBObj :=
  let bits := argOf a "bits" (.int 8)
  let alpha := argOf a "alpha" .none
  let trainable := decide (alpha = .str "trainable_po2")
  let useVariables := uvOf (argOf a "use_variables" .none) trainable
  if bits.num?.any (fun b => decide (0 < b)) ∧ (alpha.num?.all fun x => decide (0 < x)) ∧ (alpha.isStr → trainable) ∧
      (trainable → useVariables.truthy) ∧ argOf a "var_name" .none = .none ∧ (argOf a "use_ste" (.bool true)).truthy then
    (axesOf (argOf a "scale_axis" .none) trainable).bind fun axes => (qnoiseOf (argOf a "qnoise_factor" .none)).map fun qn =>
      { trainable := trainable, useVariables := useVariables, k0 := argOf a "keep_negative" (.bool true), b0 := bits, i0 := argOf a "integer" (.int 0),
        symmetric := (argOf a "symmetric" (.int 0)).truthy, stochastic := (argOf a "use_stochastic_rounding" (.bool false)).truthy,
        bc := argOf a "bc" bcDefault, br := argOf a "br" .none, ic := argOf a "ic" icDefault, ir := argOf a "ir" .none,
        axes := axes, scaler := alpha.num?, qnoise := qn }
  else none
/-- `quantized_bits(*args, **kwargs)`. -/
def qbitsNew (args : List PyV) (kw : List (String × PyV)) : Option QBObj := (bindCall qbitsParams args kw).bind qbitsInit

/-- `quantized_relu(*args, **kwargs)`, L271-272: `__new__` returns `quantized_bits(*args, **kwargs, keep_negative=False)`, which is no `quantized_relu`, so
`__init__` is not called. -/
def qreluNew (args : List PyV) (kw : List (String × PyV)) : Option QBObj := qbitsNew args (kw ++ [("keep_negative", .bool false)])

/-- `get_config`, L217-235; the properties `bits` and `integers` assert an int (L123-133). -/
def QBObj.getConfig (q : QBObj) : Option (List (String × PyV)) :=
  if q.b0.isInt ∧ q.i0.isInt then
    some [("bits", q.b0), ("integer", q.i0), ("symmetric", .bool q.symmetric), ("keep_negative", .bool q.k0.truthy),
      ("alpha", if q.trainable then .str "trainable_po2" else match q.scaler with | some s => .float s | none => .none),
      ("use_stochastic_rounding", .bool q.stochastic), ("scale_axis", .axes q.axes), ("qnoise_factor", match q.qnoise with | some s => .float s | none => .none),
      ("var_name", .none), ("use_ste", .bool true), ("use_variables", .bool q.trainable), ("bc", q.bc), ("br", q.br), ("ic", q.ic), ("ir", q.ir)]
  else none

/-- `from_config`, config.py L532-534: `cls(**config)`. -/
def qbitsFromConfig (c : List (String × PyV)) : Option QBObj := qbitsNew [] c

/-- Kinds of quantizer returned by `get_quantizer`, L142-161: constants; variables; variables with a trainable integer width. -/
inductive QKind | frozen | variables | trainable
deriving DecidableEq

/-- `get_quantizer`, L142-161. -/
def QBObj.kind (q : QBObj) : QKind := if ¬ q.useVariables.truthy then .frozen else if ¬ q.trainable then .variables else .trainable

/-- A value of the text parser as an argument. -/
def PyVal.toV : PyVal → PyV
  | .none => .none
  | .bool b => .bool b
  | .str s => .str (String.ofList s)
  | .int n => .int n
  | .float q => .float q

/-- `quantized_bits.from_string`, L237-248: prefix `quantized_bits(` whatever the class. -/
def qbitsFromString (pf : List Char → Option ℚ) (s : List Char) : Option QBObj :=
  if "quantized_bits(".toList <+: s ∧ [')'] <:+ s then
    (parseArgs pf (((s.dropWhile (· ≠ '(')).drop 1).dropLast)).bind fun r =>
      qbitsNew (r.1.map PyVal.toV) (r.2.map fun p => (String.ofList p.1, p.2.toV))
  else none

/-- `get_quantizer` of the package, quantizers/__init__.py L6-10: both classes inherit the same `from_string`; other names raise. -/
def getQuantizerStr (pf : List Char → Option ℚ) (s : List Char) : Option QBObj :=
  let name := s.takeWhile (· ≠ '(')
  if name = "quantized_bits".toList ∨ name = "quantized_relu".toList then qbitsFromString pf s else none

/-- The integer of an int. -/
def PyV.asInt : PyV → ℤ
  | .int z => z
  | .bool b => if b then 1 else 0
  | _ => 0

/-- `__str__`, L163-173, for objects whose widths are ints and whose `keep_negative` is a bool. -/
def QBObj.str (showFloat : ℚ → List Char) (q : QBObj) : List Char :=
  "quantized_bits(".toList ++ showQBits showFloat q.b0.asInt q.i0.asInt q.symmetric q.k0.truthy q.stochastic q.trainable q.scaler ++ [')']

end HGQ
