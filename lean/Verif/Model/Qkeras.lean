import Verif.Model.Wrapper
import Verif.Model.LayerMeta
import Mathlib.Data.Nat.Digits.Defs

/-!
# QKeras compatibility layer, `src/qkeras`
-/
namespace HGQ

/-! ## `quantized_bits` -/

/-- The parts of a `quantized_bits` that matter for values, quantizers/quantized_bits.py L24-121; `alpha` a number (then `scaler`)
or `none`. -/
structure QBits where
  keepNegative : Bool
  bits : ℤ
  integer : ℤ
  symmetric : Bool
  scaler : Option ℚ
  qnoise : Option ℚ

/-- `overflow_mode`, quantized_bits.py L98. -/
def QBits.om (q : QBits) : OverflowMode := if q.symmetric then .SAT_SYM else .SAT

/-- Result of calling a `quantized_bits` on a float32 numpy array: output and the caller's array afterwards (element-wise). -/
structure QBitsResult where
  output : ℚ
  array : ℚ
deriving DecidableEq

/-- `quantized_bits.__call__`, L178-200, on an element of a float32 numpy array (`np.asarray` returns the caller's array itself);
`none` is an exception.  The stateless quantizer takes `(x, k, i, f, ...)` and is given `(inputs, k, b, i, ...)`;
`inputs /= self.scaler` works in place; `qnoise_factor = None` is different from 1.0 and cannot be multiplied. -/
def QBits.call (q : QBits) (x : ℚ) : Option QBitsResult :=
  let inputs := match q.scaler with | some s => x / s | none => x
  let outputs := stateless .RND_CONV q.om false q.keepNegative q.bits q.integer inputs
  let outputs := match q.scaler with | some s => outputs * s | none => outputs
  match q.qnoise with
  | none => none
  | some r => some ⟨if r ≠ 1 then inputs + r * (outputs - inputs) else outputs, inputs⟩

/-- The quantizer built from it (`get_quantizer`, L142-161, wrapped by `Quantizer`), at inference: `k, i, f = b - i`. -/
def QBits.quantizer (q : QBits) (x : ℚ) : ℚ :=
  quantizerCall q.scaler none q.qnoise .false (baseCall .RND_CONV q.om false q.keepNegative q.integer (q.bits - q.integer)) x

/-- Properties `max` and `min`, L202-215. -/
def QBits.maxProp (q : QBits) : ℚ := 2 ^ q.integer - 2 ^ (-(q.bits - q.integer))
def QBits.minProp (q : QBits) : ℚ :=
  if ¬ q.keepNegative then 0 else if q.symmetric then -q.maxProp else -(2 ^ q.integer)

/-! ## Keyword names of the QKeras layers -/

/-- `kw_map_inv`, qlayers/__init__.py L9-20: canonical name of a QKeras keyword. -/
def kwCanon : String → Option String
  | "kernel_quantizer" | "kq" => some "kq_conf"
  | "bias_quantizer" | "bq" => some "bq_conf"
  | "output_quantizer" | "oq" => some "oq_conf"
  | "input_quantizer" | "iq" => some "iq_conf"
  | "exp_input_quantizer" | "exp_iq" => some "exp_iq_conf"
  | "exp_output_quantizer" | "exp_oq" => some "exp_oq_conf"
  | "inv_input_quantizer" | "inv_iq" => some "inv_iq_conf"
  | "inv_output_quantizer" | "inv_oq" => some "inv_oq_conf"
  | _ => none

/-- A Python dictionary as a list of items with distinct keys. -/
def delKey {V : Type} (k : String) (d : List (String × V)) : List (String × V) := d.filter fun p => p.1 ≠ k

/-- The renaming loop in `__init__`, qlayers/__init__.py L38-46, over `items` (the copy made by `list(kwargs.items())`); `none` is
the assertion.  Conversion of strings to quantizers left out. -/
def renameKwargs {V : Type} : List (String × V) → List (String × V) → Option (List (String × V))
  | [], d => some d
  | (k, v) :: r, d =>
    match kwCanon k with
    | none => renameKwargs r d
    | some k' => if (d.map (·.1)).contains k' then none else renameKwargs r (delKey k d ++ [(k', v)])

/-- Flags a layer constructor sees after `qkeras.qlayers` was imported (L48-52): the wrapper is installed on the HGQ class itself
(`cls.__init__ = __init__`, L61), so also for layers made through `hgq.layers`.  `iqConf`, `oqConf`: whether a config is passed. -/
def qkerasFlags (iqConf oqConf : Bool) (_ : FlagArgs) : FlagArgs := ⟨some iqConf, some oqConf, some false⟩

/-! ## `str` and `from_string` -/

/-- Python values produced by the parser. -/
inductive PyVal | none | bool (b : Bool) | str (s : List Char) | int (n : ℕ) | float (q : ℚ)
deriving DecidableEq

/-- `str_float_int_or_none`, quantizers/utils.py L1-18; `parseFloat` is Python's `float`. -/
def parseVal (parseFloat : List Char → Option ℚ) (s : List Char) : Option PyVal :=
  if s = "None".toList then some .none
  else if s = "True".toList then some (.bool true)
  else if s = "False".toList then some (.bool false)
  else if s.head? = some '"' ∧ s.getLast? = some '"' then some (.str s.tail.dropLast)
  else if s.head? = some '\'' ∧ s.getLast? = some '\'' then some (.str s.tail.dropLast)
  else if s ≠ [] ∧ s.all Char.isDigit then some (.int (Nat.ofDigitChars 10 s 0))
  else match parseFloat s with
    | some q => some (.float q)
    | none => Option.none

/-- `str.strip` (blanks only). -/
def strip (s : List Char) : List Char := ((s.dropWhile (· = ' ')).reverse.dropWhile (· = ' ')).reverse

/-- `str.split(c)` for a single character. -/
def splitChar (c : Char) : List Char → List (List Char)
  | [] => [[]]
  | x :: r => if x = c then [] :: splitChar c r
    else match splitChar c r with
      | [] => [[x]]
      | a :: t => (x :: a) :: t

/-- The loop of `parse_string_to_args`, utils.py L21-42, over the chunks: `ended` is `_pos_arg_ended`. -/
def parseChunks (pf : List Char → Option ℚ) (ended : Bool) : List (List Char) → Option (List PyVal × List (List Char × PyVal))
  | [] => some ([], [])
  | chunk :: r =>
    let chunk := strip chunk
    if chunk = [] then none
    else if '=' ∈ chunk then
      match splitChar '=' chunk with
      | [k, v] =>
        let k := strip k
        let v := strip v
        if k = [] ∨ v = [] then none
        else match parseVal pf v, parseChunks pf true r with
          | some v, some (as, ks) => some (as, (k, v) :: ks)
          | _, _ => none
      | _ => none
    else if ended then none
    else match parseVal pf chunk, parseChunks pf false r with
      | some v, some (as, ks) => some (v :: as, ks)
      | _, _ => none

/-- `parse_string_to_args`. -/
def parseArgs (pf : List Char → Option ℚ) (s : List Char) := parseChunks pf false (splitChar ',' s)

/-- Python's `str` of a bool, of an integer. -/
def showBool (b : Bool) : List Char := if b then "True".toList else "False".toList
def showInt (z : ℤ) : List Char := if z < 0 then '-' :: Nat.toDigits 10 z.natAbs else Nat.toDigits 10 z.natAbs

/-- The arguments inside the parentheses of `quantized_bits.__str__`, quantized_bits.py L163-173: `alpha` is the scaler,
`trainable_po2` without quotes if trainable, 1 otherwise. `showFloat` is Python's `str` of a number. -/
def showQBits (showFloat : ℚ → List Char) (b i : ℤ) (symmetric keepNegative stochastic trainable : Bool) (scaler : Option ℚ) :
    List Char :=
  let alpha := match scaler with
    | some a => showFloat a
    | none => if trainable then "trainable_po2".toList else "1".toList
  showInt b ++ ", ".toList ++ showInt i ++ ", symmetric=".toList ++ showBool symmetric ++ ", keep_negative=".toList ++
    showBool keepNegative ++ ", alpha=".toList ++ alpha ++ ", use_stochastic_rounding=".toList ++ showBool stochastic

end HGQ
