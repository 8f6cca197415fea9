import Verif.Model.Config
import Verif.Model.Mapper

/-!
# From a config to a quantizer (`QuantizerConfig.get_quantizer`), shared configs, shared mappers

External (Keras): `Layer.__init__` accepts `name, trainable, dtype, activity_regularizer, autocast, input_dim, input_shape` and raises
`ValueError` on any other keyword.
-/
namespace HGQ

/-- What an object in a config is an instance of. -/
inductive ObjKind | initializer | regularizer | constraint | mapper | other
  deriving DecidableEq, Repr

/-- `isinstance(v, Initializer)` -/
def Val.isInit (kind : ℕ → ObjKind) : Val → Bool
  | .obj n => decide (kind n = .initializer)
  | _ => false

/-- `v is None or isinstance(v, Constraint)` -/
def Val.isConstraintOrNone (kind : ℕ → ObjKind) : Val → Bool
  | .none => true
  | .con _ => true
  | .obj n => decide (kind n = .constraint)
  | _ => false

/-- `v is None or isinstance(v, Regularizer)` -/
def Val.isRegularizerOrNone (kind : ℕ → ObjKind) : Val → Bool
  | .none => true
  | .obj n => decide (kind n = .regularizer)
  | _ => false

/-- `float(v)` as a rational; `float('inf')` is kept as the string of the config model (its value is not used here). -/
def Val.toFloat : Val → Except Err ℚ
  | .num q => .ok q
  | .bool b => .ok (if b then 1 else 0)
  | .str s => if s = "inf" then .ok 0 else .error .valueError
  | _ => .error .typeError

/-- `int(v)`: truncation towards zero. -/
def Val.toInt : Val → Except Err ℤ
  | .num q => .ok (q.num.tdiv q.den)
  | .bool b => .ok (if b then 1 else 0)
  | .str _ => .error .valueError
  | _ => .error .typeError

/-- A number in a comparison or a sum. -/
def Val.asNum : Val → Except Err ℚ
  | .num q => .ok q
  | .bool b => .ok (if b then 1 else 0)
  | _ => .error .typeError

/-- `assert b` -/
def assertE (b : Bool) : Except Err Unit := if b then .ok () else .error .assertion

/-- `x if isinstance(x, Initializer) else Constant(float(x))` -/
def checkFloat (kind : ℕ → ObjKind) (v : Val) : Except Err Unit :=
  if v.isInit kind then .ok () else v.toFloat.map fun _ => ()

/-- `x.upper()` -/
def checkStr : Val → Except Err Unit
  | .str _ => .ok ()
  | _ => .error .typeError

/-- The bit-width mapper of a quantizer: the object of the config, or an own default mapper with these axes. -/
inductive MapperOf | shared (v : Val) | own (het hom : Val)
  deriving DecidableEq

/-- A quantizer made from a config: its type, its mapper and the values of its named arguments. -/
structure QInst where
  ty : Option QT
  mapper : Option MapperOf
  args : Dict

/-- Named parameters of the three constructors, fixed_point_quantizer.py L181-194, L338-351, float_point_quantizer.py L42-53. -/
def namedParams : QT → List String
  | .kbi => ["k0", "b0", "i0", "round_mode", "overflow_mode", "bc", "ic", "br", "ir", "i_decay_speed", "is_weight"]
  | .kif => ["k0", "i0", "f0", "round_mode", "overflow_mode", "ic", "fc", "ir", "fr", "i_decay_speed", "is_weight"]
  | .float => ["m0", "e0", "e00", "mc", "ec", "e0c", "mr", "er", "e0r"]

/-- Keywords popped by `TrainableQuantizerBase.__init__`, base.py L76-82. -/
def basePops : List String := ["homogeneous_axis", "heterogeneous_axis", "bw_mapper", "seed"]

/-- Keywords accepted by `keras.layers.Layer` (external). -/
def kerasLayerKw : List String := ["name", "trainable", "dtype", "activity_regularizer", "autocast", "input_dim", "input_shape"]

/-- `self.config[k]`, `None` if absent. -/
def Dict.getV (d : Dict) (k : String) : Val := (d k).getD .none

/-- `TrainableQuantizerBase.__init__`, base.py L76-85, and `DefaultBitwidthMapper.__init__`, L152-161; the leftover keywords go to
`Layer.__init__`.  `bw_mapper or …`: mappers are truthy. -/
def baseInit (t : QT) (d : Dict) : Except Err MapperOf := do
  let m : MapperOf := if d.getV "bw_mapper" ≠ .none then .shared (d.getV "bw_mapper")
    else .own (d.getV "heterogeneous_axis") (d.getV "homogeneous_axis")
  match m with
  | .own het hom => assertE (decide (het = .none) ^^ decide (hom = .none))
  | .shared _ => pure ()
  if (keysOf t).all fun k => (namedParams t ++ basePops ++ kerasLayerKw).contains k then pure m else .error .valueError

/-- The assertions of fixed_point_quantizer.py L197-200 of the KBI constructor (`sum := false`: `b0 >= 0`) and L354-357 of the KIF constructor (`sum := true`:
`i0 + f0 >= 0`). -/
def checkWidths (kind : ℕ → ObjKind) (k0 a b : Val) (sum : Bool) : Except Err Unit := do
  if !k0.isInit kind && !a.isInit kind && !b.isInit kind then
    let k ← k0.toInt
    assertE (decide (k = 0 ∨ k = 1))
    let x ← a.asNum
    if sum then do
      let y ← b.asNum
      assertE (decide (0 ≤ x + y))
    else assertE (decide (0 ≤ x))
  else pure ()

/-- `QuantizerConfig.get_quantizer`, config.py L536-546, for a config whose dictionary has exactly the keys of its type. -/
def getQuantizer (kind : ℕ → ObjKind) (c : CfgObj) : Except Err QInst :=
  let d := c.conf
  match c.ty with
  | none => .ok ⟨none, some (.own .none (.axes [])), fun _ => none⟩
  | some .float => do
    let m ← baseInit .float d
    checkFloat kind (d.getV "m0"); checkFloat kind (d.getV "e0"); checkFloat kind (d.getV "e00")
    pure ⟨some .float, some m, fun k => if (namedParams .float).contains k then d k else none⟩
  | some .kbi => do
    let m ← baseInit .kbi d
    checkWidths kind (d.getV "k0") (d.getV "b0") (d.getV "i0") false
    checkFloat kind (d.getV "k0"); checkFloat kind (d.getV "b0"); checkFloat kind (d.getV "i0"); checkFloat kind (d.getV "i_decay_speed")
    checkStr (d.getV "round_mode"); checkStr (d.getV "overflow_mode")
    assertE ((d.getV "bc").isConstraintOrNone kind); assertE ((d.getV "ic").isConstraintOrNone kind)
    assertE ((d.getV "br").isRegularizerOrNone kind); assertE ((d.getV "ir").isRegularizerOrNone kind)
    pure ⟨some .kbi, some m, fun k => if (namedParams .kbi).contains k then d k else none⟩
  | some .kif => do
    let m ← baseInit .kif d
    checkWidths kind (d.getV "k0") (d.getV "i0") (d.getV "f0") true
    checkFloat kind (d.getV "k0"); checkFloat kind (d.getV "i0"); checkFloat kind (d.getV "f0"); checkFloat kind (d.getV "i_decay_speed")
    checkStr (d.getV "round_mode"); checkStr (d.getV "overflow_mode")
    assertE ((d.getV "fc").isConstraintOrNone kind); assertE ((d.getV "ic").isConstraintOrNone kind)
    assertE ((d.getV "fr").isRegularizerOrNone kind); assertE ((d.getV "ir").isRegularizerOrNone kind)
    pure ⟨some .kif, some m, fun k => if (namedParams .kif).contains k then d k else none⟩

/-- `Quantizer(...)` without a ready config, quantizer.py L33-47: keywords known to any quantizer config go to the config, the others to
`Layer`. -/
def splitKw (kw : Kw) : Kw × Kw := (kw.filter (fun p => allQuantizerKeys.contains p.1), kw.filter (fun p => !allQuantizerKeys.contains p.1))

/-- `inference_weight_shape` on a mapper object, base.py L163-180: besides the shape (`none`: an assertion failed) it leaves the resolved
axes in the object (L166-171). -/
def Mapper.infer (m : Mapper) (shape : List (Option ℕ)) : Option (List ℕ) × Mapper :=
  match m.resolve shape.length with
  | none => (none, m)
  | some (het, hom) =>
    (fillShape shape het (List.replicate shape.length 1), ⟨some (het.map Int.ofNat), some (hom.map Int.ofNat)⟩)

/-- Building several quantizers that share the mapper object, one after the other. -/
def Mapper.inferAll (m : Mapper) : List (List (Option ℕ)) → List (Option (List ℕ))
  | [] => []
  | s :: ss => (m.infer s).1 :: (m.infer s).2.inferAll ss

end HGQ
