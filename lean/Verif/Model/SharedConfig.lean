import Verif.Model.Config

/-!
# Several layers, one config object

A `QuantizerConfig` is a mutable object; a quantizer copies the values it finds when it is constructed, while `get_config` of a layer
refers to the object (`self.iq.config`, core/base.py L228, L277) and serializes what it holds at saving time.  Some constructors write into
the configs they are given.  Layers that make their quantizers in `build` (attention, several inputs, recurrent layers) run the same steps
at that later time; the history below is the history of these steps.
-/
namespace HGQ

/-- One write into a config: `config[key] = val`, or, if guarded, only if the key is there. -/
structure CfgEdit where
  key : String
  val : Val
  guarded : Bool
  deriving DecidableEq

/-- The write. -/
def CfgEdit.apply (e : CfgEdit) (d : Dict) : Dict :=
  fun k => if k = e.key then (if e.guarded then (d k).map fun _ => e.val else some e.val) else d k

/-- Several writes, in order. -/
def applyEdits (es : List CfgEdit) (d : Dict) : Dict := es.foldl (fun d e => e.apply d) d

/-- `homogeneous_axis = None; heterogeneous_axis = ()`, activation.py L43-44, L50-51, softmax.py L60-63. -/
def axesEdits : List CfgEdit := [⟨"homogeneous_axis", .none, false⟩, ⟨"heterogeneous_axis", .axes [], false⟩]

/-- `config['k0'] = 0` if present and `overflow_mode = 'SAT'`, `round_mode = 'RND_CONV'`, softmax.py L65-75. -/
def smTableEdits : List CfgEdit := [⟨"k0", .num 0, true⟩, ⟨"overflow_mode", .str "SAT", false⟩, ⟨"round_mode", .str "RND_CONV", false⟩]

/-- One step of a constructor: a write into the config object `r`, or making a quantizer from it. -/
inductive CfgAct | edit (r : ℕ) (e : CfgEdit) | quantizer (r : ℕ)

/-- The constructors, with the config objects they are given (`none`: that quantizer is disabled). -/
inductive LayerCtor
  /-- Every layer that only makes quantizers: dense, convolution, batch norm, merge, attention projections, recurrent cells, … -/
  | plain (rs : List ℕ)
  /-- `QUnaryFunctionLUT(iq_conf, oq_conf, allow_heterogeneous_input, allow_heterogeneous_table, override_oq_k0_to_0)`. -/
  | lut (iq oq : Option ℕ) (hetIn hetTable k0 : Bool)
  /-- `QSoftmax(iq_conf, oq_conf, exp_iq_conf, inv_iq_conf, exp_oq_conf, inv_oq_conf, stable, allow_heterogeneous_table)`. -/
  | softmax (iq oq : Option ℕ) (expIq invIq expOq invOq : ℕ) (stable het : Bool)

/-- Writes into one object. -/
def editActs (r : ℕ) (es : List CfgEdit) : List CfgAct := es.map (.edit r)

/-- Writes of a table's output config, activation.py L37-44. -/
def lutOutEdits (hetTable k0 : Bool) : List CfgEdit :=
  (if k0 then [⟨"k0", .bool false, true⟩] else []) ++ (if hetTable then [] else axesEdits)

/-- Writes of a table's input config, activation.py L48-51. -/
def lutInEdits (hetIn : Bool) : List CfgEdit := if hetIn then [] else axesEdits

/-- `QUnaryFunctionLUT.__init__`, activation.py L19-56; the base constructor makes the output quantizer first (core/base.py L155-157,
L261-263). -/
def lutActs (iq oq : Option ℕ) (hetIn hetTable k0 : Bool) : List CfgAct :=
  oq.toList.flatMap (fun r => editActs r (lutOutEdits hetTable k0)) ++ iq.toList.flatMap (fun r => editActs r (lutInEdits hetIn)) ++
  oq.toList.map .quantizer ++ iq.toList.map .quantizer

/-- The steps of a constructor; `QSoftmax.__init__`, softmax.py L37-99. -/
def LayerCtor.acts : LayerCtor → List CfgAct
  | .plain rs => rs.map .quantizer
  | .lut iq oq hetIn hetTable k0 => lutActs iq oq hetIn hetTable k0
  | .softmax iq oq expIq invIq expOq invOq stable het =>
    oq.toList.map .quantizer ++ iq.toList.map .quantizer ++
    (if het then [] else editActs invIq axesEdits ++ editActs expIq axesEdits) ++
    editActs invOq smTableEdits ++ editActs expOq smTableEdits ++
    lutActs (some invIq) (some invOq) true het false ++ lutActs (if stable then some expIq else none) (some expOq) true het false

/-- Memory: the config objects, and the quantizers made so far, each with its config object and the values it copied. -/
structure CfgMem where
  heap : ℕ → Dict
  live : List (ℕ × Dict)

/-- One step. -/
def CfgMem.act (w : CfgMem) : CfgAct → CfgMem
  | .edit r e => { w with heap := fun r' => if r' = r then e.apply (w.heap r) else w.heap r' }
  | .quantizer r => { w with live := w.live ++ [(r, w.heap r)] }

/-- Several steps. -/
def CfgMem.run (w : CfgMem) (as : List CfgAct) : CfgMem := as.foldl CfgMem.act w

/-- Constructing layers one after the other. -/
def CfgMem.construct (w : CfgMem) (hist : List LayerCtor) : CfgMem := hist.foldl (fun w c => w.run c.acts) w

/-- What saving a layer writes for a quantizer made from object `r`. -/
def CfgMem.saved (w : CfgMem) (r : ℕ) : Dict := w.heap r

end HGQ
