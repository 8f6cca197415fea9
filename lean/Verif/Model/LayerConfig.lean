import Mathlib.Data.List.Basic
import Mathlib.Data.Int.Basic

/-!
# Layer construction, `get_config` and `from_config`

One table per layer class.  A constructed layer is represented by the value each configurable argument ended up with (the attribute the
layer really uses); `get_config` writes some of them, `from_config` calls the constructor with what was written.

External (Keras), assumed: `Layer.get_config` writes name, trainable, dtype and a set activity regularizer; the Keras part of every layer
writes its own arguments; serialization of a written value and its deserialization give the same value (for quantizer configs that is
C20).  `seed` is not modelled.  Values of arguments are compared up to the normalisation the constructor makes idempotently
(`activations.get`, `float`, `tuple`, `str.lower`).
-/
namespace HGQ
namespace Layers

/-- Argument values: `None`, booleans, integers, strings, and any other object (quantizer configs, initializers, …), which is truthy. -/
inductive ArgVal | none | bool (b : Bool) | int (n : ℤ) | str (s : String) | obj (n : ℕ)
  deriving DecidableEq, Repr

/-- Python truth value (`x or default` is only used on objects). -/
def ArgVal.truthy : ArgVal → Bool
  | .none => false
  | .bool b => b
  | .int n => decide (n ≠ 0)
  | .str s => decide (s ≠ "")
  | .obj _ => true

/-- What a constructor reads besides its arguments: `global_config` (config/layer.py L14-20), the active `QuantizerConfigScope`
(default configs of the places, identified by numbers), and the automatic layer name. -/
structure Scope where
  enableEbops : Bool
  enableIq : Bool
  enableOq : Bool
  enableSq : Bool
  beta0 : ℕ
  datalane : ℕ
  weight : ℕ
  bias : ℕ
  table : ℕ
  hardTanh : ℕ
  hardSigmoid : ℕ
  autoName : ℕ

/-- The entries of the scope. -/
inductive Src | ebops | iq | oq | sq | beta0 | datalane | weight | bias | table | hardTanh | hardSigmoid | autoName
  deriving DecidableEq, Repr

/-- Reading an entry; never `None`. -/
def Src.val (s : Scope) : Src → ArgVal
  | .ebops => .bool s.enableEbops
  | .iq => .bool s.enableIq
  | .oq => .bool s.enableOq
  | .sq => .bool s.enableSq
  | .beta0 => .obj s.beta0
  | .datalane => .obj s.datalane
  | .weight => .obj s.weight
  | .bias => .obj s.bias
  | .table => .obj s.table
  | .hardTanh => .obj s.hardTanh
  | .hardSigmoid => .obj s.hardSigmoid
  | .autoName => .obj s.autoName

/-- Conditions under which an argument is used. -/
inductive Cond | truthy | isSet | isDense
  deriving DecidableEq, Repr

/-- `if x`, `if x is not None`, `if x == 'dense'`. -/
def Cond.holds : Cond → ArgVal → Bool
  | .truthy, v => v.truthy
  | .isSet, v => decide (v ≠ .none)
  | .isDense, v => decide (v = .str "dense")

/-- How a constructor turns an argument into the attribute. -/
inductive Rule
  /-- `self.x = x`, with a default. -/
  | plain (default : ArgVal)
  /-- no default: omitting it is a `TypeError`. -/
  | required
  /-- `x or …`, `x if x is not None else …` with a value from the scope. -/
  | scope (g : Src)
  /-- `None` means the value of another argument. -/
  | other (key : String)
  /-- only used if another attribute satisfies a condition; otherwise the attribute does not exist (`None`). -/
  | guarded (key : String) (p : Cond) (g : Src)
  /-- `enable_ebops` of `QLayerBase`, core/base.py L148-150. -/
  | ebops
  deriving DecidableEq, Repr

/-- The attribute, given the scope, the attributes set so far, and the argument (`none`: not given). -/
def Rule.eval (r : Rule) (sc : Scope) (env : String → ArgVal) (arg : Option ArgVal) : ArgVal :=
  let a := arg.getD .none
  match r with
  | .plain d => arg.getD d
  | .required => a
  | .scope g => if a = .none then g.val sc else a
  | .other k => if a = .none then env k else a
  | .guarded k p g => if p.holds (env k) then (if a = .none then g.val sc else a) else .none
  | .ebops => if a = .none then .bool (sc.enableEbops && (env "enable_iq").truthy) else a

/-- A layer class: its arguments in the order they are processed, the arguments written by `get_config`, and the keys `from_config`
drops. -/
structure LayerClass where
  name : String
  params : List (String × Rule)
  emits : List String
  drops : List String := []

/-- Keyword arguments and attributes; the first entry of a name counts. -/
abbrev Kwargs := List (String × ArgVal)

/-- `o.k` -/
def Kwargs.get (o : Kwargs) (k : String) : ArgVal := (o.lookup k).getD .none

/-- `self.__init__(**kw)`: attributes in the order of the table. -/
def evalParams (sc : Scope) (kw : Kwargs) : List (String × Rule) → Kwargs → Kwargs
  | [], acc => acc
  | (k, r) :: ps, acc => evalParams sc kw ps (acc ++ [(k, r.eval sc (acc.get) (kw.lookup k))])

/-- `cls(**kw)`: `none` is the `TypeError` of an unknown or a missing argument. -/
def construct (c : LayerClass) (sc : Scope) (kw : Kwargs) : Option Kwargs :=
  if (kw.all fun a => (c.params.map Prod.fst).contains a.1) &&
      (c.params.all fun p => match p.2 with | .required => (kw.lookup p.1).isSome | _ => true)
  then some (evalParams sc kw c.params []) else none

/-- `layer.get_config()`. -/
def getConfig (c : LayerClass) (o : Kwargs) : Kwargs := c.emits.map fun k => (k, o.get k)

/-- `cls.from_config(config)`, core/base.py L237-239, simple_rnn.py L381-383, snn/base.py L586-605. -/
def fromConfig (c : LayerClass) (sc : Scope) (config : Kwargs) : Option Kwargs :=
  construct c sc (config.filter fun a => !c.drops.contains a.1)

/-! ## Tables -/

/-- `keras.layers.Layer`. -/
def pLayer : List (String × Rule) :=
  [("name", .scope .autoName), ("trainable", .plain (.bool true)), ("dtype", .plain .none), ("activity_regularizer", .plain .none)]

def eLayer : List String := ["name", "trainable", "dtype", "activity_regularizer"]

/-- `QLayerBase`, core/base.py L132-158; `oq_conf` is used only if `enable_oq`. -/
def pBase : List (String × Rule) := pLayer ++
  [("enable_iq", .scope .iq), ("enable_oq", .scope .oq), ("enable_ebops", .ebops),
   ("beta0", .scope .beta0), ("ebops_factor", .plain (.str "1.0")), ("oq_conf", .guarded "enable_oq" .truthy .datalane)]

/-- core/base.py L219-231. -/
def eBase : List String := eLayer ++ ["enable_ebops", "ebops_factor", "beta0", "enable_oq", "enable_iq", "oq_conf"]

/-- `QLayerBaseSingleInput`, core/base.py L254-262. -/
def pSingle : List (String × Rule) := pBase ++ [("iq_conf", .guarded "enable_iq" .truthy .datalane)]

/-- core/base.py L275-278. -/
def eSingle : List String := eBase ++ ["iq_conf"]

/-- `QLayerBaseMultiInputs`, core/base.py L310-317. -/
def pMulti : List (String × Rule) := pBase ++ [("iq_confs", .guarded "enable_iq" .truthy .datalane)]

/-- core/base.py L349-352. -/
def eMulti : List String := eBase ++ ["iq_confs"]

/-- Initializers, regularizers and constraints of kernel and bias (Keras). -/
def pKernelBias : List (String × Rule) :=
  [("kernel_initializer", .plain (.str "glorot_uniform")), ("bias_initializer", .plain (.str "zeros")), ("kernel_regularizer", .plain .none),
   ("bias_regularizer", .plain .none), ("kernel_constraint", .plain .none), ("bias_constraint", .plain .none)]

def eKernelBias : List String :=
  ["kernel_initializer", "bias_initializer", "kernel_regularizer", "bias_regularizer", "kernel_constraint", "bias_constraint"]

/-- The names of a table of arguments. -/
def names (ps : List (String × Rule)) : List String := ps.map Prod.fst

/-- `keras.layers.Dense` arguments. -/
def pKDense : List (String × Rule) :=
  [("units", .required), ("activation", .plain .none), ("use_bias", .plain (.bool true))] ++ pKernelBias

def eKDense : List String := ["units", "activation", "use_bias"] ++ eKernelBias

/-- `kq_conf`, `bq_conf` (with a bias flag) and the parallelization factor. -/
def pKq (biasFlag : String) (p : Cond) : List (String × Rule) :=
  [("kq_conf", .scope .weight), ("bq_conf", .guarded biasFlag p .bias), ("parallelization_factor", .plain (.int (-1)))]

/-- core/dense.py L82-91, core/einsum_dense.py L95-104, conv.py L104-113. -/
def eKq : List String := ["kq_conf", "bq_conf", "parallelization_factor"]

/-- `QDense`, core/dense.py L13-38, L82-91. -/
def qDense : LayerClass := ⟨"QDense", pSingle ++ pKDense ++ pKq "use_bias" .truthy, eSingle ++ eKDense ++ eKq, []⟩

/-- Arguments of `QBatchNormDense`, core/dense.py L106-158. -/
def pBnDense : List (String × Rule) :=
  [("scale", .plain (.bool true)), ("momentum", .plain (.str "0.99")), ("epsilon", .plain (.str "0.001")),
   ("bn_gamma_initializer", .plain (.str "ones")), ("moving_mean_initializer", .plain (.str "zeros")),
   ("moving_variance_initializer", .plain (.str "ones")), ("bn_gamma_regularizer", .plain .none), ("bn_gamma_constraint", .plain .none),
   ("synchronized", .plain (.bool false))]

/-- core/dense.py L231-248. -/
def eBnDense : List String :=
  ["scale", "momentum", "epsilon", "bn_gamma_initializer", "moving_mean_initializer", "moving_variance_initializer",
   "bn_gamma_regularizer", "bn_gamma_constraint", "synchronized"]

/-- `QBatchNormDense`. -/
def qBnDense : LayerClass :=
  ⟨"QBatchNormDense", pSingle ++ pKDense ++ pKq "use_bias" .truthy ++ pBnDense, eSingle ++ eKDense ++ eKq ++ eBnDense, []⟩

/-- `keras.layers.EinsumDense`. -/
def pKEinsum : List (String × Rule) :=
  [("equation", .required), ("output_shape", .required), ("activation", .plain .none), ("bias_axes", .plain .none)] ++ pKernelBias

def eKEinsum : List String := ["equation", "output_shape", "activation", "bias_axes"] ++ eKernelBias

/-- `QEinsumDense`, core/einsum_dense.py L24-50, L95-104 (`bq` exists iff `bias_axes is not None`). -/
def qEinsumDense : LayerClass := ⟨"QEinsumDense", pSingle ++ pKEinsum ++ pKq "bias_axes" .isSet, eSingle ++ eKEinsum ++ eKq, []⟩

/-- `QEinsumDenseBatchnorm`, einsum_dense_batchnorm.py L12-76: no `get_config`, so that of `QEinsumDense` is used.  `normalize_axes` may
be omitted if `bias_axes` is given (L76; the assertion L77 that one of them is given is not modelled). -/
def qEinsumBn : LayerClass :=
  ⟨"QEinsumDenseBatchnorm", pSingle ++ pKEinsum ++ pKq "bias_axes" .isSet ++
    [("normalize_axes", .other "bias_axes"), ("momentum", .plain (.str "0.99")), ("epsilon", .plain (.str "0.001")),
     ("center", .plain (.bool true)), ("scale", .plain (.bool true)), ("beta_initializer", .plain (.str "zeros")),
     ("gamma_initializer", .plain (.str "ones")), ("moving_mean_initializer", .plain (.str "zeros")),
     ("moving_variance_initializer", .plain (.str "ones")), ("beta_regularizer", .plain .none), ("gamma_regularizer", .plain .none),
     ("beta_constraint", .plain .none), ("gamma_constraint", .plain .none), ("synchronized", .plain (.bool false))],
    eSingle ++ eKEinsum ++ eKq, []⟩

/-- `BaseConv` of Keras and `QConv1D/2D/3D`, conv.py L13-45, L104-113, L128-152, L176-200, L204-228. -/
def qConv (name : String) : LayerClass :=
  let k : List (String × Rule) := [("filters", .required), ("kernel_size", .required), ("strides", .plain (.int 1)),
    ("padding", .plain (.str "valid")), ("data_format", .plain .none), ("dilation_rate", .plain (.int 1)), ("groups", .plain (.int 1)),
    ("activation", .plain .none), ("use_bias", .plain (.bool true))]
  ⟨name, pSingle ++ k ++ pKernelBias ++ pKq "use_bias" .truthy,
   eSingle ++ ["filters", "kernel_size", "strides", "padding", "data_format", "dilation_rate", "groups", "activation", "use_bias"] ++
     eKernelBias ++ eKq, []⟩

/-- `keras.layers.BatchNormalization`. -/
def pKBn : List (String × Rule) :=
  [("axis", .plain (.int (-1))), ("momentum", .plain (.str "0.99")), ("epsilon", .plain (.str "0.001")), ("center", .plain (.bool true)),
   ("scale", .plain (.bool true)), ("beta_initializer", .plain (.str "zeros")), ("gamma_initializer", .plain (.str "ones")),
   ("moving_mean_initializer", .plain (.str "zeros")), ("moving_variance_initializer", .plain (.str "ones")),
   ("beta_regularizer", .plain .none), ("gamma_regularizer", .plain .none), ("beta_constraint", .plain .none),
   ("gamma_constraint", .plain .none), ("synchronized", .plain (.bool false))]

/-- `QBatchNormalization`, batch_normalization.py L36-63, L190-198. -/
def qBatchNorm : LayerClass :=
  ⟨"QBatchNormalization", pSingle ++ pKBn ++ [("kq_conf", .scope .weight), ("bq_conf", .scope .bias)],
   eSingle ++ ["axis", "momentum", "epsilon", "center", "scale", "beta_initializer", "gamma_initializer", "moving_mean_initializer",
     "moving_variance_initializer", "beta_regularizer", "gamma_regularizer", "beta_constraint", "gamma_constraint", "synchronized"] ++
     ["kq_conf", "bq_conf"], []⟩

/-- The pooling layers, pooling.py L23-26 and L50-300: no `get_config` of their own. -/
def qPool (name : String) (keras : List (String × Rule)) : LayerClass :=
  ⟨name, pSingle ++ keras ++ [("parallelization_factor", .plain (.int (-1)))], eSingle ++ names keras, []⟩

/-- Keras arguments of windowed and of global pooling. -/
def pKPool : List (String × Rule) :=
  [("pool_size", .required), ("strides", .plain .none), ("padding", .plain (.str "valid")), ("data_format", .plain .none)]

def pKGlobalPool : List (String × Rule) := [("data_format", .plain .none), ("keepdims", .plain (.bool false))]

/-- `QUnaryFunctionLUT` and `QAffinedUnaryFunctionLUT`, activation.py L19-53, L69-73: both enable flags default to `True`, not to the
global config.  `override_oq_k0_to_0` is folded into `oq_conf` (not an attribute). -/
def qUnary (name : String) : LayerClass :=
  ⟨name, pLayer ++ [("enable_iq", .plain (.bool true)), ("enable_oq", .plain (.bool true)), ("enable_ebops", .ebops),
     ("beta0", .scope .beta0), ("ebops_factor", .plain (.str "1.0")), ("oq_conf", .guarded "enable_oq" .truthy .table),
     ("iq_conf", .guarded "enable_iq" .truthy .datalane), ("activation", .required),
     ("allow_heterogeneous_input", .plain (.bool true)), ("allow_heterogeneous_table", .plain (.bool true))],
   eSingle ++ ["activation"] ++ ["allow_heterogeneous_table", "allow_heterogeneous_input"], []⟩

/-- `QSoftmax`, softmax.py L14-88, L163-178: `enable_iq` defaults to `False`, `enable_ebops` to the global flag alone; the exponential's
input quantizer is used only if `stable`; the argument `axis` is only another spelling of `axes`. -/
def qSoftmax : LayerClass :=
  ⟨"QSoftmax", pLayer ++ [("enable_iq", .plain (.bool false)), ("enable_oq", .scope .oq),
     ("enable_ebops", .scope .ebops), ("beta0", .scope .beta0), ("ebops_factor", .plain (.str "1.0")),
     ("oq_conf", .guarded "enable_oq" .truthy .datalane), ("iq_conf", .guarded "enable_iq" .truthy .datalane),
     ("axes", .plain (.int (-1))), ("stable", .plain (.bool true)), ("exp_iq_conf", .guarded "stable" .truthy .datalane),
     ("exp_oq_conf", .scope .table), ("inv_iq_conf", .scope .datalane), ("inv_oq_conf", .scope .table),
     ("allow_heterogeneous_table", .plain (.bool false)), ("input_scaler", .plain (.str "1.0")),
     ("parallelization_factor", .plain (.int (-1)))],
   eSingle ++ ["axes", "stable", "exp_oq_conf", "exp_iq_conf", "inv_oq_conf", "inv_iq_conf", "allow_heterogeneous_table",
     "input_scaler", "parallelization_factor"], []⟩

/-- `QSum`, ops/accum.py L11-26, L51-60. -/
def qSum : LayerClass :=
  ⟨"QSum", pSingle ++ [("axes", .plain (.int (-1))), ("scale", .plain (.str "1.0")), ("keepdims", .plain (.bool false))],
   eSingle ++ ["axes", "scale", "keepdims"], []⟩

/-- `QMeanPow2`, ops/accum.py L64-81: `scale` is computed by `build`. -/
def qMeanPow2 : LayerClass :=
  ⟨"QMeanPow2", pSingle ++ [("axes", .plain (.int (-1))), ("keepdims", .plain (.bool false))], eSingle ++ ["axes", "keepdims"], []⟩

/-- `QEinsum`, ops/einsum.py L23-25, L66-69. -/
def qEinsum : LayerClass := ⟨"QEinsum", pMulti ++ [("equation", .required)], eMulti ++ ["equation"], []⟩

/-- `QAdd`, `QSubtract`, `QMultiply`, `QMaximum`, `QMinimum`, `QAveragePow2`, ops/merge.py. -/
def qMerge (name : String) : LayerClass := ⟨name, pMulti, eMulti, []⟩

/-- `QDot`, ops/merge.py L63-69 (`normalize` must be false). -/
def qDot : LayerClass := ⟨"QDot", pMulti ++ [("axes", .plain (.int (-1))), ("normalize", .plain (.bool false))],
  eMulti ++ ["axes", "normalize"], []⟩

/-- Arguments shared by the table layers, table/dense.py L23-60, L171-212. -/
def pTable (subnn : ArgVal) : List (String × Rule) :=
  [("n_hl", .plain (.int 1)), ("d_hl", .plain (.int 8)), ("activation", .plain .none), ("subnn_activation", .plain subnn),
   ("toq_conf", .scope .table), ("parallelization_factor", .plain (.int (-1))), ("batch_norm", .plain (.bool false)),
   ("bn_center", .plain (.bool true)), ("bn_scale", .plain (.bool true)), ("bn_momentum", .plain (.str "0.99")),
   ("bn_epsilon", .plain (.str "0.001")), ("table_idxs", .plain (.str "(6, 5)"))]

/-- Keys shared by table/dense.py L149-167 and L409-429. -/
def eTable : List String :=
  ["n_hl", "d_hl", "subnn_activation", "activation", "toq_conf", "parallelization_factor", "batch_norm", "bn_center", "bn_scale",
   "bn_momentum", "bn_epsilon", "table_idxs"]

/-- `QDenseT`, table/dense.py L23-60, L149-167. -/
def qDenseT : LayerClass := ⟨"QDenseT", pSingle ++ [("n_out", .required), ("use_bias", .plain (.bool true))] ++ pTable (.str "tanh"),
  eSingle ++ ["n_out", "use_bias"] ++ eTable, []⟩

/-- `QEinsumDenseT`, table/dense.py L171-212, L409-429. -/
def qEinsumDenseT : LayerClass :=
  ⟨"QEinsumDenseT", pSingle ++ [("equation", .required), ("output_shape", .required), ("bias_axes", .plain .none),
    ("normalize_axes", .plain .none)] ++ pTable (.str "tanh"),
   eSingle ++ ["equation", "output_shape", "bias_axes", "normalize_axes"] ++ eTable, []⟩

/-- `QConvT1D`, `QConvT2D`, table/conv.py L24-71, L138-150, L155-234 (`n_out` is renamed to `filters`, L140). -/
def qConvT (name : String) : LayerClass :=
  ⟨name, pSingle ++ [("filters", .required), ("kernel_size", .required), ("strides", .plain (.int 1)), ("padding", .plain (.str "valid")),
    ("data_format", .plain (.str "channels_last")), ("dilation_rate", .plain (.int 1)), ("groups", .plain (.int 1)),
    ("use_bias", .plain (.bool true))] ++ pTable .none,
   eSingle ++ ["use_bias"] ++ eTable ++ ["filters", "kernel_size", "strides", "padding", "data_format", "dilation_rate", "groups"], []⟩

/-- `keras.layers.MultiHeadAttention` and the arguments of `QMultiHeadAttention` for the softmax, attn/mha.py L28-77. -/
def pMhaCommon : List (String × Rule) :=
  [("num_heads", .required), ("key_dim", .required), ("value_dim", .other "key_dim"), ("dropout", .plain (.str "0.0")),
   ("use_bias", .plain (.bool true)), ("output_shape", .plain .none), ("attention_axes", .plain .none)] ++ pKernelBias ++
  [("qkvo_iq_conf", .scope .datalane), ("qkvo_oq_conf", .scope .datalane), ("softmax_iq_conf", .scope .datalane),
   ("softmax_exp_iq_conf", .scope .datalane), ("softmax_exp_oq_conf", .scope .table), ("softmax_inv_iq_conf", .scope .datalane),
   ("softmax_inv_oq_conf", .scope .table), ("softmax_oq_conf", .scope .datalane), ("stable_softmax", .plain (.bool true)),
   ("softmax_allow_heterogeneous_table", .plain (.bool false)), ("parallelization_factor", .plain (.int (-1)))]

/-- Keys of `MultiHeadAttention.get_config` and of attn/mha.py L358-378 without the kernel quantizers and `fuse`. -/
def eMhaCommon : List String :=
  ["num_heads", "key_dim", "value_dim", "dropout", "use_bias", "output_shape", "attention_axes"] ++ eKernelBias ++
  ["qkvo_iq_conf", "qkvo_oq_conf", "softmax_iq_conf", "softmax_exp_iq_conf", "softmax_exp_oq_conf", "softmax_inv_iq_conf",
   "softmax_inv_oq_conf", "softmax_oq_conf", "softmax_allow_heterogeneous_table", "parallelization_factor", "stable_softmax"]

/-- Kernel quantizers and fusion of `QMultiHeadAttention`. -/
def pMhaKq : List (String × Rule) :=
  [("qkvo_kq_conf", .scope .weight), ("qkvo_bq_conf", .scope .bias), ("fuse", .plain (.str "none"))]

def eMhaKq : List String := ["qkvo_kq_conf", "qkvo_bq_conf", "fuse"]

/-- `QMultiHeadAttention`. -/
def qMha : LayerClass := ⟨"QMultiHeadAttention", pBase ++ pMhaCommon ++ pMhaKq, eBase ++ eMhaCommon ++ eMhaKq, []⟩

/-- Table arguments of attention, attn/mha.py L549-610. -/
def pMhaT : List (String × Rule) :=
  [("qkvo_toq_conf", .scope .table), ("n_hl", .plain (.int 1)), ("d_hl", .plain (.int 8)), ("subnn_activation", .plain (.str "tanh")),
   ("table_spec", .plain (.str "(6, 5)")), ("batch_norm", .plain (.bool false)), ("bn_center", .plain (.bool true)),
   ("bn_scale", .plain (.bool true)), ("bn_momentum", .plain (.str "0.99")), ("bn_epsilon", .plain (.str "0.001"))]

/-- attn/mha.py L732-751. -/
def eMhaT : List String :=
  ["qkvo_toq_conf", "n_hl", "d_hl", "subnn_activation", "table_spec", "batch_norm", "bn_center", "bn_scale", "bn_momentum", "bn_epsilon"]

/-- `QMultiHeadAttentionT`: no kernel quantizers, no fusion (popped at L734-736). -/
def qMhaT : LayerClass := ⟨"QMultiHeadAttentionT", pBase ++ pMhaCommon ++ pMhaT, eBase ++ eMhaCommon ++ eMhaT, []⟩

/-- `QLinformerAttention`, attn/linformer.py L14-57, L172-180. -/
def qLinformer : LayerClass :=
  ⟨"QLinformerAttention", pBase ++ pMhaCommon ++ pMhaKq ++
    [("lin_kv_proj_dim", .required), ("share_kv_proj", .plain (.bool false)), ("lin_kv_proj_mode", .plain (.str "dense"))],
   eBase ++ eMhaCommon ++ eMhaKq ++ ["lin_kv_proj_dim", "share_kv_proj", "lin_kv_proj_mode"], []⟩

/-- `QLinformerAttentionT`, attn/linformer.py L183-231: kernel quantizers are used, and written, only if the projections are not
tables (L70-80, L177-179). -/
def qLinformerT : LayerClass :=
  ⟨"QLinformerAttentionT", pBase ++ pMhaCommon ++ pMhaT ++
    [("lin_kv_proj_dim", .required), ("share_kv_proj", .plain (.bool false)), ("lin_kv_proj_mode", .plain (.str "dense_t")),
     ("qkvo_kq_conf", .guarded "lin_kv_proj_mode" .isDense .weight),
     ("qkvo_bq_conf", .guarded "lin_kv_proj_mode" .isDense .bias)],
   eBase ++ eMhaCommon ++ eMhaT ++ ["lin_kv_proj_dim", "share_kv_proj", "lin_kv_proj_mode", "qkvo_kq_conf", "qkvo_bq_conf"], []⟩

/-- `QSALTAttention`, attn/salt.py L18-66, L206-214. -/
def qSalt : LayerClass :=
  ⟨"QSALTAttention", pBase ++ pMhaCommon ++ pMhaKq ++
    [("lin_kv_proj_dim", .required), ("share_kv_proj", .plain (.bool false)), ("cluster_k_proj", .plain (.bool false)),
     ("cluster_v_proj", .plain (.bool false)), ("conv_size", .plain (.int 3)), ("separate_conv", .plain (.bool false))],
   eBase ++ eMhaCommon ++ eMhaKq ++
    ["lin_kv_proj_dim", "share_kv_proj", "conv_size", "cluster_k_proj", "cluster_v_proj", "separate_conv"], []⟩

/-- Arguments of the Keras recurrent cells. -/
def pKCell : List (String × Rule) :=
  [("units", .required), ("activation", .plain (.str "linear")), ("use_bias", .plain (.bool true)),
   ("kernel_initializer", .plain (.str "glorot_uniform")), ("recurrent_initializer", .plain (.str "orthogonal")),
   ("bias_initializer", .plain (.str "zeros")), ("kernel_regularizer", .plain .none), ("recurrent_regularizer", .plain .none),
   ("bias_regularizer", .plain .none), ("kernel_constraint", .plain .none), ("recurrent_constraint", .plain .none),
   ("bias_constraint", .plain .none), ("dropout", .plain (.str "0.0")), ("recurrent_dropout", .plain (.str "0.0"))]

def eKCell : List String :=
  ["units", "activation", "use_bias", "kernel_initializer", "recurrent_initializer", "bias_initializer", "kernel_regularizer",
   "recurrent_regularizer", "bias_regularizer", "kernel_constraint", "recurrent_constraint", "bias_constraint", "dropout",
   "recurrent_dropout"]

/-- `QSimpleRNNCell`, rnn/simple_rnn.py L154-220, L261-272 (`enable_sq=None` means `standalone`, L201-203; `iq_conf` is written without
a guard, L263: with `enable_iq=False` both `get_config` and `call` raise, so such cells are left out here). -/
def qSimpleRnnCell : LayerClass :=
  ⟨"QSimpleRNNCell", pSingle ++ pKCell ++ [("standalone", .plain (.bool true)), ("enable_sq", .other "standalone"),
     ("sq_conf", .guarded "enable_sq" .truthy .datalane), ("kq_conf", .scope .weight), ("rkq_conf", .scope .weight),
     ("bq_conf", .guarded "use_bias" .truthy .bias), ("paq_conf", .scope .hardTanh)],
   ["iq_conf", "sq_conf", "kq_conf", "rkq_conf", "bq_conf", "paq_conf", "enable_sq", "standalone"] ++ eSingle ++ eKCell, []⟩

/-- `QGRUCell`, rnn/gru.py L109-186, L334-346. -/
def qGruCell : LayerClass :=
  ⟨"QGRUCell", pSingle ++ pKCell ++ [("recurrent_activation", .plain (.str "linear")), ("reset_after", .plain (.bool true)),
     ("standalone", .plain (.bool true)), ("sq_conf", .scope .datalane), ("kq_conf", .scope .weight), ("rkq_conf", .scope .weight),
     ("bq_conf", .guarded "use_bias" .truthy .bias), ("paq_conf", .scope .hardTanh), ("praq_conf", .scope .hardSigmoid),
     ("rhq_conf", .scope .datalane)],
   ["paq_conf", "praq_conf", "iq_conf", "sq_conf", "kq_conf", "rkq_conf", "bq_conf", "beta0"] ++ eSingle ++ eKCell ++
     ["recurrent_activation", "reset_after"], []⟩

/-- `keras.layers.RNN` arguments. -/
def pKRnn : List (String × Rule) :=
  [("return_sequences", .plain (.bool false)), ("return_state", .plain (.bool false)), ("go_backwards", .plain (.bool false)),
   ("stateful", .plain (.bool false)), ("unroll", .plain .none), ("zero_output_for_mask", .plain (.bool false))]

def eKRnn : List String := ["return_sequences", "return_state", "go_backwards", "stateful", "unroll", "zero_output_for_mask"]

/-- Flags forwarded to the cell by `QSimpleRNN`, `QGRU`, `QSimpleSNN`, `QLIF` (the cell is a `QLayerBase`). -/
def pRnnFlags : List (String × Rule) :=
  [("enable_iq", .scope .iq), ("enable_oq", .scope .oq), ("enable_ebops", .ebops),
   ("beta0", .scope .beta0), ("oq_conf", .guarded "enable_oq" .truthy .datalane),
   ("iq_conf", .guarded "enable_iq" .truthy .datalane)]

/-- `QRNN.get_config`, rnn/simple_rnn.py L346-354. -/
def eQRnn : List String := ["parallelization_factor", "enable_ebops", "enable_iq", "enable_oq", "beta0"]

/-- `QSimpleRNN`, rnn/simple_rnn.py L518-602, L608-619.  The activity regularizer is given to the cell (L566) while `get_config` of Keras
writes the one of the layer, which is never set: the argument is not written. -/
def qSimpleRnn : LayerClass :=
  ⟨"QSimpleRNN", [("name", .scope .autoName), ("trainable", .plain (.bool true)), ("dtype", .plain .none),
      ("activity_regularizer", .plain .none)] ++ pRnnFlags ++ pKCell ++ pKRnn ++
     [("enable_sq", .plain (.bool false)), ("sq_conf", .guarded "enable_sq" .truthy .datalane), ("kq_conf", .scope .weight),
      ("rkq_conf", .scope .weight), ("bq_conf", .guarded "use_bias" .truthy .bias), ("paq_conf", .scope .hardTanh),
      ("parallelization_factor", .plain (.int (-1)))],
   ["name", "trainable", "dtype"] ++ eQRnn ++ eKCell ++ eKRnn ++
     ["iq_conf", "sq_conf", "kq_conf", "rkq_conf", "bq_conf", "oq_conf", "paq_conf"], []⟩

/-- `QGRU`, rnn/gru.py L517-607, L609-623. -/
def qGru : LayerClass :=
  ⟨"QGRU", pLayer ++ pRnnFlags ++ pKCell ++ pKRnn ++
     [("recurrent_activation", .plain (.str "linear")), ("reset_after", .plain (.bool true)), ("sq_conf", .scope .datalane),
      ("kq_conf", .scope .weight), ("rkq_conf", .scope .weight), ("bq_conf", .guarded "use_bias" .truthy .bias),
      ("paq_conf", .scope .hardTanh), ("praq_conf", .scope .hardSigmoid), ("rhq_conf", .scope .datalane),
      ("parallelization_factor", .plain (.int 1))],
   eLayer ++ eQRnn ++ eKCell ++ eKRnn ++ ["recurrent_activation", "reset_after"] ++
     ["iq_conf", "paq_conf", "praq_conf", "sq_conf", "kq_conf", "rkq_conf", "bq_conf", "oq_conf", "rhq_conf"], []⟩

/-- Spiking arguments, snn/base.py L50-63. -/
def pSpike : List (String × Rule) :=
  [("units", .required), ("threshold", .plain (.str "1.0")), ("spike_grad", .plain .none), ("surrogate_disable", .plain (.bool false)),
   ("inhibition", .plain (.bool false)), ("learn_threshold", .plain (.bool false)), ("reset_mechanism", .plain (.str "subtract")),
   ("detach_reset", .plain (.bool true)), ("graded_spikes_factor", .plain (.str "1.0")), ("learn_graded_spikes_factor", .plain (.bool false))]

/-- snn/base.py L158-176. -/
def eSpike : List String :=
  ["units", "threshold", "spike_grad", "surrogate_disable", "inhibition", "learn_threshold", "reset_mechanism", "detach_reset",
   "graded_spikes_factor", "learn_graded_spikes_factor"]

/-- Leak arguments of the LIF classes, snn/base.py L439-504, L682-753. -/
def pLif : List (String × Rule) :=
  [("beta", .plain (.str "0.5")), ("learn_beta", .plain (.bool false)), ("beta_q_conf", .scope .weight)]

def eLif : List String := ["beta_q_conf", "beta", "learn_beta"]

/-- Flags of the spiking cells: the EBOPs flag defaults to the global one alone (snn/base.py L304). -/
def pSnnFlags : List (String × Rule) :=
  [("enable_iq", .scope .iq), ("enable_oq", .scope .oq),
   ("enable_ebops", .scope .ebops), ("enable_sq", .scope .sq),
   ("beta0", .scope .beta0), ("oq_conf", .guarded "enable_oq" .truthy .datalane),
   ("iq_conf", .guarded "enable_iq" .truthy .datalane), ("sq_conf", .guarded "enable_sq" .truthy .datalane),
   ("graded_spikes_factor_q_conf", .scope .weight)]

/-- `QSimpleSNNCell`, `QLIFCell`, snn/base.py L266-319, L423-433, L439-504, L537-546.  For a cell that is not standalone
`enable_ebops` reads false (L339-341); such cells exist only inside a layer, so `standalone` is true here. -/
def qSnnCell (name : String) (lif : Bool) : LayerClass :=
  ⟨name, pLayer ++ pSnnFlags ++ [("ebops_factor", .plain (.str "1.0")), ("standalone", .plain (.bool true))] ++ pSpike ++
     (if lif then pLif else []),
   eSingle ++ eSpike ++ ["graded_spikes_factor_q_conf", "sq_conf", "enable_sq", "standalone"] ++ (if lif then eLif else []), []⟩

/-- `QSimpleSNN`, `QLIF`, snn/base.py L560-605, L611-676, L682-764: `from_config` drops `cell` and `zero_output_for_mask` (L588-589). -/
def qSnn (name : String) (lif : Bool) : LayerClass :=
  ⟨name, pLayer ++ pSnnFlags ++ pSpike ++ pKRnn ++ [("parallelization_factor", .plain (.int (-1)))] ++ (if lif then pLif else []),
   eLayer ++ eQRnn ++ eKRnn ++ eSpike ++ ["iq_conf", "sq_conf", "oq_conf", "enable_sq", "graded_spikes_factor_q_conf"] ++
     (if lif then eLif else []), ["cell", "zero_output_for_mask"]⟩

/-! ## Build-time resolution of the parallelization factor -/

/-- The three conventions: `< 0` (core/dense.py L52-53, core/einsum_dense.py L63-64, table/dense.py L101-102, L279-280), `<= 0` (conv.py L68-70,
pooling.py L45-47), `== -1` (rnn/simple_rnn.py L323-324). -/
inductive PfRule | neg | nonpos | minusOne
  deriving DecidableEq, Repr

/-- `build` on an input with `n` parallel positions. -/
def PfRule.resolve (r : PfRule) (n pf : ℤ) : ℤ :=
  match r with
  | .neg => if pf < 0 then n else pf
  | .nonpos => if pf ≤ 0 then n else pf
  | .minusOne => if pf = -1 then n else pf

end Layers
end HGQ
