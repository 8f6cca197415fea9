import Mathlib.Data.List.Basic

/-!
# Constructor arguments: `gather_vars_to_kwargs` and the constructors built on it

Python dictionaries are association lists read with `lookup` (the first entry of a key counts).  Values are of any type `V`;
`lit` gives the value of a default written in the source.
-/
namespace HGQ

/-- An alternative of a skip pattern: a literal, `.+literal`, `literal.+`. -/
inductive SkipAlt
  | lit (s : String)
  | plusLit (s : String)
  | litPlus (s : String)
  deriving DecidableEq

/-- `re.match(alternative, name)`: the match must begin at the start of the name but need not reach its end. -/
def SkipAlt.matches (name : String) : SkipAlt → Bool
  | .lit s => s.toList.isPrefixOf name.toList
  | .plusLit s => (name.toList.drop 1).tails.any fun t => s.toList.isPrefixOf t
  | .litPlus s => s.toList.isPrefixOf name.toList && decide (s.toList.length < name.toList.length)

/-- `k.startswith('__') and k.endswith('__')`, misc.py L32. -/
def isDunder (name : String) : Bool :=
  ['_', '_'].isPrefixOf name.toList && ['_', '_'].isPrefixOf name.toList.reverse

/-- `gather_vars_to_kwargs(skip_pattern)`, misc.py L23-34: `locals` are the local variables of the caller without `kwargs`, `kwargs` is
the variable of this name.  (`kwarg.update(vars)`: locals win.) -/
def gatherVars {V : Type} (skip : List SkipAlt) (locals kwargs : List (String × V)) : List (String × V) :=
  ((locals.filter fun p => !skip.any (SkipAlt.matches p.1)) ++ kwargs).filter fun p => !isDunder p.1

/-- A constructor: parameters with defaults (`none`: required), whether it has `**kwargs`, names it pops from `kwargs` first into a local
variable of the same name (with default), skip pattern, names popped from the gathered arguments, keywords added in the parent call,
entries overwritten before the parent call. -/
structure Ctor (V : Type) where
  params : List (String × Option V)
  hasKwargs : Bool
  popFirst : List (String × V)
  skip : List SkipAlt
  pops : List String
  fixed : List (String × V)
  overwrite : List (String × V)

variable {V : Type}

/-- The value of a parameter in a call with the arguments `d`. -/
def Ctor.param (d : List (String × V)) (p : String × Option V) : Option V := (d.lookup p.1).or p.2

/-- One constructor call up to the parent call: the keyword arguments the parent receives; `none`: TypeError.  `selfV`, `clsV` are the
values of the local variables `self` and `__class__` (present because the constructors use `super()`). -/
def Ctor.call (selfV clsV : V) (c : Ctor V) (d : List (String × V)) : Option (List (String × V)) :=
  let rest := d.filter fun p => !(c.params.map Prod.fst).contains p.1
  if (d.lookup "self").isSome || c.params.any (fun p => (Ctor.param d p).isNone) || (!c.hasKwargs && !rest.isEmpty) then none
  else
    let first := c.popFirst.map fun p => (p.1, (rest.lookup p.1).getD p.2)
    let rest' := rest.filter fun p => !(c.popFirst.map Prod.fst).contains p.1
    let named := c.params.filterMap fun p => (Ctor.param d p).map fun v => (p.1, v)
    let g := gatherVars c.skip (("self", selfV) :: named ++ first ++ [("__class__", clsV)]) rest'
    let g' := c.overwrite ++ (g.filter fun p => !c.pops.contains p.1)
    if c.fixed.any (fun p => (g'.lookup p.1).isSome) then none else some (c.fixed ++ g')

/-- The constructors along the class hierarchy (method resolution order): what the first class outside the list receives. -/
def ctorChain (selfV clsV : V) : List (Ctor V) → List (String × V) → Option (List (String × V))
  | [], d => some d
  | c :: cs, d => (c.call selfV clsV d).bind (ctorChain selfV clsV cs)

/-- Shape of a constructor in the source, defaults as text. -/
def mkCtor (lit : String → V) (params : List (String × Option String)) (hasKwargs : Bool) (popFirst : List (String × String))
    (skip : List SkipAlt) (pops : List String) (fixed overwrite : List (String × String)) : Ctor V where
  params := params.map fun p => (p.1, p.2.map lit)
  hasKwargs := hasKwargs
  popFirst := popFirst.map fun p => (p.1, lit p.2)
  skip := skip
  pops := pops
  fixed := fixed.map fun p => (p.1, lit p.2)
  overwrite := overwrite.map fun p => (p.1, lit p.2)

/-- `QDense.__init__`, dense.py L13-32. -/
def ctorQDense (lit : String → V) : Ctor V := mkCtor lit
    [("units", none), ("activation", some "None"), ("use_bias", some "True"), ("kernel_initializer", some "'glorot_uniform'"),
    ("bias_initializer", some "'zeros'"), ("kernel_regularizer", some "None"), ("bias_regularizer", some "None"), ("activity_regularizer",
    some "None"), ("kernel_constraint", some "None"), ("bias_constraint", some "None"), ("kq_conf", some "None"), ("iq_conf", some "None"),
    ("bq_conf", some "None"), ("parallelization_factor", some "-1")]
    true [] [.lit "self", .lit "kq_conf", .lit "bq_conf", .lit "parallelization_factor"]
    [] [("lora_rank", "None")] []

/-- `QEinsumDense.__init__`, einsum_dense.py L24-43. -/
def ctorQEinsumDense (lit : String → V) : Ctor V := mkCtor lit
    [("equation", none), ("output_shape", none), ("activation", some "None"), ("bias_axes", some "None"), ("kernel_initializer", some
    "'glorot_uniform'"), ("bias_initializer", some "'zeros'"), ("kernel_regularizer", some "None"), ("bias_regularizer", some "None"),
    ("kernel_constraint", some "None"), ("bias_constraint", some "None"), ("kq_conf", some "None"), ("iq_conf", some "None"), ("bq_conf",
    some "None"), ("parallelization_factor", some "-1")]
    true [] [.lit "self", .lit "kq_conf", .lit "bq_conf", .lit "parallelization_factor"]
    [] [("lora_rank", "None")] []

/-- `QBaseConv.__init__`, conv.py L13-39. -/
def ctorQBaseConv (lit : String → V) : Ctor V := mkCtor lit
    [("rank", none), ("filters", none), ("kernel_size", none), ("strides", some "1"), ("padding", some "'valid'"), ("data_format", some
    "None"), ("dilation_rate", some "1"), ("groups", some "1"), ("activation", some "None"), ("use_bias", some "True"),
    ("kernel_initializer", some "'glorot_uniform'"), ("bias_initializer", some "'zeros'"), ("kernel_regularizer", some "None"),
    ("bias_regularizer", some "None"), ("activity_regularizer", some "None"), ("kernel_constraint", some "None"), ("bias_constraint", some
    "None"), ("parallelization_factor", some "-1"), ("kq_conf", some "None"), ("iq_conf", some "None"), ("bq_conf", some "None")]
    true [] [.lit "self", .lit "kq_conf", .lit "bq_conf", .lit "parallelization_factor"]
    [] [] []

/-- `QConv1D.__init__`, conv.py L128-152. -/
def ctorQConv1D (lit : String → V) : Ctor V := mkCtor lit
    [("filters", none), ("kernel_size", none), ("strides", some "1"), ("padding", some "'valid'"), ("data_format", some "None"),
    ("dilation_rate", some "1"), ("groups", some "1"), ("activation", some "None"), ("use_bias", some "True"), ("kernel_initializer", some
    "'glorot_uniform'"), ("bias_initializer", some "'zeros'"), ("kernel_regularizer", some "None"), ("bias_regularizer", some "None"),
    ("activity_regularizer", some "None"), ("kernel_constraint", some "None"), ("bias_constraint", some "None"), ("kq_conf", some "None"),
    ("iq_conf", some "None"), ("bq_conf", some "None")]
    true [] [.lit "self"]
    [] [("rank", "1")] []

/-- `QConv2D.__init__`, conv.py L176-200. -/
def ctorQConv2D (lit : String → V) : Ctor V := mkCtor lit
    [("filters", none), ("kernel_size", none), ("strides", some "(1, 1)"), ("padding", some "'valid'"), ("data_format", some "None"),
    ("dilation_rate", some "(1, 1)"), ("groups", some "1"), ("activation", some "None"), ("use_bias", some "True"), ("kernel_initializer",
    some "'glorot_uniform'"), ("bias_initializer", some "'zeros'"), ("kernel_regularizer", some "None"), ("bias_regularizer", some "None"),
    ("activity_regularizer", some "None"), ("kernel_constraint", some "None"), ("bias_constraint", some "None"), ("kq_conf", some "None"),
    ("iq_conf", some "None"), ("bq_conf", some "None")]
    true [] [.lit "self"]
    [] [("rank", "2")] []

/-- `QConv3D.__init__`, conv.py L204-228. -/
def ctorQConv3D (lit : String → V) : Ctor V := mkCtor lit
    [("filters", none), ("kernel_size", none), ("strides", some "(1, 1, 1)"), ("padding", some "'valid'"), ("data_format", some "None"),
    ("dilation_rate", some "(1, 1, 1)"), ("groups", some "1"), ("activation", some "None"), ("use_bias", some "True"),
    ("kernel_initializer", some "'glorot_uniform'"), ("bias_initializer", some "'zeros'"), ("kernel_regularizer", some "None"),
    ("bias_regularizer", some "None"), ("activity_regularizer", some "None"), ("kernel_constraint", some "None"), ("bias_constraint", some
    "None"), ("kq_conf", some "None"), ("iq_conf", some "None"), ("bq_conf", some "None")]
    true [] [.lit "self"]
    [] [("rank", "3")] []

/-- `QBatchNormalization.__init__`, batch_normalization.py L36-58. -/
def ctorQBatchNormalization (lit : String → V) : Ctor V := mkCtor lit
    [("axis", some "-1"), ("momentum", some "0.99"), ("epsilon", some "0.001"), ("center", some "True"), ("scale", some "True"),
    ("beta_initializer", some "'zeros'"), ("gamma_initializer", some "'ones'"), ("moving_mean_initializer", some "'zeros'"),
    ("moving_variance_initializer", some "'ones'"), ("beta_regularizer", some "None"), ("gamma_regularizer", some "None"),
    ("beta_constraint", some "None"), ("gamma_constraint", some "None"), ("synchronized", some "False"), ("kq_conf", some "None"),
    ("iq_conf", some "None"), ("bq_conf", some "None")]
    true [] [.lit "self", .lit "kq_conf", .lit "bq_conf"]
    [] [] []

/-- `QMultiHeadAttention.__init__`, attn/mha.py L28-79. -/
def ctorQMultiHeadAttention (lit : String → V) : Ctor V := mkCtor lit
    [("num_heads", none), ("key_dim", none), ("value_dim", some "None"), ("dropout", some "0.0"), ("use_bias", some "True"),
    ("output_shape", some "None"), ("attention_axes", some "None"), ("kernel_initializer", some "'glorot_uniform'"), ("bias_initializer",
    some "'zeros'"), ("kernel_regularizer", some "None"), ("bias_regularizer", some "None"), ("activity_regularizer", some "None"),
    ("kernel_constraint", some "None"), ("bias_constraint", some "None"), ("seed", some "None"), ("fuse", some "'none'"), ("qkvo_iq_conf",
    some "None"), ("qkvo_kq_conf", some "None"), ("qkvo_bq_conf", some "None"), ("qkvo_oq_conf", some "None"), ("softmax_iq_conf", some
    "None"), ("softmax_exp_iq_conf", some "None"), ("softmax_exp_oq_conf", some "None"), ("softmax_inv_iq_conf", some "None"),
    ("softmax_inv_oq_conf", some "None"), ("softmax_oq_conf", some "None"), ("stable_softmax", some "True"),
    ("softmax_allow_heterogeneous_table", some "False"), ("parallelization_factor", some "-1")]
    true [] [.lit "self", .plusLit "q_conf"]
    ["softmax_allow_heterogeneous_table", "parallelization_factor", "stable_softmax", "fuse"] [] []

/-- `QMultiHeadAttentionT.__init__`, attn/mha.py L549-604. -/
def ctorQMultiHeadAttentionT (lit : String → V) : Ctor V := mkCtor lit
    [("num_heads", none), ("key_dim", none), ("value_dim", some "None"), ("dropout", some "0.0"), ("use_bias", some "True"),
    ("output_shape", some "None"), ("attention_axes", some "None"), ("kernel_initializer", some "'glorot_uniform'"), ("bias_initializer",
    some "'zeros'"), ("kernel_regularizer", some "None"), ("bias_regularizer", some "None"), ("activity_regularizer", some "None"),
    ("kernel_constraint", some "None"), ("bias_constraint", some "None"), ("seed", some "None"), ("qkvo_iq_conf", some "None"),
    ("qkvo_toq_conf", some "None"), ("qkvo_oq_conf", some "None"), ("softmax_iq_conf", some "None"), ("softmax_exp_iq_conf", some "None"),
    ("softmax_exp_oq_conf", some "None"), ("softmax_inv_iq_conf", some "None"), ("softmax_inv_oq_conf", some "None"), ("softmax_oq_conf",
    some "None"), ("stable_softmax", some "True"), ("softmax_allow_heterogeneous_table", some "False"), ("parallelization_factor", some
    "-1"), ("n_hl", some "1"), ("d_hl", some "8"), ("subnn_activation", some "'tanh'"), ("table_spec", some "(6, 5)"), ("batch_norm", some
    "False"), ("bn_center", some "True"), ("bn_scale", some "True"), ("bn_momentum", some "0.99"), ("bn_epsilon", some "0.001")]
    true [] [.lit "self", .lit "qkvo_toq_conf", .lit "n_hl", .lit "d_hl", .lit "subnn_activation", .lit "table_spec", .lit "batch_norm", .litPlus "bn_"]
    [] [] [("fuse", "'none'")]

/-- `QLinformerAttention.__init__`, attn/linformer.py L14-58. -/
def ctorQLinformerAttention (lit : String → V) : Ctor V := mkCtor lit
    [("num_heads", none), ("lin_kv_proj_dim", none), ("key_dim", none), ("value_dim", some "None"), ("dropout", some "0.0"), ("use_bias",
    some "True"), ("output_shape", some "None"), ("attention_axes", some "None"), ("kernel_initializer", some "'glorot_uniform'"),
    ("bias_initializer", some "'zeros'"), ("kernel_regularizer", some "None"), ("bias_regularizer", some "None"), ("activity_regularizer",
    some "None"), ("kernel_constraint", some "None"), ("bias_constraint", some "None"), ("seed", some "None"), ("fuse", some "'none'"),
    ("qkvo_iq_conf", some "None"), ("qkvo_kq_conf", some "None"), ("qkvo_bq_conf", some "None"), ("qkvo_oq_conf", some "None"),
    ("softmax_iq_conf", some "None"), ("softmax_exp_iq_conf", some "None"), ("softmax_exp_oq_conf", some "None"), ("softmax_inv_iq_conf",
    some "None"), ("softmax_inv_oq_conf", some "None"), ("softmax_oq_conf", some "None"), ("stable_softmax", some "True"),
    ("softmax_allow_heterogeneous_table", some "False"), ("parallelization_factor", some "-1"), ("share_kv_proj", some "False"),
    ("lin_kv_proj_mode", some "'dense'")]
    true [] [.lit "self", .lit "lin_kv_proj_dim", .lit "share_kv_proj", .lit "lin_kv_proj_mode"]
    [] [] []

/-- `QLinformerAttentionT.__init__`, attn/linformer.py L186-231. -/
def ctorQLinformerAttentionT (lit : String → V) : Ctor V := mkCtor lit
    [("num_heads", none), ("lin_kv_proj_dim", none), ("key_dim", none), ("value_dim", some "None"), ("dropout", some "0.0"), ("use_bias",
    some "True"), ("output_shape", some "None"), ("attention_axes", some "None"), ("kernel_initializer", some "'glorot_uniform'"),
    ("bias_initializer", some "'zeros'"), ("kernel_regularizer", some "None"), ("bias_regularizer", some "None"), ("activity_regularizer",
    some "None"), ("kernel_constraint", some "None"), ("bias_constraint", some "None"), ("seed", some "None"), ("fuse", some "'none'"),
    ("qkvo_iq_conf", some "None"), ("qkvo_toq_conf", some "None"), ("qkvo_oq_conf", some "None"), ("softmax_iq_conf", some "None"),
    ("softmax_exp_iq_conf", some "None"), ("softmax_exp_oq_conf", some "None"), ("softmax_inv_iq_conf", some "None"),
    ("softmax_inv_oq_conf", some "None"), ("softmax_oq_conf", some "None"), ("stable_softmax", some "True"),
    ("softmax_allow_heterogeneous_table", some "False"), ("parallelization_factor", some "-1"), ("share_kv_proj", some "False"),
    ("lin_kv_proj_mode", some "'dense_t'"), ("n_hl", some "1"), ("d_hl", some "8"), ("subnn_activation", some "'tanh'"), ("table_spec",
    some "(6, 5)"), ("batch_norm", some "False"), ("bn_center", some "True"), ("bn_scale", some "True"), ("bn_momentum", some "0.99"),
    ("bn_epsilon", some "0.001")]
    true [] [.lit "self"]
    [] [] []

/-- `QSALTAttention.__init__`, attn/salt.py L18-66. -/
def ctorQSALTAttention (lit : String → V) : Ctor V := mkCtor lit
    [("num_heads", none), ("lin_kv_proj_dim", none), ("key_dim", none), ("value_dim", some "None"), ("dropout", some "0.0"), ("use_bias",
    some "True"), ("output_shape", some "None"), ("attention_axes", some "None"), ("kernel_initializer", some "'glorot_uniform'"),
    ("bias_initializer", some "'zeros'"), ("kernel_regularizer", some "None"), ("bias_regularizer", some "None"), ("activity_regularizer",
    some "None"), ("kernel_constraint", some "None"), ("bias_constraint", some "None"), ("seed", some "None"), ("fuse", some "'none'"),
    ("qkvo_iq_conf", some "None"), ("qkvo_kq_conf", some "None"), ("qkvo_bq_conf", some "None"), ("qkvo_oq_conf", some "None"),
    ("softmax_iq_conf", some "None"), ("softmax_exp_iq_conf", some "None"), ("softmax_exp_oq_conf", some "None"), ("softmax_inv_iq_conf",
    some "None"), ("softmax_inv_oq_conf", some "None"), ("softmax_oq_conf", some "None"), ("stable_softmax", some "True"),
    ("softmax_allow_heterogeneous_table", some "False"), ("parallelization_factor", some "-1"), ("share_kv_proj", some "False"),
    ("cluster_k_proj", some "False"), ("cluster_v_proj", some "False"), ("conv_size", some "3"), ("separate_conv", some "False")]
    true [] [.lit "self", .lit "lin_kv_proj_dim", .lit "share_kv_proj", .lit "conv_size", .lit "cluster_k_proj", .lit "cluster_v_proj", .lit "separate_conv"]
    [] [] []

/-- `EarlyStoppingWithEbopsThres.__init__`, early_stopping_ebops.py L65-79. -/
def ctorEarlyStoppingWithEbopsThres (lit : String → V) : Ctor V := mkCtor lit
    [("ebops_threshold", none), ("monitor", some "'val_loss'"), ("min_delta", some "0"), ("patience", some "0"), ("verbose", some "0"),
    ("mode", some "'auto'"), ("baseline", some "None"), ("restore_best_weights", some "False"), ("start_from_epoch", some "0")]
    false [] [.lit "self", .lit "ebops_threshold"]
    [] [] []

/-- `FrozenFixedPointQuantizer.__init__`, frozen_quantizer.py L13-30. -/
def ctorFrozenFixedPointQuantizer (lit : String → V) : Ctor V := mkCtor lit
    [("k0", none), ("b0", none), ("i0", none), ("round_mode", none), ("overflow_mode", none), ("bc", some "MinMax(0, 12)"), ("ic", some
    "None"), ("br", some "None"), ("ir", some "None")]
    true [("trainable", "False")] [.lit "self"]
    [] [] []

end HGQ
