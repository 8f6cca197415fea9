import Verif.Model.QkerasConfig

/-!
# Positional and keyword tensors in a training call

`QLayerMeta.__call__` wraps `call(self, *args, **kwargs)` and computes the EBOPs from the shapes of the *positional* arguments, `layers/core/base.py` L88-105.
External (Keras): `Layer.__call__` passes the user's positional and keyword arguments on as they are.  `training` and boolean options are keywords and not part
of the arguments here.
-/
namespace HGQ

/-- A value passed for a tensor argument: a tensor of some shape, `None`, or a list or tuple of tensors. -/
inductive TArg | tensor (shape : List ℕ) | none | many (shapes : List (List ℕ))
  deriving DecidableEq, Repr

/-- `(1,) + shape[1:]`, base.py L100. -/
def sampleShape (s : List ℕ) : List ℕ := 1 :: s.drop 1

/-- `ops.shape` of one element of `tensors`; `None` and lists of tensors have none (an exception). -/
def TArg.shape? : TArg → Option (List ℕ)
  | .tensor s => some s
  | _ => Option.none

/-- L96-100: `args[0]` decides whether the tensors are its elements or the positional arguments; without positional arguments it is an `IndexError`. -/
def ebopsShapes (args : List TArg) : Option (List (List ℕ)) :=
  match args with
  | [] => none
  | .many l :: _ => some (l.map sampleShape)
  | a :: as => ((a :: as).mapM TArg.shape?).map fun l => l.map sampleShape

/-- The signatures of `_compute_ebops`. -/
inductive EbopsSig
  /-- `(self, shape)`: dense, einsum-dense, convolution, pooling, reductions, softmax, batch normalization, tables, recurrent and spiking layers. -/
  | one
  /-- `(self, query_shape, value_shape=None, key_shape=None)` of `QMultiHeadAttention`, attn/mha.py L386-392. -/
  | attention
  /-- The same signature in `QLinformerAttention` and `QSALTAttention`, which pass the built shape of the projected value, attn/linformer.py L169-170 and
  attn/salt.py L203-204. -/
  | projected (value : List ℕ)
  /-- `(self, *shapes)` zipped with the `n` input quantizers: `QEinsum`, `QAdd`, `QMultiply`, `QMaximum`, `QMinimum`, `QAveragePow2`, ops/einsum.py L61-64,
  ops/merge.py. -/
  | star (n : ℕ)
  deriving DecidableEq, Repr

/-- `_compute_ebops(*shapes)`: the shapes the cost is computed from; `none` is a `TypeError`. -/
def ebopsFrom (sig : EbopsSig) (shapes : List (List ℕ)) : Option (List (List ℕ)) :=
  match sig with
  | .one => if shapes.length = 1 then some shapes else none
  | .attention =>
    match shapes with
    | [q] => some [q, q]
    | [q, v] => some [q, v]
    | [q, v, _] => some [q, v]
    | _ => none
  | .projected value =>
    match shapes with
    | [q] => some [q, value]
    | [q, _] => some [q, value]
    | [q, _, _] => some [q, value]
    | _ => none
  | .star n => some (shapes.take n)

/-- Tensor parameters of `call`. -/
inductive CallSig | single | masked | attention | rnn
  deriving DecidableEq, Repr

/-- `call(self, inputs)` (conv.py L72, dense.py L60, einsum.py L56, merge.py L11, …), `call(self, inputs, training, mask)` (softmax.py L114,
batch_normalization.py L151; `training` stands between them, so a positional mask comes with a positional `training`, which is left out here), the attention layers (mha.py L434-446) and `QRNN.call` (simple_rnn.py L389-395). -/
def CallSig.params : CallSig → List String
  | .single => ["inputs"]
  | .masked => ["inputs", "mask"]
  | .attention => ["query", "value", "key", "query_mask", "value_mask", "key_mask", "attention_mask"]
  | .rnn => ["sequences", "initial_state", "mask"]

/-- The layers: how `call` and `_compute_ebops` go together. -/
inductive CallLayer | plain | masked | merge (n : ℕ) | attention | projected (value : List ℕ) | recurrent
  deriving DecidableEq, Repr

def CallLayer.call : CallLayer → CallSig
  | .plain => .single
  | .masked => .masked
  | .merge _ => .single
  | .attention => .attention
  | .projected _ => .attention
  | .recurrent => .rnn

def CallLayer.ebops : CallLayer → EbopsSig
  | .plain => .one
  | .masked => .one
  | .merge n => .star n
  | .attention => .attention
  | .projected v => .projected v
  | .recurrent => .one

/-- The wrapped `call`, base.py L88-105: `none` if it raises; the EBOPs are those of the returned shapes under the layer's cost function, and absent when the call is
neither training nor tracing. -/
def trainCall (L : CallLayer) (training : Bool) (cost : List (List ℕ) → ℚ) (args : List TArg) (kw : List (String × TArg)) : Option (Option ℚ) :=
  (bindCall L.call.params args kw).bind fun _ =>
    if training then ((ebopsShapes args).bind (ebopsFrom L.ebops)).map fun s => some (cost s) else some none

end HGQ
