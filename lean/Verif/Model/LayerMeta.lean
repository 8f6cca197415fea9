import Mathlib.Data.List.Basic

/-!
# Layer metaclass: call wrapping, flags

`src/hgq/layers/core/base.py` and the constructors of the layers.
-/
namespace HGQ

/-! ## Wrapping of `call` at first instantiation -/

/-- The part of a class hierarchy that matters.  Classes are numbered in the order of their definition, so the method resolution
order of a class lists strictly smaller numbers after the class itself.  `defines c`: the class body has `call`;
`superCall c`: that `call` ends in `super().call(...)` and hands the `training` flag on. -/
structure Classes where
  mro : ℕ → List ℕ
  defines : ℕ → Bool
  superCall : ℕ → Bool

/-- A function object found as `call`: `wraps` wrappers around the function defined in the body of class `body`. -/
structure CallFn where
  wraps : ℕ
  body : ℕ
deriving DecidableEq, Repr

/-- `QLayerMeta._wrapped_cls` and the `call` in each class' `__dict__`. -/
structure MetaState where
  wrapped : ℕ → Bool
  own : ℕ → Option CallFn

/-- After all classes are defined, before any layer exists. -/
def Classes.init (C : Classes) : MetaState :=
  ⟨fun _ => false, fun c => if C.defines c then some ⟨0, c⟩ else none⟩

/-- Attribute lookup of `call` along a list of classes. -/
def MetaState.lookup (st : MetaState) (l : List ℕ) : Option CallFn := l.findSome? st.own

/-- `QLayerMeta.__call__`, base.py L58-116: on the first instantiation of `c` its current `call` is wrapped and stored on `c`.
All classes here have `_compute_ebops` and no `__no_wrap_call__`. -/
def Classes.instantiate (C : Classes) (st : MetaState) (c : ℕ) : MetaState :=
  if st.wrapped c then st
  else
    let own := match st.lookup (C.mro c) with
      | some f => fun d => if d = c then some ⟨f.wraps + 1, f.body⟩ else st.own d
      | none => st.own
    ⟨fun d => if d = c then true else st.wrapped d, own⟩

/-- The state after layers of the listed classes have been created, in that order. -/
def Classes.after (C : Classes) (history : List ℕ) : MetaState := history.foldl C.instantiate C.init

/-- The classes `super()` in the body of class `b` searches: those after `b` in the method resolution order. -/
def superOf (b : ℕ) : List ℕ → List ℕ
  | [] => []
  | c :: l => if c = b then l else superOf b l

theorem superOf_length (b : ℕ) (l : List ℕ) : (superOf b l).length ≤ l.length := by
  induction l with
  | nil => simp [superOf]
  | cons c l ih => simp only [superOf]; split <;> simp <;> omega

/-- How often one training call of a layer adds the EBOPs term to the loss (L95-104): one for every wrapper passed, going on to
`super().call`, looked up at run time in the rest of the layer's method resolution order `l`. -/
def Classes.lossCount (C : Classes) (st : MetaState) (l : List ℕ) : ℕ :=
  match l with
  | [] => 0
  | c :: r =>
    match st.own c with
    | none => C.lossCount st r
    | some f => f.wraps + (if C.superCall f.body then C.lossCount st (if f.body = c then r else superOf f.body r) else 0)
termination_by l.length
decreasing_by
  all_goals simp only [List.length_cons]
  · omega
  · split
    · omega
    · have := superOf_length f.body r; omega

/-- Loss terms per training call of a layer of class `d`. -/
def Classes.lossTerms (C : Classes) (history : List ℕ) (d : ℕ) : ℕ := C.lossCount (C.after history) (C.mro d)

/-- The classes of HGQ2 in which one layer class inherits `call` from, or calls `super().call` of, another instantiable one:
0 QSum (ops/accum.py L10), 1 QMeanPow2(QSum) L63; 2 QAdd (ops/merge.py L28), 3 QAveragePow2(QAdd) L33;
4 QMultiHeadAttention (attn/mha.py L25), 5 QMultiHeadAttentionT L541, 6 QLinformerAttention (attn/linformer.py L11, `super().call`
L144), 7 QLinformerAttentionT(QLinformerAttention, QMultiHeadAttentionT) L183, 8 QSALTAttention (attn/salt.py L13, `super().call`
L176); 9 QDenseT (table/dense.py L22), 10 QConvT1D / QConvT2D via QConvTBase (table/conv.py L23, `super().call` L79).
QAdd stands for itself and for QMerge, in which its `call` is defined. -/
def hgqClasses : Classes where
  mro
    | 0 => [0] | 1 => [1, 0] | 2 => [2] | 3 => [3, 2] | 4 => [4] | 5 => [5, 4] | 6 => [6, 4] | 7 => [7, 6, 5, 4]
    | 8 => [8, 4] | 9 => [9] | 10 => [10, 9] | _ => []
  defines c := c ∈ [0, 2, 4, 6, 8, 9, 10]
  superCall c := c ∈ [6, 8, 10]

/-! ## Flags -/

/-- `enable_iq`, `enable_oq`, `enable_ebops` as passed (`none`: not passed). -/
structure FlagArgs where
  iq : Option Bool
  oq : Option Bool
  ebops : Option Bool

/-- The corresponding entries of `global_config`, config/layer.py. -/
structure FlagGlobals where
  iq : Bool
  oq : Bool
  ebops : Bool

/-- The attributes of the layer. -/
structure Flags where
  iq : Bool
  oq : Bool
  ebops : Bool
deriving DecidableEq

/-- `QLayerBase.__init__`, base.py L143-153. -/
def resolveFlags (g : FlagGlobals) (a : FlagArgs) : Flags :=
  let iq := a.iq.getD g.iq
  ⟨iq, a.oq.getD g.oq, match a.ebops with | some e => e | none => g.ebops && iq⟩

/-- Why creating, building or calling the layer raises. -/
inductive FlagError
  | iqDisabled | oqDisabled | tupleOutput | notBuilt
deriving DecidableEq

/-- Families of layers that treat the flags alike. -/
inductive LayerKind
  /-- QDense, QEinsumDense, QConv*, pooling, QSum, QBatchNormalization, merges, QEinsum, tables: `call` uses the input quantizer
  only if enabled, `_compute_ebops` reads `self.iq` (e.g. core/dense.py L60-71). -/
  | plain
  /-- QUnaryFunctionLUT and QAffinedUnaryFunctionLUT, activation.py L18-109. -/
  | lut
  /-- QSoftmax, softmax.py L13-192. -/
  | softmax
  /-- QSimpleRNNCell used alone, rnn/simple_rnn.py L17-298. -/
  | rnnCell
  /-- QGRUCell used alone, rnn/gru.py L14-387. -/
  | gruCell
deriving DecidableEq

/-- The attributes a layer of each kind ends up with. `QUnaryFunctionLUT` has `enable_iq=True, enable_oq=True` as defaults and
its `self._enable_ebops = False` (activation.py L46) is overwritten by `super().__init__`; `QSoftmax` has `enable_iq=False` as default and
does not tie `enable_ebops` to it (softmax.py L19, L35-38). -/
def layerFlags (g : FlagGlobals) (k : LayerKind) (a : FlagArgs) : Flags :=
  match k with
  | .lut => resolveFlags g { a with iq := some (a.iq.getD true), oq := some (a.oq.getD true) }
  | .softmax => resolveFlags g { a with iq := some (a.iq.getD false), ebops := some (a.ebops.getD g.ebops) }
  | _ => resolveFlags g a

/-- `self.iq`: raises if disabled (core/base.py L265-268; for `QSimpleRNNCell`, simple_rnn.py L94-97, the attribute `_iq` is missing). -/
def readIq (f : Flags) : Except FlagError Unit := if f.iq then .ok () else .error .iqDisabled

/-- `self.oq`, core/base.py L167-170. -/
def readOq (f : Flags) : Except FlagError Unit := if f.oq then .ok () else .error .oqDisabled

/-- What one call did: EBOPs computed, output quantizer applied. -/
structure CallEffect where
  ebops : Bool
  oq : Bool
deriving DecidableEq

/-- Create, build and call a layer (wrapper of base.py L88-110); `training` is whether the flag makes the wrapper compute EBOPs. -/
def runLayer (g : FlagGlobals) (k : LayerKind) (a : FlagArgs) (training : Bool) : Except FlagError CallEffect := do
  let f := layerFlags g k a
  -- build: `QGRUCell.build` builds the state quantizer only together with the input quantizer; `_post_build` asserts that all
  -- sublayers are built
  if k = .gruCell ∧ ¬ f.iq then throw .notBuilt
  -- the original call
  if k = .rnnCell then readIq f
  -- EBOPs
  if training ∧ f.ebops then
    match k with
    | .plain => readIq f
    | .lut => do readIq f; readOq f
    | .softmax => pure ()
    | .rnnCell => readIq f
    | .gruCell => pure ()
  -- output quantizer; the recurrent cells return a tuple, which the wrapper refuses
  if f.oq ∧ (k = .rnnCell ∨ k = .gruCell) then throw .tupleOutput
  return ⟨training && f.ebops, f.oq⟩

end HGQ
