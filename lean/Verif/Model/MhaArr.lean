import Verif.Model.EndToEnd
import Verif.Model.KerasOps
import Verif.Model.Attn
import Verif.Model.Salt

/-!
# Attention layers inside a traced model

`layers/attn/mha.py`, `layers/attn/linformer.py`, `layers/attn/salt.py` on batches, `_dais_tracer/layers/attn.py` on one sample, with arrays, all sequence axes attended
(the default `attention_axes`; C77 for the others).  `none` is an exception.
-/
namespace HGQ

/-! ## Equations -/

/-- Input letters of Keras' `_build_proj_equation(free, bound, out)`; letters are numbered. -/
def projInL (n k : ℕ) : List ℕ := List.range (n + k)
/-- Kernel letters. -/
def projKerL (n k m : ℕ) : List ℕ := List.range' n (k + m)
/-- Output letters. -/
def projOutL (n k m : ℕ) : List ℕ := List.range n ++ List.range' (n + k) m

/-- Letters of Keras' `_build_attention_equation(rank, attn_axes)` for projections with `n` free axes (batch and sequence axes), heads `n` and head
size `n + 1`, all sequence axes attended: target (query). -/
def attnTgtL (n : ℕ) : List ℕ := List.range (n + 2)
/-- Source (key, value): fresh letters for the sequence axes. -/
def attnSrcL (n : ℕ) : List ℕ := 0 :: (List.range' (n + 2) (n - 1) ++ [n, n + 1])
/-- Product (scores): batch, heads, query positions, key positions. -/
def attnProdL (n : ℕ) : List ℕ := 0 :: n :: (List.range' 1 (n - 1) ++ List.range' (n + 2) (n - 1))

/-- `norm_axes` of the softmax, mha.py L316-321, as flags of the non-batch axes: the key positions. -/
def attnAxes (n : ℕ) : List Bool := List.replicate (n - 1 + 1) false ++ List.replicate (n - 1) true

/-! ## Softmax with a mask -/

/-- A mask as number. -/
def boolQ (b : Bool) : ℚ := if b then 1 else 0

/-- `QSoftmax.call` on a batch, softmax.py L114-132 after the input quantizer; the mask is the same for all samples. -/
def kerasSoftmaxM (stable : Bool) (fl : List Bool) (expT invT : List ℕ → ℚ → ℚ) (mask : Option (List ℕ → Bool)) (x : Arr ℚ) : Arr ℚ :=
  let z : Arr ℚ := match mask with
    | some m => ⟨x.shape, fun idx => boolQ (m idx.tail) * x.get idx - (1 - boolQ (m idx.tail)) * 1000000000⟩
    | none => x
  let y : Arr ℚ := if stable then ⟨x.shape, fun idx => (npReduce (poolMax 0) true (false :: fl) z).get idx - z.get idx⟩ else x
  let e : Arr ℚ := ⟨x.shape, fun idx => expT idx.tail (y.get idx)⟩
  let e : Arr ℚ := match mask with
    | some m => ⟨x.shape, fun idx => boolQ (m idx.tail) * e.get idx⟩
    | none => e
  let sums := npReduce List.sum true (false :: fl) e
  ⟨x.shape, fun idx => e.get idx * invT (dropKept true fl idx.tail) (sums.get idx)⟩

/-- `ReplayQSoftmax.call`, _dais_tracer/layers/activation.py L67-85; `low` is the smallest lower bound of the inputs minus one (L75). -/
def traceSoftmaxM (stable : Bool) (fl : List Bool) (expT invT : List ℕ → ℚ → ℚ) (mask : Option (List ℕ → Bool)) (low : ℚ) (v : Arr ℚ) : Arr ℚ :=
  let inputs := npExpand v
  let inputs : Arr ℚ := if stable then
      let z : Arr ℚ := match mask with
        | some m => ⟨inputs.shape, fun idx => if m idx.tail then inputs.get idx else low⟩
        | none => inputs
      ⟨inputs.shape, fun idx => (npReduce (poolMax 0) true (false :: fl) z).get idx - z.get idx⟩
    else inputs
  let e : Arr ℚ := ⟨(npFirst inputs).shape, fun idx => expT idx ((npFirst inputs).get idx)⟩
  let e : Arr ℚ := match mask with
    | some m => ⟨e.shape, fun idx => boolQ (m idx) * e.get idx⟩
    | none => e
  let sums := npFirst (npReduce List.sum true (false :: fl) (npExpand e))
  ⟨e.shape, fun idx => e.get idx * invT (dropKept true fl idx) (sums.get idx)⟩

/-! ## The layer -/

/-- A projection (`QEinsumDense`): quantized kernel and bias, its two quantizers. -/
structure ProjArr where
  kernel : Arr ℚ
  bias : Option (Arr ℚ)
  iq : ArrQuant
  oq : ArrQuant

/-- The bias at an index of the sample: it has the last axes. -/
def ProjArr.biasFn (p : ProjArr) : List ℕ → ℚ :=
  match p.bias with
  | some b => fun idx => b.get (idx.drop (idx.length - b.shape.length))
  | none => fun _ => 0

/-- The projection as a layer: `n` free, `k` bound, `m` output axes. -/
def ProjArr.layer (p : ProjArr) (iq oq : Option ArrQuant) (n k m : ℕ) : LLayer :=
  .qlayer (iq.map fun q => [q]) (.einsumDense (projInL n k) (projKerL n k m) (projOutL n k m) p.kernel p.biasFn) false oq

/-- An optional quantizer on a batch. -/
def kerasOpt (q : Option ArrQuant) (x : Arr ℚ) : Option (Arr ℚ) :=
  match q with
  | some q => run (q.keras x)
  | none => some x

/-- An optional quantizer on a traced sample. -/
def mirrorOpt (q : Option ArrQuant) (x : Arr ℚ) : Option (Arr ℚ) :=
  match q with
  | some q => run (q.mirror x)
  | none => some x

/-- The convolution over the scores of `QSALTAttention`, channels (heads) first, salt.py L128-138: a `QConv2D` with optional quantizers; `osp`, `geo` as in
`Core.conv`, for the scores with heads last. -/
structure CfConv where
  iq : Option ArrQuant
  oq : Option ArrQuant
  P : ℕ
  G : ℕ
  a : ℕ
  b : ℕ
  osp : List ℕ
  geo : List ℕ → ℕ → Option ℕ
  kernel : ℕ → ℚ
  bias : ℕ → ℚ

/-- Its core with channels last. -/
def CfConv.core (c : CfConv) : Core := .conv c.P c.G c.a c.b c.osp c.geo c.kernel c.bias

/-- The convolution on a batch: what `data_format='channels_first'` means. -/
def CfConv.keras (c : CfConv) (x : Arr ℚ) : Option (Arr ℚ) :=
  (kerasOpt c.iq x).bind fun y => (run (npMoveaxis 1 (-1) y)).bind fun y => (run (c.core.keras [y])).bind fun z =>
    (run (npMoveaxis (-1) 1 z)).bind (kerasOpt c.oq)

/-- Its replay, _dais_tracer/layers/conv.py L74-75 and L111-146: the sample has no batch axis. -/
def CfConv.replay (c : CfConv) (x : Arr ℚ) : Option (Arr ℚ) :=
  (mirrorOpt c.iq x).bind fun y => (run (npMoveaxis 0 (-1) y)).bind fun y => (run (c.core.replay [y])).bind fun z =>
    (run (npMoveaxis (-1) 0 z)).bind (mirrorOpt c.oq)

/-- No convolution, or a convolution. -/
def convKeras (c : Option CfConv) (x : Arr ℚ) : Option (Arr ℚ) :=
  match c with
  | some c => c.keras x
  | none => some x
def convReplay (c : Option CfConv) (x : Arr ℚ) : Option (Arr ℚ) :=
  match c with
  | some c => c.replay x
  | none => some x

/-- A built `QMultiHeadAttention` (mha.py L104-235): `n` free axes, `mo` output axes.  `smIq` is the input quantizer of the softmax if enabled, `conv` the
convolution over the scores (`QSALTAttention` with `conv_size > 0`). -/
structure MhaArr where
  n : ℕ
  mo : ℕ
  enableIq : Bool
  enableOq : Bool
  fuse : Fuse
  q : ProjArr
  k : ProjArr
  v : ProjArr
  o : ProjArr
  stable : Bool
  expT : List ℕ → ℚ → ℚ
  invT : List ℕ → ℚ → ℚ
  smIq : Option ArrQuant
  smOq : ArrQuant
  oq : ArrQuant
  conv : Option CfConv

/-- Input quantizer of the query projection after `build`, L205-207. -/
def MhaArr.qIq (m : MhaArr) : ArrQuant := if m.fuse = .qkv then m.v.iq else m.q.iq
/-- Input quantizer of the key projection, L208-210. -/
def MhaArr.kIq (m : MhaArr) : ArrQuant := if m.fuse = .qkv ∨ m.fuse = .kv then m.v.iq else m.k.iq

/-- `if en then some q else none`. -/
def onlyIf (en : Bool) (q : ArrQuant) : Option ArrQuant := if en then some q else none

/-- Scores, `einsum(dot_product_equation, key, query)` (mha.py L524), the convolution of SALT (salt.py L142-146), the input quantizer of the softmax
(softmax.py L113-114). -/
def kerasScores (m : MhaArr) (Q K : Arr ℚ) : Option (Arr ℚ) :=
  (run (npEinsum (attnSrcL m.n) (attnTgtL m.n) (attnProdL m.n) K Q)).bind fun S => (convKeras m.conv S).bind (kerasOpt m.smIq)

/-- `QMultiHeadAttention.call` after the projections, mha.py L475-479 and L485-537: scores, softmax with its quantizers, weighted sum, output projection, output
quantizer.  Dropout does nothing at inference, the scale `1/sqrt(key_dim)` is part of `expT` (L339, set to 1 afterwards, L347). -/
def kerasAttend (m : MhaArr) (mask : Option (List ℕ → Bool)) (Q K V : Arr ℚ) : Option (Arr ℚ) :=
  (kerasScores m Q K).bind fun S =>
  (run (m.smOq.keras (kerasSoftmaxM m.stable (attnAxes m.n) m.expT m.invT mask S).norm)).bind fun W =>
  (run (npEinsum (attnProdL m.n) (attnSrcL m.n) (attnTgtL m.n) W V)).bind fun C =>
  ((m.o.layer (some m.o.iq) (onlyIf m.enableOq m.o.oq) m.n 2 m.mo).keras [C]).bind fun Y =>
  kerasOpt (onlyIf m.enableOq m.oq) Y

/-- `QMultiHeadAttention.call` at inference, mha.py L434-483; the output quantizers of the projections are always on (L162, L181, L200). -/
def kerasMha (m : MhaArr) (mask : Option (List ℕ → Bool)) (query value key : Arr ℚ) : Option (Arr ℚ) :=
  ((m.q.layer (onlyIf m.enableIq m.qIq) (some m.q.oq) m.n 1 2).keras [query]).bind fun Q =>
  ((m.k.layer (onlyIf m.enableIq m.kIq) (some m.k.oq) m.n 1 2).keras [key]).bind fun K =>
  ((m.v.layer (onlyIf m.enableIq m.v.iq) (some m.v.oq) m.n 1 2).keras [value]).bind fun V =>
  kerasAttend m mask Q K V

/-! ## The replay -/

/-- `np.split(x, p, axis=-1)`: an exception unless the last axis divides evenly. -/
def npSplitLast (p : ℕ) (x : Arr ℚ) : Option (List (Arr ℚ)) :=
  let w := x.shape.getLastD 0
  if w % p = 0 then
    some ((List.range p).map fun j => ⟨x.shape.dropLast ++ [w / p], fun idx => x.get (idx.dropLast ++ [j * (w / p) + idx.getLastD 0])⟩)
  else none

/-- The bias as numpy array, `np.zeros_like(kernel[0])` without bias, _dais_tracer/layers/attn.py L18-28. -/
def ProjArr.npBias (p : ProjArr) : Arr ℚ :=
  match p.bias with
  | some b => b
  | none => ⟨p.kernel.shape.tail, fun _ => 0⟩

/-- `einsum(equation, x[None], kernel)[0] + bias`, attn.py L38, L52, L59, L64, L68, L72. -/
def replayProjArr (n : ℕ) (kernel bias : Arr ℚ) (x : Arr ℚ) : Option (Arr ℚ) :=
  (npEinsum (projInL n 1) (projKerL n 1 2) (projOutL n 1 2) (npExpand x) kernel).bind fun a => npArith (· + ·) (npFirst a) bias

/-- A projection on its own, L58-60, L63-73. -/
def replaySingle (n : ℕ) (p : ProjArr) (iq : ArrQuant) (x : Arr ℚ) : Option (Arr ℚ) :=
  (run (iq.mirror x)).bind fun y => (run (replayProjArr n p.kernel p.npBias y)).bind fun a => run (p.oq.mirror a)

/-- Fused projections, L30-43 and L45-56: kernels and biases are concatenated, the result is split and quantized. -/
def replayFused (n : ℕ) (ps : List ProjArr) (iq : Option ArrQuant) (x : Arr ℚ) : Option (List (Arr ℚ)) :=
  (mirrorOpt iq x).bind fun y =>
  (npConcat (-1) (ps.map (·.kernel))).bind fun K => (npConcat (-1) (ps.map (·.npBias))).bind fun b =>
  (replayProjArr n K b y).bind fun a => (npSplitLast ps.length a).bind fun parts =>
  (List.zipWith (fun p a => (run (some a)).bind fun a => run (p.oq.mirror a)) ps parts).mapM id

/-- How the layer is called: on one tensor (`mha(x)`, `mha(x, x)`, ...), with key and value the same tensor, or three different tensors.  The tracer
compares objects (L31, L46), which are the same if and only if the tensors are (main.py L55-57). -/
inductive MhaArgs | self | kv | all
  deriving DecidableEq

/-- `_fused_qkv_proj`, _dais_tracer/layers/attn.py L17-75.  `op._query_dense.iq` etc. raise if the input quantizer is disabled (core/base.py L264-268). -/
def replayProjs (m : MhaArr) (a : MhaArgs) (query value key : Arr ℚ) : Option (Arr ℚ × Arr ℚ × Arr ℚ) :=
  match m.fuse with
  | .qkv =>
    if a = .self then
      match replayFused m.n [m.q, m.k, m.v] (onlyIf m.enableIq m.qIq) query with
      | some [Q, K, V] => some (Q, K, V)
      | _ => none
    else none
  | .kv =>
    if a = .all then none else
      match replayFused m.n [m.k, m.v] (onlyIf m.enableIq m.kIq) key with
      | some [K, V] => if m.enableIq then (replaySingle m.n m.q m.qIq query).map fun Q => (Q, K, V) else none
      | _ => none
  | .none =>
    if m.enableIq then
      (replaySingle m.n m.q m.qIq query).bind fun Q => (replaySingle m.n m.k m.kIq key).bind fun K =>
        (replaySingle m.n m.v m.v.iq value).map fun V => (Q, K, V)
    else none

/-- `ReplayMHA._masked_softmax`, `_compute_attention` and the rest of `call`, _dais_tracer/layers/attn.py L111-134, L163-174; `ReplaySALTAttention._masked_softmax`, L213-217, on `query[None]` etc. -/
def replayAttend (m : MhaArr) (mask : Option (List ℕ → Bool)) (low : ℚ) (Q K V : Arr ℚ) : Option (Arr ℚ) :=
  (run ((npEinsum (attnSrcL m.n) (attnTgtL m.n) (attnProdL m.n) (npExpand K) (npExpand Q)).map npFirst)).bind fun S =>
  (convReplay m.conv S).bind fun S => (mirrorOpt m.smIq S).bind fun S =>
  (run (m.smOq.mirror (traceSoftmaxM m.stable (attnAxes m.n) m.expT m.invT mask low S).norm)).bind fun W =>
  (run ((npEinsum (attnProdL m.n) (attnSrcL m.n) (attnTgtL m.n) (npExpand W) (npExpand V)).map npFirst)).bind fun C =>
  ((m.o.layer (some m.o.iq) (onlyIf m.enableOq m.o.oq) m.n 2 m.mo).replay 0 [C]).bind fun Y =>
  mirrorOpt (onlyIf m.enableOq m.oq) Y

/-- `ReplayMHA.call`, _dais_tracer/layers/attn.py L136-174. -/
def replayMhaArr (m : MhaArr) (a : MhaArgs) (mask : Option (List ℕ → Bool)) (low : ℚ) (query value key : Arr ℚ) : Option (Arr ℚ) :=
  (replayProjs m a query value key).bind fun P => replayAttend m mask low P.1 P.2.1 P.2.2

/-! ## Linformer -/

/-- Input letters of the projection along the sequence axes, linformer.py L104-113, all sequence axes attended. -/
def linInL (n : ℕ) : List ℕ := List.range (n + 1)
def linKerL (n : ℕ) : List ℕ := List.range' 1 (n - 1) ++ List.range' (n + 1) (n - 1)
def linOutL (n : ℕ) : List ℕ := 0 :: (List.range' (n + 1) (n - 1) ++ [n])

/-- `_lin_k_proj` / `_lin_v_proj`, linformer.py L72, L115-122: no bias. -/
def linLayer (n : ℕ) (kernel : Arr ℚ) (iq oq : Option ArrQuant) : LLayer :=
  .qlayer (iq.map fun q => [q]) (.einsumDense (linInL n) (linKerL n) (linOutL n) kernel fun _ => 0) false oq

/-! ## SALT -/

/-- A projection along the sequence axis of `QSALTAttention`, built for sequences of length `n`, salt.py L98-126. -/
structure SaltSide where
  cluster : Bool
  n : ℕ
  m : ℕ
  kernel : Arr ℚ
  iq : Option ArrQuant
  oq : Option ArrQuant

/-- `n_k_pad`, `n_v_pad`, L101-113. -/
def SaltSide.pad (s : SaltSide) : ℕ := if s.cluster then saltPad s.n s.m else 0

/-- The projection `'bmnd,mn->bmd'` or `'bnd,nm->bmd'`, L98-99, without bias. -/
def SaltSide.layer (s : SaltSide) : LLayer :=
  .qlayer (s.iq.map fun q => [q])
    (if s.cluster then .einsumDense [0, 1, 2, 3] [1, 2] [0, 1, 3] s.kernel fun _ => 0
      else .einsumDense [0, 1, 2] [1, 3] [0, 3, 2] s.kernel fun _ => 0) false s.oq

/-- `ops.pad(x, [[0, 0], [0, p], [0, 0]])`, L166, L170, and `ops.reshape(x, (-1, m, l, d))`, L167, L171. -/
def saltClusterK (s : SaltSide) (x : Arr ℚ) : Option (Arr ℚ) :=
  match x.shape with
  | [B, n, d] => (run (some ⟨[B, n + s.pad, d], fun idx => if idx.getD 1 0 < n then x.get idx else 0⟩)).bind fun y =>
      run (kerasReshape [s.m, saltLen s.n s.m, d] y)
  | _ => none

/-- `np.pad(x, [[0, p], [0, 0]])` and `np.reshape(x, (m, l, d))`, _dais_tracer/layers/attn.py L236-242. -/
def saltClusterR (s : SaltSide) (x : Arr ℚ) : Option (Arr ℚ) :=
  match x.shape with
  | [n, d] => (run (some ⟨[n + s.pad, d], fun idx => if idx.getD 0 0 < n then x.get idx else 0⟩)).bind fun y =>
      run (npReshape [s.m, saltLen s.n s.m, d] y)
  | _ => none

/-- Key: clustered if `cluster_k_proj`, salt.py L165-167. -/
def SaltSide.keyK (s : SaltSide) (x : Arr ℚ) : Option (Arr ℚ) := (if s.cluster then saltClusterK s x else some x).bind fun y => s.layer.keras [y]
def SaltSide.keyR (s : SaltSide) (fb : ℤ) (x : Arr ℚ) : Option (Arr ℚ) :=
  (if s.cluster then saltClusterR s x else some x).bind fun y => s.layer.replay fb [y]

/-- Value: clustered if something is to be padded, salt.py L169-171. -/
def SaltSide.valueK (s : SaltSide) (x : Arr ℚ) : Option (Arr ℚ) := (if 0 < s.pad then saltClusterK s x else some x).bind fun y => s.layer.keras [y]
def SaltSide.valueR (s : SaltSide) (fb : ℤ) (x : Arr ℚ) : Option (Arr ℚ) :=
  (if 0 < s.pad then saltClusterR s x else some x).bind fun y => s.layer.replay fb [y]

/-! ## Layers of a model with attention -/

/-- Layers: those of `LLayer`, attention, Linformer attention (with its two projections), the latter two with the way they are called, the combined
mask (C79) and the lower bound used by the tracer. -/
inductive XLayer
  | base (l : LLayer)
  | mha (m : MhaArr) (a : MhaArgs) (mask : Option (List ℕ → Bool)) (low : ℚ)
  | linformer (m : MhaArr) (kernelK kernelV : Arr ℚ) (iqK oqK iqV oqV : Option ArrQuant) (a : MhaArgs) (mask : Option (List ℕ → Bool)) (low : ℚ)
  /-- `QSALTAttention`: projections of key and value. -/
  | salt (m : MhaArr) (k v : SaltSide) (a : MhaArgs) (mask : Option (List ℕ → Bool)) (low : ℚ)

/-- The arguments `query`, `value`, `key`. -/
def MhaArgs.split (a : MhaArgs) (xs : List (Arr ℚ)) : Option (Arr ℚ × Arr ℚ × Arr ℚ) :=
  match a, xs with
  | .self, [x] => some (x, x, x)
  | .kv, [x, y] => some (x, y, y)
  | .all, [x, y, z] => some (x, y, z)
  | _, _ => none

/-- A layer on a batch; Linformer: linformer.py L126-154, SALT: salt.py L148-186. -/
def XLayer.keras : XLayer → List (Arr ℚ) → Option (Arr ℚ)
  | .base l => l.keras
  | .mha m a mask _ => fun xs => (a.split xs).bind fun t => kerasMha m mask t.1 t.2.1 t.2.2
  | .linformer m kk kv iqK oqK iqV oqV a mask _ => fun xs => (a.split xs).bind fun t =>
      ((linLayer m.n kk iqK oqK).keras [t.2.2]).bind fun key => ((linLayer m.n kv iqV oqV).keras [t.2.1]).bind fun value =>
        kerasMha m mask t.1 value key
  | .salt m k v a mask _ => fun xs => (a.split xs).bind fun t =>
      (k.keyK t.2.2).bind fun key => (v.valueK t.2.1).bind fun value => kerasMha m mask t.1 value key

/-- Its replay; `ReplayQLinformerAttention.call`, _dais_tracer/layers/attn.py L180-207, `ReplaySALTAttention.call`, L219-254: the projected key and value are new objects. -/
def XLayer.replay (fb : ℤ) : XLayer → List (Arr ℚ) → Option (Arr ℚ)
  | .base l => l.replay fb
  | .mha m a mask low => fun xs => (a.split xs).bind fun t => replayMhaArr m a mask low t.1 t.2.1 t.2.2
  | .linformer m kk kv iqK oqK iqV oqV a mask low => fun xs => (a.split xs).bind fun t =>
      ((linLayer m.n kk iqK oqK).replay fb [t.2.2]).bind fun key => ((linLayer m.n kv iqV oqV).replay fb [t.2.1]).bind fun value =>
        replayMhaArr m .all mask low t.1 value key
  | .salt m k v a mask low => fun xs => (a.split xs).bind fun t =>
      (k.keyR fb t.2.2).bind fun key => (v.valueR fb t.2.1).bind fun value => replayMhaArr m .all mask low t.1 value key

/-! ## Models -/

/-- A node of a functional model with layers of any kind `L`. -/
structure ANode (T L : Type) where
  name : List Char
  isInput : Bool
  requires : List T
  produces : T
  layer : L

/-- The node with the layers evaluated by `K`; one output per node, none after an exception. -/
def ANode.eval {T L : Type} (K : L → List (Arr ℚ) → Option (Arr ℚ)) (n : ANode T L) : GNode T (Arr ℚ) :=
  ⟨n.name, n.isInput, n.requires, [n.produces], fun xs => optList (K n.layer xs)⟩

end HGQ
