import Verif.Model.Alkaid
import Verif.Model.TableArr

/-!
# Attention and table layers in the Alkaid plugin

`src/hgq/_alkaid_keras_plugin/attn.py` and `table.py` on arrays with a batch axis of size 1; trusted as in `Alkaid.lean`: the inherited `ReplayDense`, `ReplayConv` and the
activation applied by the external `ReplayOperationBase.__call__`.
-/
namespace HGQ

/-- `mirror_quantizer(q, x) if q is not None else x`, _base.py L15-28, attn.py L36, L44-46. -/
def alkaidOpt (q : Option ArrQuant) (x : Arr ℚ) : Option (Arr ℚ) :=
  match q with
  | some q => run (q.alkaid x)
  | none => some x

/-- `_QSoftmax.call`, activation.py L31-52: `low` is the smallest lower bound of the inputs minus one (L40); the mask has a batch axis of size 1. -/
def alkaidSoftmaxM (stable : Bool) (fl : List Bool) (expT invT : List ℕ → ℚ → ℚ) (mask : Option (List ℕ → Bool)) (low : ℚ) (x : Arr ℚ) : Option (Arr ℚ) :=
  let z : Arr ℚ := match mask with
    | some m => ⟨x.shape, fun idx => if m idx.tail then x.get idx else low⟩
    | none => x
  let inputs := if stable then npBin (· - ·) (npReduce (poolMax 0) true (false :: fl) z) z else some x
  inputs.bind fun y =>
    let e : Arr ℚ := ⟨y.shape, fun idx => expT idx.tail (y.get idx)⟩
    let e : Arr ℚ := match mask with
      | some m => ⟨y.shape, fun idx => boolQ (m idx.tail) * e.get idx⟩
      | none => e
    let sums := npReduce List.sum true (false :: fl) e
    let divisor : Arr ℚ := ⟨sums.shape, fun idx => invT (dropKept true fl idx.tail) (sums.get idx)⟩
    npBin (· * ·) e divisor

/-! ## Projections -/

/-- `np.einsum(equation, x, kernel) + bias`, attn.py L41, L55, L62, L67, L71, L75. -/
def alkaidProj (n : ℕ) (kernel bias : Arr ℚ) (x : Arr ℚ) : Option (Arr ℚ) :=
  (npEinsum (projInL n 1) (projKerL n 1 2) (projOutL n 1 2) x kernel).bind fun a => npArith (· + ·) a bias

/-- A projection on its own, L61-63, L66-76. -/
def alkaidSingle (n : ℕ) (p : ProjArr) (iq : ArrQuant) (x : Arr ℚ) : Option (Arr ℚ) :=
  (run (iq.alkaid x)).bind fun y => (run (alkaidProj n p.kernel p.npBias y)).bind fun a => run (p.oq.alkaid a)

/-- Fused projections, L33-46, L48-59. -/
def alkaidFused (n : ℕ) (ps : List ProjArr) (iq : Option ArrQuant) (x : Arr ℚ) : Option (List (Arr ℚ)) :=
  (alkaidOpt iq x).bind fun y =>
  (npConcat (-1) (ps.map (·.kernel))).bind fun K => (npConcat (-1) (ps.map (·.npBias))).bind fun b =>
  (alkaidProj n K b y).bind fun a => (npSplitLast ps.length a).bind fun parts =>
  (List.zipWith (fun p a => (run (some a)).bind fun a => run (p.oq.alkaid a)) ps parts).mapM id

/-- `_fused_qkv_proj`, attn.py L20-78; `op._query_dense.iq` etc. raise if the input quantizer is disabled (core/base.py L264-268). -/
def alkaidProjs (m : MhaArr) (a : MhaArgs) (query value key : Arr ℚ) : Option (Arr ℚ × Arr ℚ × Arr ℚ) :=
  match m.fuse with
  | .qkv =>
    if a = .self then
      match alkaidFused m.n [m.q, m.k, m.v] (onlyIf m.enableIq m.qIq) query with
      | some [Q, K, V] => some (Q, K, V)
      | _ => none
    else none
  | .kv =>
    if a = .all then none else
      match alkaidFused m.n [m.k, m.v] (onlyIf m.enableIq m.kIq) key with
      | some [K, V] => if m.enableIq then (alkaidSingle m.n m.q m.qIq query).map fun Q => (Q, K, V) else none
      | _ => none
  | .none =>
    if m.enableIq then
      (alkaidSingle m.n m.q m.qIq query).bind fun Q => (alkaidSingle m.n m.k m.kIq key).bind fun K =>
        (alkaidSingle m.n m.v m.v.iq value).map fun V => (Q, K, V)
    else none

/-! ## Attention -/

/-- `_QConv` on the scores (core.py L44-45): quantizers of the plugin around the inherited convolution, which keeps `data_format`. -/
def CfConv.alkaid (c : CfConv) (x : Arr ℚ) : Option (Arr ℚ) :=
  (alkaidOpt c.iq x).bind fun y => (run (npMoveaxis 1 (-1) y)).bind fun y => (run (c.core.keras [y])).bind fun z =>
    (run (npMoveaxis (-1) 1 z)).bind (alkaidOpt c.oq)

/-- `ReplaySALTAttention._masked_softmax`, attn.py L272-276: with or without the convolution. -/
def convAlkaid (c : Option CfConv) (x : Arr ℚ) : Option (Arr ℚ) :=
  match c with
  | some c => c.alkaid x
  | none => some x

/-- `_compute_attention`, `_masked_softmax` (with the quantizers of the softmax, _base.py L50-78) and the rest of `call`, attn.py L114-136, L167-171. -/
def alkaidAttend (m : MhaArr) (mask : Option (List ℕ → Bool)) (low : ℚ) (Q K V : Arr ℚ) : Option (Arr ℚ) :=
  (run (npEinsum (attnSrcL m.n) (attnTgtL m.n) (attnProdL m.n) K Q)).bind fun S =>
  (convAlkaid m.conv S).bind fun S => (alkaidOpt m.smIq S).bind fun S =>
  (run (alkaidSoftmaxM m.stable (attnAxes m.n) m.expT m.invT mask low S)).bind fun A => (run (m.smOq.alkaid A)).bind fun W =>
  (run (npEinsum (attnProdL m.n) (attnSrcL m.n) (attnTgtL m.n) W V)).bind fun C =>
  ((m.o.layer (some m.o.iq) (onlyIf m.enableOq m.o.oq) m.n 2 m.mo).alkaid [C]).bind fun Y =>
  alkaidOpt (onlyIf m.enableOq m.oq) Y

/-- `_QMHA.call`, attn.py L138-175; `mask` is what `_compute_attention_mask` (L86-112) gives. -/
def alkaidMha (m : MhaArr) (a : MhaArgs) (mask : Option (List ℕ → Bool)) (low : ℚ) (query value key : Arr ℚ) : Option (Arr ℚ) :=
  (alkaidProjs m a query value key).bind fun P => alkaidAttend m mask low P.1 P.2.1 P.2.2

/-- `np.pad(x, [[0, 0], [0, p], [0, 0]])` and `np.reshape(x, (-1, m, l, d))`, attn.py L295-301; the batch axis has size 1. -/
def saltClusterA (s : SaltSide) (x : Arr ℚ) : Option (Arr ℚ) :=
  match x.shape with
  | [B, n, d] => (run (some ⟨[B, n + s.pad, d], fun idx => if idx.getD 1 0 < n then x.get idx else 0⟩)).bind fun y =>
      run (npReshape [1, s.m, saltLen s.n s.m, d] y)
  | _ => none

/-- Key and value of `ReplaySALTAttention.call`, attn.py L295-303. -/
def SaltSide.keyA (s : SaltSide) (x : Arr ℚ) : Option (Arr ℚ) := (if s.cluster then saltClusterA s x else some x).bind fun y => s.layer.alkaid [y]
def SaltSide.valueA (s : SaltSide) (x : Arr ℚ) : Option (Arr ℚ) := (if 0 < s.pad then saltClusterA s x else some x).bind fun y => s.layer.alkaid [y]

/-- Attention layers: `_QMHA`, `_QLinformerAttention` (attn.py L229-262), `ReplaySALTAttention` (L278-313): the projected key and value are new objects. -/
def XLayer.alkaid : XLayer → List (Arr ℚ) → Option (Arr ℚ)
  | .base l => l.alkaid
  | .mha m a mask low => fun xs => (a.split xs).bind fun t => alkaidMha m a mask low t.1 t.2.1 t.2.2
  | .linformer m kk kv iqK oqK iqV oqV a mask low => fun xs => (a.split xs).bind fun t =>
      ((linLayer m.n kk iqK oqK).alkaid [t.2.2]).bind fun key => ((linLayer m.n kv iqV oqV).alkaid [t.2.1]).bind fun value =>
        alkaidMha m .all mask low t.1 value key
  | .salt m k v a mask low => fun xs => (a.split xs).bind fun t =>
      (k.keyA t.2.2).bind fun key => (v.valueA t.2.1).bind fun value => alkaidMha m .all mask low t.1 value key

/-! ## Tables -/

/-- The table at an index of the sample, table.py L91-156: widths of `toq` are broadcast from the right to `(1,) + out.shape`, that is to two axes of size 1 and the
shape of the sample. -/
def TableArr.alkaidTable (t : TableArr) (v : LhsArr) (rank : ℕ) (idx : List ℕ) : List ℚ :=
  let pad := 1 + rank - t.toq.ws.length
  let j := (bcastIdx (List.replicate pad 1 ++ t.toq.ws) (0 :: 0 :: idx)).drop pad
  (List.range (v.size idx)).map fun p =>
    quantize t.toq.rm t.toq.om (t.toq.k j) (int32 (t.toq.i j)) (int32 (t.toq.f j))
      (t.net (pairIn idx) (pairOut idx) (linspaceQ (v.l idx) (v.h idx) (v.size idx) p))

/-- `_QDenseTable.call`, table.py L84-162: the input quantizer only if enabled (L88). -/
def TableArr.alkaidCall (t : TableArr) (v : LhsArr) (x : Arr ℚ) : Option (Arr ℚ) :=
  if x.shape.getLastD 0 = t.nIn then
    (alkaidOpt (onlyIf t.enableIq t.iq) (tableBroadcast t.nOut x).norm).bind fun y =>
      if bcastOk (List.replicate (1 + y.shape.length - t.toq.ws.length) 1 ++ t.toq.ws) (1 :: y.shape) then
        some (tableReduce (Arr.norm ⟨y.shape, fun idx => lookupQ v idx.tail (t.alkaidTable v y.shape.length idx.tail) (y.get idx)⟩)).norm
      else none
  else none

/-- `QLayerMixin.__call__`, _base.py L50-78, with the input quantizer handled: activation (external), output quantizer. -/
def TableArr.alkaid (t : TableArr) (v : LhsArr) (x : Arr ℚ) : Option (Arr ℚ) :=
  (t.alkaidCall v x).bind fun r => alkaidOpt t.oq (reluKeras t.relu r)

/-- Layers of models with tables; `_QConvTable.call`, table.py L269-283 (`extract_patches` is an external function, taken to be that of Keras). -/
def YLayer.alkaid : YLayer → List (Arr ℚ) → Option (Arr ℚ)
  | .base l => l.alkaid
  | .denseT t v => single (t.alkaid v)
  | .convT P osp geo t v => single fun x => (run (kerasPatches P osp geo x)).bind (t.alkaid v)

end HGQ
