import Verif.Model.AttnTArr

/-!
# Attention with a mask per sample

`layers/attn/mha.py`, `layers/softmax.py` as in `Model/MhaArr.lean` and `Model/AttnTArr.lean`, but the combined mask (C79) has a batch axis: padding masks, masks given
with the input.  The traced program is for one sample.
-/
namespace HGQ

/-- `QSoftmax.call` on a batch, softmax.py L114-132 after the input quantizer; `mask b` is the mask of sample `b`, over heads, queries and keys. -/
def kerasSoftmaxB (stable : Bool) (fl : List Bool) (expT invT : List ℕ → ℚ → ℚ) (mask : ℕ → List ℕ → Bool) (x : Arr ℚ) : Arr ℚ :=
  let on : List ℕ → ℚ := fun idx => boolQ (mask (idx.headD 0) idx.tail)
  let z : Arr ℚ := ⟨x.shape, fun idx => on idx * x.get idx - (1 - on idx) * 1000000000⟩
  let y : Arr ℚ := if stable then ⟨x.shape, fun idx => (npReduce (poolMax 0) true (false :: fl) z).get idx - z.get idx⟩ else x
  let e : Arr ℚ := ⟨x.shape, fun idx => expT idx.tail (y.get idx)⟩
  let e : Arr ℚ := ⟨x.shape, fun idx => on idx * e.get idx⟩
  let sums := npReduce List.sum true (false :: fl) e
  ⟨x.shape, fun idx => e.get idx * invT (dropKept true fl idx.tail) (sums.get idx)⟩

/-- `_compute_attention`, mha.py L485-537: scores, softmax, weighted sum. -/
def kerasContextB (m : MhaArr) (mask : ℕ → List ℕ → Bool) (Q K V : Arr ℚ) : Option (Arr ℚ) :=
  (kerasScores m Q K).bind fun S =>
  (run (m.smOq.keras (kerasSoftmaxB m.stable (attnAxes m.n) m.expT m.invT mask S).norm)).bind fun W =>
  run (npEinsum (attnProdL m.n) (attnSrcL m.n) (attnTgtL m.n) W V)

/-- `QMultiHeadAttention.call` at inference, mha.py L434-483. -/
def kerasMhaB (m : MhaArr) (mask : ℕ → List ℕ → Bool) (query value key : Arr ℚ) : Option (Arr ℚ) :=
  ((m.q.layer (onlyIf m.enableIq m.qIq) (some m.q.oq) m.n 1 2).keras [query]).bind fun Q =>
  ((m.k.layer (onlyIf m.enableIq m.kIq) (some m.k.oq) m.n 1 2).keras [key]).bind fun K =>
  ((m.v.layer (onlyIf m.enableIq m.v.iq) (some m.v.oq) m.n 1 2).keras [value]).bind fun V =>
  (kerasContextB m mask Q K V).bind fun C =>
  ((m.o.layer (some m.o.iq) (onlyIf m.enableOq m.o.oq) m.n 2 m.mo).keras [C]).bind fun Y =>
  kerasOpt (onlyIf m.enableOq m.oq) Y

/-- The same with the projections of `QMultiHeadAttentionT`, mha.py L434-483, L604-731. -/
def MhaTArr.kerasB (m : MhaTArr) (mask : ℕ → List ℕ → Bool) (query value key : Arr ℚ) : Option (Arr ℚ) :=
  (m.qLayer.keras query).bind fun Q => (m.kLayer.keras key).bind fun K => (m.vLayer.keras value).bind fun V =>
  (kerasContextB m.core mask Q K V).bind fun C => (m.oLayer.keras C).bind fun Y => kerasOpt (onlyIf m.enableOq m.oq) Y

/-- Layers of a model whose attention layers have a mask per sample. -/
inductive SLayer
  | base (l : VLayer)
  | mha (m : MhaArr) (a : MhaArgs) (mask : ℕ → List ℕ → Bool) (low : ℚ)
  | linformer (m : MhaArr) (kernelK kernelV : Arr ℚ) (iqK oqK iqV oqV : Option ArrQuant) (a : MhaArgs) (mask : ℕ → List ℕ → Bool) (low : ℚ)
  | salt (m : MhaArr) (k v : SaltSide) (a : MhaArgs) (mask : ℕ → List ℕ → Bool) (low : ℚ)
  | mhaT (m : MhaTArr) (r : Ranges4) (a : MhaArgs) (mask : ℕ → List ℕ → Bool) (low : ℚ)
  | linformerT (m : MhaTArr) (r : Ranges4) (k v : LinProj) (a : MhaArgs) (mask : ℕ → List ℕ → Bool) (low : ℚ)

/-- A layer on a batch; linformer.py L126-154, salt.py L148-186. -/
def SLayer.keras : SLayer → List (Arr ℚ) → Option (Arr ℚ)
  | .base l => l.keras
  | .mha m a mask _ => fun xs => (a.split xs).bind fun t => kerasMhaB m mask t.1 t.2.1 t.2.2
  | .linformer m kk kv iqK oqK iqV oqV a mask _ => fun xs => (a.split xs).bind fun t =>
      ((linLayer m.n kk iqK oqK).keras [t.2.2]).bind fun key => ((linLayer m.n kv iqV oqV).keras [t.2.1]).bind fun value =>
        kerasMhaB m mask t.1 value key
  | .salt m k v a mask _ => fun xs => (a.split xs).bind fun t =>
      (k.keyK t.2.2).bind fun key => (v.valueK t.2.1).bind fun value => kerasMhaB m mask t.1 value key
  | .mhaT m _ a mask _ => fun xs => (a.split xs).bind fun t => m.kerasB mask t.1 t.2.1 t.2.2
  | .linformerT m _ k v a mask _ => fun xs => (a.split xs).bind fun t =>
      ((k.layer m.n).keras [t.2.2]).bind fun key => ((v.layer m.n).keras [t.2.1]).bind fun value => m.kerasB mask t.1 value key

/-- The layer for batches whose samples are the samples `σ` of the given batches, in this order: the same weights, their masks. -/
def SLayer.sel (σ : List ℕ) : SLayer → SLayer
  | .base l => .base l
  | .mha m a mask low => .mha m a (fun j => mask (σ.getD j 0)) low
  | .linformer m kk kv iqK oqK iqV oqV a mask low => .linformer m kk kv iqK oqK iqV oqV a (fun j => mask (σ.getD j 0)) low
  | .salt m k v a mask low => .salt m k v a (fun j => mask (σ.getD j 0)) low
  | .mhaT m r a mask low => .mhaT m r a (fun j => mask (σ.getD j 0)) low
  | .linformerT m r k v a mask low => .linformerT m r k v a (fun j => mask (σ.getD j 0)) low

/-- The layer with the mask of sample `b`: what is traced or converted for this sample (_dais_tracer/layers/attn.py L136-174, the plugin's attn.py L181-226 take the mask of
one sample). -/
def SLayer.at (b : ℕ) : SLayer → VLayer
  | .base l => l
  | .mha m a mask low => .base (.base (.base (.base (.mha m a (some (mask b)) low))))
  | .linformer m kk kv iqK oqK iqV oqV a mask low => .base (.base (.base (.base (.linformer m kk kv iqK oqK iqV oqV a (some (mask b)) low))))
  | .salt m k v a mask low => .base (.base (.base (.base (.salt m k v a (some (mask b)) low))))
  | .mhaT m r a mask low => .mhaT m r a (some (mask b)) low
  | .linformerT m r k v a mask low => .linformerT m r k v a (some (mask b)) low

end HGQ
