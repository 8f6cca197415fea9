import Verif.Model.EinsumTArr

/-!
# Attention with table projections: Keras and the Alkaid plugin

`QMultiHeadAttentionT` (`layers/attn/mha.py` L541-760) and `QLinformerAttentionT` (`layers/attn/linformer.py` L194-254) on batches; `_QMHAT`, `_QLinformerAttentionT`
(`_alkaid_keras_plugin/attn.py` L178-232, L265-266) on arrays with a batch axis of size 1.
-/
namespace HGQ

/-- Weights and quantizers of a projection made by `_make_table_dense`, mha.py L606-639. -/
structure ProjT where
  dim : ℕ → ℕ
  hidden : List SubDense
  last : SubDense
  bn : Option BnArr
  iq : ArrQuant
  toq : ArrQuant
  oq : ArrQuant

/-- The projection with equation `inL,kerL->outL`; normalized axes are the bias axes or the kernel labels of the output (table/dense.py L296-299), for every equation used
here the output labels that are not input labels.  No activation. -/
def ProjT.layer (p : ProjT) (inL kerL outL : List ℕ) (enableIq enableOq : Bool) : EinsumTArr where
  e := ⟨inL, kerL, outL⟩
  dim := p.dim
  hidden := p.hidden
  last := p.last
  bn := p.bn.map fun n => { n with norm := kerL.filter fun c => c ∈ outL }
  enableIq := enableIq
  iq := p.iq
  toq := p.toq
  relu := false
  oq := onlyIf enableOq p.oq

/-- `_build_proj_equation` with `n` free, `k` bound and `m` output axes, mha.py L655-683, L718-723. -/
def ProjT.proj (p : ProjT) (n k m : ℕ) (enableIq enableOq : Bool) : EinsumTArr := p.layer (projInL n k) (projKerL n k m) (projOutL n k m) enableIq enableOq

/-- A built `QMultiHeadAttentionT`; `fuse` is always `'none'` (mha.py L602). -/
structure MhaTArr where
  n : ℕ
  mo : ℕ
  enableIq : Bool
  enableOq : Bool
  q : ProjT
  k : ProjT
  v : ProjT
  o : ProjT
  stable : Bool
  expT : List ℕ → ℚ → ℚ
  invT : List ℕ → ℚ → ℚ
  smIq : Option ArrQuant
  smOq : ArrQuant
  oq : ArrQuant

/-- No projection. -/
def noProj (q : ArrQuant) : ProjArr := ⟨⟨[], fun _ => 0⟩, none, q, q⟩

/-- The attention of `QMultiHeadAttention`, inherited by `QMultiHeadAttentionT`: only the scores and the softmax are used, not the projections. -/
def MhaTArr.core (m : MhaTArr) : MhaArr :=
  ⟨m.n, m.mo, m.enableIq, m.enableOq, .none, noProj m.oq, noProj m.oq, noProj m.oq, noProj m.oq, m.stable, m.expT, m.invT, m.smIq, m.smOq, m.oq, none⟩

/-- The query projection; L657-664. -/
def MhaTArr.qLayer (m : MhaTArr) : EinsumTArr := m.q.proj m.n 1 2 m.enableIq true
/-- L665-678. -/
def MhaTArr.kLayer (m : MhaTArr) : EinsumTArr := m.k.proj m.n 1 2 m.enableIq true
/-- L679-687. -/
def MhaTArr.vLayer (m : MhaTArr) : EinsumTArr := m.v.proj m.n 1 2 m.enableIq true
/-- L709-731. -/
def MhaTArr.oLayer (m : MhaTArr) : EinsumTArr := m.o.proj m.n 2 m.mo true m.enableOq

/-- Scores, softmax and weighted sum, `_compute_attention` mha.py L485-537. -/
def kerasContext (m : MhaArr) (mask : Option (List ℕ → Bool)) (Q K V : Arr ℚ) : Option (Arr ℚ) :=
  (kerasScores m Q K).bind fun S =>
  (run (m.smOq.keras (kerasSoftmaxM m.stable (attnAxes m.n) m.expT m.invT mask S).norm)).bind fun W =>
  run (npEinsum (attnProdL m.n) (attnSrcL m.n) (attnTgtL m.n) W V)

/-- `QMultiHeadAttention.call` with the projections of `QMultiHeadAttentionT`, mha.py L434-483: the output projection has its own output quantizer besides the
layer's (L478-479, L729). -/
def MhaTArr.keras (m : MhaTArr) (mask : Option (List ℕ → Bool)) (query value key : Arr ℚ) : Option (Arr ℚ) :=
  (m.qLayer.keras query).bind fun Q => (m.kLayer.keras key).bind fun K => (m.vLayer.keras value).bind fun V =>
  (kerasContext m.core mask Q K V).bind fun C => (m.oLayer.keras C).bind fun Y => kerasOpt (onlyIf m.enableOq m.oq) Y

/-- Ranges known at conversion for the four tables. -/
structure Ranges4 where
  q : LhsArr
  k : LhsArr
  v : LhsArr
  o : LhsArr

/-- `_compute_attention` of the plugin, attn.py L114-136. -/
def alkaidContext (m : MhaArr) (mask : Option (List ℕ → Bool)) (low : ℚ) (Q K V : Arr ℚ) : Option (Arr ℚ) :=
  (run (npEinsum (attnSrcL m.n) (attnTgtL m.n) (attnProdL m.n) K Q)).bind fun S => (alkaidOpt m.smIq S).bind fun S =>
  (run (alkaidSoftmaxM m.stable (attnAxes m.n) m.expT m.invT mask low S)).bind fun A => (run (m.smOq.alkaid A)).bind fun W =>
  run (npEinsum (attnProdL m.n) (attnSrcL m.n) (attnTgtL m.n) W V)

/-- `_QMHAT.call` with `_table_qkv_proj`, attn.py L181-226. -/
def MhaTArr.alkaid (m : MhaTArr) (r : Ranges4) (mask : Option (List ℕ → Bool)) (low : ℚ) (query value key : Arr ℚ) : Option (Arr ℚ) :=
  (m.qLayer.alkaid r.q query).bind fun Q => (m.kLayer.alkaid r.k key).bind fun K => (m.vLayer.alkaid r.v value).bind fun V =>
  (alkaidContext m.core mask low Q K V).bind fun C => (m.oLayer.alkaid r.o C).bind fun Y => alkaidOpt (onlyIf m.enableOq m.oq) Y

/-- Projection of key or value along the sequence, `lin_kv_proj_mode`, linformer.py L59-72. -/
inductive LinProj
  | dense (kernel : Arr ℚ) (iq oq : Option ArrQuant)
  | table (p : ProjT) (enableIq enableOq : Bool) (v : LhsArr)

/-- As a layer; equation linformer.py L104-113. -/
def LinProj.layer (n : ℕ) : LinProj → WLayer
  | .dense kernel iq oq => .base (.base (.base (.base (linLayer n kernel iq oq))))
  | .table p enableIq enableOq v => .einsumT (p.layer (linInL n) (linKerL n) (linOutL n) enableIq enableOq) v

/-- All layers with handlers in the plugin. -/
inductive VLayer
  | base (l : WLayer)
  | mhaT (m : MhaTArr) (r : Ranges4) (a : MhaArgs) (mask : Option (List ℕ → Bool)) (low : ℚ)
  | linformerT (m : MhaTArr) (r : Ranges4) (k v : LinProj) (a : MhaArgs) (mask : Option (List ℕ → Bool)) (low : ℚ)

def VLayer.keras : VLayer → List (Arr ℚ) → Option (Arr ℚ)
  | .base l => l.keras
  | .mhaT m _ a mask _ => fun xs => (a.split xs).bind fun t => m.keras mask t.1 t.2.1 t.2.2
  | .linformerT m _ k v a mask _ => fun xs => (a.split xs).bind fun t =>
      ((k.layer m.n).keras [t.2.2]).bind fun key => ((v.layer m.n).keras [t.2.1]).bind fun value => m.keras mask t.1 value key

/-- `_QLinformerAttentionT.call` is the one of `_QLinformerAttention`, whose `super().call` is `_QMHAT.call`. -/
def VLayer.alkaid : VLayer → List (Arr ℚ) → Option (Arr ℚ)
  | .base l => l.alkaid
  | .mhaT m r a mask low => fun xs => (a.split xs).bind fun t => m.alkaid r mask low t.1 t.2.1 t.2.2
  | .linformerT m r k v a mask low => fun xs => (a.split xs).bind fun t =>
      ((k.layer m.n).alkaid [t.2.2]).bind fun key => ((v.layer m.n).alkaid [t.2.1]).bind fun value => m.alkaid r mask low t.1 value key

end HGQ
