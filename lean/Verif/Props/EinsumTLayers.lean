import Verif.Props.EinsumTAlkaid

/-!
# C111: `QEinsumDenseT` in models, in Keras and converted by the Alkaid plugin
-/
namespace HGQ
open Spec

/-- A table with one function for all entries. -/
def oneTable (toq : ArrQuant) (g : ℚ → ℚ) : TableArr := ⟨0, 0, false, toq, fun _ _ => g, toq, false, none⟩

theorem einsumT_alkaid {B b : ℕ} (hb : b < B) (t : EinsumTArr) (v : LhsArr) (x : Arr ℚ) (hok : EinsumTAlkaid t v x) (hx : IsBatch B x) : Ak B b t.keras (t.alkaid v) x := by
  intro out h
  obtain ⟨ht, hord, hiq, ⟨tw, tsc, taf, trg⟩, hoq, hgrid⟩ := hok
  obtain ⟨o1, o2⟩ := einsumT_batch (one_lt hb) t ⟨ht, hiq.1, tw, ok_batch hoq⟩ x hx out h
  refine ⟨o1, ?_⟩
  rw [einsumT_keras_eq t ht x hx] at h
  split at h
  swap
  · simp at h
  rename_i ha
  obtain ⟨y, hy, -⟩ := Option.bind_eq_some_iff.1 h
  obtain ⟨a1, a2⟩ := broadcast_pick (one_lt hb) t ht x hx ha
  rw [einsumT_keras_eq t ht (pick [b] x) (pick_batch [b] x), if_pos a1] at o2
  obtain ⟨y', hy', o2⟩ := Option.bind_eq_some_iff.1 o2
  obtain ⟨z', hz', o2⟩ := Option.bind_eq_some_iff.1 o2
  obtain ⟨r', hr', o3⟩ := Option.bind_eq_some_iff.1 o2
  have hys : y.shape = B :: t.e.presum.tail.map t.dim := by rw [quant_shape hy, ← presum_dims ht]; exact (accepts_shape ht hx ha).1
  have hys' : y'.shape = t.e.presum.map (batchDim t 1) := by
    rw [quant_shape hy']; exact (accepts_shape ht (pick_batch [b] x) a1).1
  have hyy : y' = pick [b] y := by
    obtain ⟨-, y2⟩ := bw_opt (one_lt hb) (onlyIf t.enableIq t.iq) (mem_onlyIf hiq.1) (t.broadcast x).norm
      ⟨_, by rw [← presum_dims ht B]; exact (accepts_shape ht hx ha).1⟩ y hy
    rw [← a2, hy'] at y2
    exact Option.some.inj y2
  obtain ⟨z0, hz0, rfl⟩ := Option.map_eq_some_iff.1 hz'
  unfold ArrQuant.keras at hz0
  split at hz0
  swap
  · simp at hz0
  rename_i hbcast
  have hbc : bcastOk t.toq.ws y'.shape = true := hbcast
  have hwl : t.toq.ws.length = y'.shape.length := bcastOk_length hbc
  obtain rfl := Option.some.inj hz0
  have hpad : 1 + y'.shape.length - t.toq.ws.length = 1 := by omega
  have hcond : bcastOk (List.replicate (1 + y'.shape.length - t.toq.ws.length) 1 ++ t.toq.ws) (1 :: y'.shape) = true := by
    rw [hpad]
    simp [bcastOk]
    exact hbc
  have hall : (indices y'.shape).all (fun idx => (t.pairFn idx).isSome) = true := by
    rw [List.all_eq_true]
    intro idx hidx
    rw [pairFn_eq ht hord 1 idx (by rw [← hys']; exact List.Forall₂.flip ((mem_indices _ _).1 hidx))]
    rfl
  unfold EinsumTArr.alkaid EinsumTArr.alkaidCall
  rw [if_pos a1, opt_alkaid _ (onlyIf_ok hiq) _ _ hy', Option.bind_some, if_pos ⟨hcond, hall⟩]
  have hzz : Arr.norm ⟨y'.shape, fun idx => lookupQ v idx.tail (t.alkaidTable v y'.shape.length idx.tail ((t.pairFn idx).getD id)) (y'.get idx)⟩ =
      Arr.norm ⟨(Arr.norm ⟨y'.shape, fun idx => preK t idx (y'.get idx)⟩).shape, fun idx => quantizerCall t.toq.scaler t.toq.affine none .false
        (quantize t.toq.rm t.toq.om (t.toq.k (bcastIdx t.toq.ws idx)) (t.toq.i (bcastIdx t.toq.ws idx)) (t.toq.f (bcastIdx t.toq.ws idx)))
        ((Arr.norm ⟨y'.shape, fun idx => preK t idx (y'.get idx)⟩).get idx)⟩ := by
    refine norm_same ⟨rfl, fun idx hidx => ?_⟩
    have hidx1 : InShape idx y'.shape := hidx
    have hl1 : idx.length = y'.shape.length := List.Forall₂.length_eq hidx1
    beta_reduce
    simp only
    rw [norm_get (by exact hidx1), pairFn_eq ht hord 1 idx (by rw [← hys']; exact hidx1)]
    have hidx' : InShape idx (1 :: t.e.presum.tail.map t.dim) := by rw [← presum_dims ht, ← hys']; exact hidx1
    cases hidx' with
    | @cons j _ idx _ hj hi =>
      have hj0 : j = 0 := by omega
      subst hj0
      have hk := hgrid y hy b idx (by rw [hys]; exact .cons hb hi)
      have hyv : y'.get (0 :: idx) = y.get (b :: idx) := by rw [hyy, pick_get [b] y 0 (by simp)]; rfl
      rw [← hyv] at hk
      have hyl : y'.shape.length = 1 + idx.length := by rw [← hl1]; simp; omega
      have := lookup_alkaid (oneTable t.toq (preK t (0 :: idx))) v idx _ hk (by show t.toq.ws.length = _; rw [hwl, hyl])
      simp only [Option.getD_some, List.tail_cons, hyl]
      refine this.trans ?_
      simp only [oneTable]
      rw [int32_id (trg _).1.1 (trg _).1.2, int32_id (trg _).2.1 (trg _).2.2]
      rcases tsc with hsc | hsc <;> simp [quantizerCall, taf, hsc]
  rw [hzz]
  rw [show t.reduce _ = some r' from hr', Option.map_some, Option.bind_some]
  exact opt_alkaid t.oq hoq _ _ o3

/-! ## Layers and models -/

/-- Layers: as before; a table layer as built, with quantizers that are constant along the batch. -/
def Spec.WLayerBatch : WLayer → List (Arr ℚ) → Prop
  | .base l, xs => ZLayerBatch l xs
  | .einsumT t _, _ => EinsumTBatch t

/-- Layers. -/
def Spec.WLayerAlkaid : WLayer → List (Arr ℚ) → Prop
  | .base l, xs => ZLayerAlkaid l xs
  | .einsumT t v, xs => ∀ x ∈ xs, EinsumTAlkaid t v x

/-- **C104 (einsum table layers, partial).** On any selection of samples of a batch, a `QEinsumDenseT` layer and the layers of C104 give the selection of what they
give on the whole batch. -/
theorem C104_einsum_tables_partial {B : ℕ} {σ : List ℕ} (hσ : ∀ j ∈ σ, j < B) (l : WLayer) (xs : List (Arr ℚ)) (hok : WLayerBatch l xs) (hB : ∀ x ∈ xs, IsBatch B x) :
    Batchwise B σ l.keras xs := by
  cases l with
  | base l => exact C104_recurrent_partial hσ l xs hok hB
  | einsumT t v =>
    intro out h
    match xs, hB, h with
    | [x], hB, h => exact einsumT_batch hσ t hok x (hB x (by simp)) out h
    | [], _, h => simp [WLayer.keras, single] at h
    | _ :: _ :: _, _, h => simp [WLayer.keras, single] at h

/-- **C104 (models with einsum table layers, partial).** As `C104_batching_partial`. -/
theorem C104_einsum_tables_models_partial {T : Type} [DecidableEq T] (B : ℕ) (σ : List ℕ) (hσ : ∀ j ∈ σ, j < B) (inputs : List (T × Arr ℚ))
    (byDepth : ℕ → List (ANode T WLayer)) (D : ℕ) (outputs : List T) (kval : T → Arr ℚ) (hin : ∀ p ∈ inputs, IsBatch B p.2)
    (hacyc : DepthOrdered inputs (evalGraph WLayer.keras byDepth) D) (hsol : Solves inputs (parseModel (evalGraph WLayer.keras byDepth) D) kval)
    (hok : ∀ d ≤ D, ∀ n ∈ byDepth d, n.isInput = false → WLayerBatch n.layer (n.requires.map kval))
    (hout : ∀ t ∈ outputs, t ∈ inputs.map (·.1) ∨ ∃ d ≤ D, ∃ n ∈ byDepth d, n.isInput = false ∧ t = n.produces) :
    traceOutputs inputs (parseModel (evalGraph WLayer.keras byDepth) D) outputs = some (outputs.map kval) ∧
    traceOutputs (inputs.map fun p => (p.1, pick σ p.2)) (parseModel (evalGraph WLayer.keras byDepth) D) outputs =
      some (outputs.map fun t => pick σ (kval t)) := by
  refine ⟨(C45_graph_replay _ _ D outputs _ hacyc hsol ?_).1, graph_pick WLayer.keras WLayer.keras WLayerBatch
    (fun l xs hl hB => C104_einsum_tables_partial hσ l xs hl hB) inputs byDepth D outputs kval hin hacyc hsol hok hout⟩
  intro t ht
  rcases hout t ht with h | ⟨d, hd, n, hn, hi, rfl⟩
  · exact Or.inl h
  · exact Or.inr ⟨n.eval WLayer.keras, (mem_parseModel _ _ _).2 ⟨d, hd, List.mem_map_of_mem hn⟩, hi, by simp [ANode.eval]⟩

/-- **C111 (layers, partial).** For `QEinsumDenseT` and the layers of C105, C109 and C110: whenever Keras computes the layer on a batch, the plugin's conversion on each
sample of it gives exactly that sample of the result.  Missing for `QEinsumDenseT`: what `EinsumTAlkaid` excludes, in particular biases and normalized axes that are
not in the order of the input labels followed by the kernel labels (there it is false, below). -/
theorem C111_layer_partial {B b : ℕ} (hb : b < B) (l : WLayer) (xs : List (Arr ℚ)) (hok : WLayerAlkaid l xs) (hB : ∀ x ∈ xs, IsBatch B x) (out : Arr ℚ)
    (h : l.keras xs = some out) : IsBatch B out ∧ l.alkaid (xs.map (pick [b])) = some (pick [b] out) := by
  cases l with
  | base l => exact C110_layer_partial hb l xs hok hB out h
  | einsumT t v =>
    match xs, hok, hB, h with
    | [x], hok, hB, h => exact einsumT_alkaid hb t v x (hok x (by simp)) (hB x (by simp)) out h
    | [], _, _, h => simp [WLayer.keras, single] at h
    | _ :: _ :: _, _, _, h => simp [WLayer.keras, single] at h

/-- **C111 (partial).** For every functional model (any acyclic graph) of `QEinsumDenseT` layers and the layers of C105, C109 and C110, every batch and every sample of
it: the conversion by the plugin gives exactly the sample of the Keras predictions. -/
theorem C111_end_to_end_partial {T : Type} [DecidableEq T] (B b : ℕ) (hb : b < B) (inputs : List (T × Arr ℚ)) (byDepth : ℕ → List (ANode T WLayer)) (D : ℕ)
    (outputs : List T) (kval : T → Arr ℚ) (hin : ∀ p ∈ inputs, IsBatch B p.2)
    (hacyc : DepthOrdered inputs (evalGraph WLayer.keras byDepth) D) (hsol : Solves inputs (parseModel (evalGraph WLayer.keras byDepth) D) kval)
    (hok : ∀ d ≤ D, ∀ n ∈ byDepth d, n.isInput = false → WLayerAlkaid n.layer (n.requires.map kval))
    (hout : ∀ t ∈ outputs, t ∈ inputs.map (·.1) ∨ ∃ d ≤ D, ∃ n ∈ byDepth d, n.isInput = false ∧ t = n.produces) :
    traceOutputs (inputs.map fun p => (p.1, pick [b] p.2)) (parseModel (evalGraph WLayer.alkaid byDepth) D) outputs =
      some (outputs.map fun t => pick [b] (kval t)) :=
  graph_pick WLayer.keras WLayer.alkaid WLayerAlkaid (fun l xs hl hB out h => C111_layer_partial hb l xs hl hB out h) inputs byDepth D outputs kval hin hacyc hsol hok hout

/-! ## Values -/

/-- **C111 (values, partial).** Whenever Keras computes the layer on a batch, the value at the labels `σ` of the output is, quantized by the output quantizer,
the (rectified) sum over the contracted labels of the function of the pair (small network, then batch normalization) of the quantized input, quantized by the table quantizer.
Missing: weights whose axes are not in order. -/
theorem C111_values_partial {B : ℕ} (t : EinsumTArr) (ht : EinsumTBuilt t) (hord : AxesInOrder t) (x out : Arr ℚ) (hx : IsBatch B x)
    (h : t.keras x = some out) (σ : ℕ → ℕ) (hσ : InShape (t.e.output.map σ) (t.e.output.map (batchDim t B))) :
    out.shape = t.e.output.map (batchDim t B) ∧
    out.get (t.e.output.map σ) = optAt t.oq (t.e.output.map σ) ((fun s => if t.relu then max 0 s else s) ((contracted t).map fun p =>
      quantAt t.toq (t.e.presum.map (assign (t.e.input.filter fun c => c ∉ t.e.output) σ p))
        (pairAt t (assign (t.e.input.filter fun c => c ∉ t.e.output) σ p)
          (optAt (onlyIf t.enableIq t.iq) (t.e.presum.map (assign (t.e.input.filter fun c => c ∉ t.e.output) σ p))
            (x.get (t.e.input.map (assign (t.e.input.filter fun c => c ∉ t.e.output) σ p)))))).sum) := by
  rw [einsumT_keras_eq t ht x hx] at h
  split at h
  swap
  · simp at h
  rename_i ha
  obtain ⟨y, hy, h⟩ := Option.bind_eq_some_iff.1 h
  obtain ⟨z, hz, h⟩ := Option.bind_eq_some_iff.1 h
  obtain ⟨r, hr', h⟩ := Option.bind_eq_some_iff.1 h
  have hbs := (accepts_shape ht hx ha).1
  have hys : y.shape = t.e.presum.map (batchDim t B) := by rw [quant_shape hy]; exact hbs
  have hzs : z.shape = t.e.presum.map (batchDim t B) := by rw [quant_norm_shape hz]; exact hys
  obtain ⟨w, w1, w2, w3⟩ := reduce_at ht B z hzs
  rw [hr'] at w1
  obtain rfl := Option.some.inj w1
  have hrs : (reluKeras t.relu w.norm).shape = t.e.output.map (batchDim t B) := by
    unfold reluKeras
    split <;> exact w2
  refine ⟨by rw [quant_shape h]; exact hrs, ?_⟩
  have hrl : (reluKeras t.relu w.norm).get (t.e.output.map σ) = (fun s => if t.relu then max 0 s else s) (w.get (t.e.output.map σ)) := by
    have hw : w.norm.get (t.e.output.map σ) = w.get (t.e.output.map σ) := norm_get (by exact w2 ▸ hσ)
    unfold reluKeras
    beta_reduce
    split
    · rw [norm_get (by exact w2 ▸ hσ)]
      simp only [Arr.mapQ, hw]
      split_ifs with h0
      · exact (max_eq_right h0.le).symm
      · exact (max_eq_left (not_lt.1 h0)).symm
    · exact hw
  rw [kerasOpt_get h (by exact hrs ▸ hσ), hrl, w3]
  congr 3
  refine List.map_congr_left fun p hp => ?_
  set τ := assign (t.e.input.filter fun c => c ∉ t.e.output) σ p with hτ
  have hin : InShape (t.e.presum.map τ) (t.e.presum.map (batchDim t B)) := by
    obtain ⟨b, P', o, h1, h2, h3, h4, h5, h6, h7, h8⟩ := built_heads ht
    unfold InShape at hσ ⊢
    rw [List.forall₂_map_left_iff, List.forall₂_map_right_iff, List.forall₂_same] at hσ ⊢
    intro c hc
    rw [hτ, assign]
    split_ifs with hcc
    · have hm := List.Forall₂.flip ((mem_indices _ _).1 hp)
      have hlt : (t.e.input.filter fun c => c ∉ t.e.output).idxOf c < (t.e.input.filter fun c => c ∉ t.e.output).length := List.idxOf_lt_length_iff.2 hcc
      have hne : c ≠ b := by rintro rfl; simp [h2] at hcc
      rw [batchDim, h3, if_neg hne]
      have hl := List.Forall₂.length_eq hm
      have := List.Forall₂.get hm (i := (t.e.input.filter fun c => c ∉ t.e.output).idxOf c) (by rw [hl, List.length_map]; exact hlt) (by rw [List.length_map]; exact hlt)
      simp only [List.get_eq_getElem, List.getElem_map, List.getElem_idxOf] at this
      rw [List.getD_eq_getElem?_getD, List.getElem?_eq_getElem (by rw [hl, List.length_map]; exact hlt)]
      exact this
    · refine hσ c ?_
      by_contra hno
      rw [EinsumT.presum, List.mem_append] at hc
      rcases hc with hc | hc
      · exact hcc (List.mem_filter.2 ⟨hc, by simpa using hno⟩)
      · obtain ⟨hk, hk2⟩ := List.mem_filter.1 hc
        exact hno (ht.extra c hk (by simpa using hk2))
  have hq := kerasOpt_get (q := some t.toq) hz (idx := t.e.presum.map τ) (by simp only [Arr.norm]; rw [hys]; exact hin)
  rw [hq]
  rw [show ∀ i w, optAt (some t.toq) i w = quantAt t.toq i w from fun _ _ => rfl, norm_get (by simp only; rw [hys]; exact hin)]
  beta_reduce
  simp only
  rw [(pair_eq ht hord B τ hin).1, kerasOpt_get hy (by exact hbs ▸ hin), norm_get (by exact hbs ▸ hin)]
  simp only [EinsumTArr.broadcast, EinsumT.presum, List.map_append, List.take_left' (List.length_map ..)]

/-! ## Where it is false -/

/-- `'bij,kji->bik'` with batch normalization over the default axes `'ki'`. -/
def exNormT : EinsumTArr where
  e := ⟨[0, 1, 2], [3, 2, 1], [0, 1, 3]⟩
  dim := fun c => if c = 2 then 1 else 2
  hidden := []
  last := ⟨⟨[2, 1, 2, 1], fun _ => 1⟩, none, id⟩
  bn := some ⟨[3, 1], some ⟨[2, 2], fun c => 1 + c.getD 0 0⟩, none, ⟨[2, 2], fun _ => 0⟩, ⟨[2, 2], fun _ => 1⟩, 1⟩
  enableIq := true
  iq := exMQ 4 1
  toq := exMQ 4 2
  relu := false
  oq := none

/-- **C111 violated** when the normalized axes are not in the order of the array before the sum (the default axes follow the order of the kernel labels): Keras reshapes
the normalization weights, which permutes them; the plugin indexes them.  Here both compute, with different results. -/
theorem C111_norm_order_violated : EinsumTBuilt exNormT ∧
    ((exNormT.keras ⟨[1, 2, 1], fun _ => 1⟩).map fun o => (indices [1, 2, 2]).map o.get) = some [1, 1, 2, 2] ∧
    ((exNormT.alkaid (fullRange (exMQ 4 1)) ⟨[1, 2, 1], fun _ => 1⟩).map fun o => (indices [1, 2, 2]).map o.get) = some [1, 2, 1, 2] := by
  refine ⟨⟨⟨0, [1, 2], [1, 3], rfl, rfl, by decide, ?_⟩, by decide, by decide, by decide, by decide, by decide, ⟨rfl, by simp [exNormT]⟩, ?_⟩, by decide +kernel, by decide +kernel⟩
  · intro n hn; obtain rfl := Option.some.inj hn; decide
  · intro n hn; obtain rfl := Option.some.inj hn; exact ⟨by decide, by decide, rfl⟩

/-- `'bi,ji->bj'` with biases. -/
def exBiasT : EinsumTArr where
  e := ⟨[0, 1], [2, 1], [0, 2]⟩
  dim := fun _ => 2
  hidden := []
  last := ⟨⟨[2, 2, 1], fun _ => 1⟩, some ⟨[2, 2], fun c => if c = [0, 1] then 1 else 0⟩, id⟩
  bn := none
  enableIq := false
  iq := exMQ 3 1
  toq := exMQ 3 2
  relu := false
  oq := none

/-- **C111 violated** for biases when the kernel labels are not in the order of the array before the sum: Keras creates and adds the biases in the order of this array,
the plugin takes them with the coordinates of the kernel.  Here both compute, with different results. -/
theorem C111_bias_order_violated : EinsumTBuilt exBiasT ∧
    ((exBiasT.keras ⟨[1, 2], fun _ => 1⟩).map fun o => (indices [1, 2]).map o.get) = some [2, 3] ∧
    ((exBiasT.alkaid (fullRange (exMQ 3 1)) ⟨[1, 2], fun _ => 1⟩).map fun o => (indices [1, 2]).map o.get) = some [3, 2] := by
  refine ⟨⟨⟨0, [1], [2], rfl, rfl, by decide, by simp [exBiasT]⟩, by decide, by decide, by decide, by decide, by decide, ⟨rfl, ?_⟩, by simp [exBiasT]⟩, by decide +kernel, by decide +kernel⟩
  intro b hb; obtain rfl := Option.some.inj hb; decide

/-- `'bij,ik->bjk'` with biases. -/
def exGapT : EinsumTArr where
  e := ⟨[0, 1, 2], [1, 3], [0, 2, 3]⟩
  dim := fun _ => 2
  hidden := []
  last := ⟨⟨[2, 2, 1], fun _ => 1⟩, some ⟨[2, 1, 2], fun _ => 0⟩, id⟩
  bn := none
  enableIq := false
  iq := exMQ 4 1
  toq := exMQ 4 2
  relu := false
  oq := none

/-- **C111 violated** for biases when an input label lies between the kernel labels: Keras computes, the conversion raises. -/
theorem C111_bias_gap_violated : EinsumTBuilt exGapT ∧
    ((exGapT.keras ⟨[1, 2, 2], fun _ => 1⟩).map fun o => (indices [1, 2, 2]).map o.get) = some [2, 2, 2, 2] ∧
    (exGapT.alkaid (fullRange (exMQ 4 1)) ⟨[1, 2, 2], fun _ => 1⟩).isNone = true := by
  refine ⟨⟨⟨0, [1, 2], [2, 3], rfl, rfl, by decide, by simp [exGapT]⟩, by decide, by decide, by decide, by decide, by decide, ⟨rfl, ?_⟩, by simp [exGapT]⟩, by decide +kernel, by decide +kernel⟩
  intro b hb; obtain rfl := Option.some.inj hb; decide

/-! ## A concrete layer -/

/-- `'bij,jk->bik'` with one hidden layer and biases. -/
def exEinsumT : EinsumTArr where
  e := ⟨[0, 1, 2], [2, 3], [0, 1, 3]⟩
  dim := fun _ => 2
  hidden := [⟨⟨[2, 2, 1, 2], fun c => if c.getD 3 0 = 0 then 1 else -1 + c.getD 0 0⟩, some ⟨[2, 2, 2], fun c => c.getD 1 0 - c.getD 2 0⟩, fun v => if v > 0 then v else 0⟩]
  last := ⟨⟨[2, 2, 2], fun c => 1 + c.getD 0 0 - 2 * c.getD 2 0⟩, some ⟨[2, 2], fun c => c.getD 0 0 + c.getD 1 0 / 3⟩, id⟩
  bn := none
  enableIq := true
  iq := ⟨.RND, .SAT, none, none, [1, 1, 1, 1], fun _ => true, fun _ => 2, fun _ => 1⟩
  toq := ⟨.TRN, .WRAP, none, none, [1, 1, 2, 2], fun _ => true, fun _ => 5, fun j => if j.getLastD 0 = 0 then 3 else 2⟩
  relu := true
  oq := some (exMQ 3 1)

def exEinsumTIn : Arr ℚ := ⟨[2, 2, 2], fun c => c.getD 0 0 - c.getD 1 0 * 3 / 2 + c.getD 2 0 * 5 / 4⟩

theorem exEinsumT_built : EinsumTBuilt exEinsumT ∧ AxesInOrder exEinsumT := by
  refine ⟨⟨⟨0, [1, 2], [1, 3], rfl, rfl, by decide, by simp [exEinsumT]⟩, by decide, by decide, by decide, by decide, by decide, ⟨2, rfl, ?_, rfl, ?_⟩, by simp [exEinsumT]⟩,
    fun _ => by decide, by simp [exEinsumT]⟩
  · intro b hb; obtain rfl := Option.some.inj hb; decide
  · intro b hb; obtain rfl := Option.some.inj hb; decide

theorem exEinsumT_alkaid (x : Arr ℚ) : EinsumTAlkaid exEinsumT (fullRange exEinsumT.iq) x := by
  refine ⟨exEinsumT_built.1, exEinsumT_built.2, ⟨rfl, Or.inl rfl, fun _ => ⟨by simp [exEinsumT], by simp [exEinsumT]⟩⟩,
    ⟨rfl, Or.inl rfl, rfl, fun j => ⟨by simp [exEinsumT], ?_⟩⟩, ?_, ?_⟩
  · simp only [exEinsumT]; split <;> omega
  · intro q hq
    obtain rfl := Option.some.inj hq
    exact exMQ_ok _ _ (by constructor <;> decide)
  · intro y hy b idx hi
    have hs := quant_shape hy
    rw [kerasOpt_get hy (by rw [← hs]; exact hi)]
    obtain ⟨m, p, h1, h2, h3⟩ := fullRange_knows .RND .SAT true 2 1 (by decide) ((exEinsumT.broadcast x).norm.get (b :: idx))
    exact ⟨by simp only [fullRange]; positivity, m, p, h1, h2, h3⟩

/-- The hypotheses of C104, C111 and of the values hold: both samples are converted to what Keras computes. -/
example : ∃ out, (WLayer.einsumT exEinsumT (fullRange exEinsumT.iq)).keras [exEinsumTIn] = some out ∧
    (∀ b < 2, (WLayer.einsumT exEinsumT (fullRange exEinsumT.iq)).alkaid [pick [b] exEinsumTIn] = some (pick [b] out)) ∧
    (indices [2, 2, 2]).map out.get = [4, 15 / 2, 1 / 2, 2, 7, 15 / 2, 3, 11 / 2] := by
  have hs : ((WLayer.einsumT exEinsumT (fullRange exEinsumT.iq)).keras [exEinsumTIn]).isSome = true := by decide +kernel
  obtain ⟨out, hout⟩ := Option.isSome_iff_exists.1 hs
  refine ⟨out, hout, fun b hb => ?_, ?_⟩
  · exact (C111_layer_partial hb (WLayer.einsumT exEinsumT (fullRange exEinsumT.iq)) [exEinsumTIn] (fun x _ => exEinsumT_alkaid x) (by simp [IsBatch, exEinsumTIn]) out hout).2
  have hv : ((WLayer.einsumT exEinsumT (fullRange exEinsumT.iq)).keras [exEinsumTIn]).map (fun out => (indices [2, 2, 2]).map out.get) =
    some [4, 15 / 2, 1 / 2, 2, 7, 15 / 2, 3, 11 / 2] := by decide +kernel
  rw [hout] at hv
  exact Option.some.inj hv

end HGQ
