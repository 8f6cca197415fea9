import Verif.Props.EinsumTArr

/-!
# C111 / C104: `QEinsumDenseT` in Keras treats every sample alone
-/
namespace HGQ
open Spec

/-- What Keras tabulates at an index of the array before the sum. -/
def preK (t : EinsumTArr) (idx : List ℕ) (v : ℚ) : ℚ :=
  bnK t.e.presum t.dim t.bn idx (netK t.e.presum t.e.kernel 1 t.hidden t.last idx fun _ => v)

/-- Sizes with the batch size for the batch label. -/
def batchDim (t : EinsumTArr) (B : ℕ) (c : ℕ) : ℕ := if c = t.e.input.headD 0 then B else t.dim c

theorem fresh_not_mem (ls : List ℕ) (k : ℕ) : freshLabel ls + k ∉ ls := by
  have h : ∀ c ∈ ls, c ≤ ls.foldr max 0 := by
    induction ls with
    | nil => simp
    | cons a ls ih =>
      intro c hc
      simp only [List.foldr_cons]
      rcases List.mem_cons.1 hc with rfl | hc
      · exact le_max_left _ _
      · exact (ih c hc).trans (le_max_right _ _)
  intro hm
  have := h _ hm
  unfold freshLabel at this
  omega

section Layer
variable {t : EinsumTArr}

theorem presum_nodup (ht : EinsumTBuilt t) : t.e.presum.Nodup := by
  rw [EinsumT.presum, List.nodup_append]
  refine ⟨ht.inp, ht.ker.1.filter _, ?_⟩
  intro a ha b hb hab
  subst hab
  simpa [EinsumT.extra, ha] using hb

theorem kernel_sub (t : EinsumTArr) : ∀ c ∈ t.e.kernel, c ∈ t.e.presum := by
  intro c hc
  rw [EinsumT.presum, List.mem_append, EinsumT.extra, List.mem_filter]
  by_cases h : c ∈ t.e.input
  · exact Or.inl h
  · exact Or.inr ⟨hc, by simpa using h⟩

/-- The batch label is the first label. -/
theorem built_heads (ht : EinsumTBuilt t) : ∃ b P' o, t.e.presum = b :: P' ∧ t.e.output = b :: o ∧ t.e.input.headD 0 = b ∧ b ∉ P' ∧ b ∉ o ∧ b ∉ t.e.kernel ∧
    (∀ n ∈ t.bn, b ∉ n.norm) ∧ t.e.input = b :: t.e.input.tail := by
  obtain ⟨b, i, o, h1, h2, h3, h4⟩ := ht.batch
  have hn := presum_nodup ht
  have hp : t.e.presum = b :: (i ++ t.e.extra) := by rw [EinsumT.presum, h1]; rfl
  rw [hp] at hn
  have ho := ht.out
  rw [h2] at ho
  exact ⟨b, _, o, hp, h2, by rw [h1]; rfl, (List.nodup_cons.1 hn).1, (List.nodup_cons.1 ho).1, h3, h4, by rw [h1]; rfl⟩

theorem presum_dims (ht : EinsumTBuilt t) (B : ℕ) : t.e.presum.map (batchDim t B) = B :: t.e.presum.tail.map t.dim := by
  obtain ⟨b, P', o, h1, h2, h3, h4, -⟩ := built_heads ht
  rw [h1]
  simp only [List.map_cons, List.tail_cons, batchDim, h3, if_true]
  congr 1
  refine List.map_congr_left fun c hc => if_neg ?_
  intro h
  rw [h, h3] at hc
  exact h4 hc

theorem output_dims (ht : EinsumTBuilt t) (B : ℕ) : t.e.output.map (batchDim t B) = B :: t.e.output.tail.map t.dim := by
  obtain ⟨b, P', o, h1, h2, h3, -, h4, -⟩ := built_heads ht
  rw [h2]
  simp only [List.map_cons, List.tail_cons, batchDim, h3, if_true]
  congr 1
  refine List.map_congr_left fun c hc => if_neg ?_
  intro h
  rw [h, h3] at hc
  exact h4 hc

theorem accepts_shape (ht : EinsumTBuilt t) {B : ℕ} {x : Arr ℚ} (hx : IsBatch B x) (ha : t.accepts x = true) :
    (t.broadcast x).shape = t.e.presum.map (batchDim t B) ∧ x.shape = B :: t.e.input.tail.map t.dim := by
  obtain ⟨s, hs⟩ := hx
  obtain ⟨b, P', o, h1, h2, h3, h4, h5, h6, h7, h8⟩ := built_heads ht
  have ha' := of_decide_eq_true ha
  rw [hs] at ha'
  have hx' : x.shape = B :: t.e.input.tail.map t.dim := by rw [hs]; congr 1; exact ha'.2
  refine ⟨?_, hx'⟩
  rw [presum_dims ht]
  simp only [EinsumTArr.broadcast, hx']
  rw [EinsumT.presum, h8]
  simp

theorem dim_known (ht : EinsumTBuilt t) (B : ℕ) (W : List ℕ) (hW : ∀ c ∈ W, c ∈ t.e.presum) (hb : t.e.input.headD 0 ∉ W) :
    ∀ c ∈ W, (t.e.presum.map (batchDim t B)).getD (t.e.presum.idxOf c) 0 = t.dim c := by
  intro c hc
  rw [getD_idxOf_map _ (hW c hc), batchDim, if_neg fun h => hb (by rw [← h]; exact hc)]

/-- The tables in Keras. -/
theorem layer_val (ht : EinsumTBuilt t) (B : ℕ) (y : Arr ℚ) (hy : y.shape = t.e.presum.map (batchDim t B)) :
    ((moduleKeras t.e.presum t.e.kernel (freshLabel t.e.presum) (freshLabel t.e.presum + 1) t.hidden t.last (npLastAxis y).norm).bind
      fun v => bnKeras t.e.presum t.dim t.bn v) = some (Arr.norm ⟨y.shape, fun idx => preK t idx (y.get idx)⟩) := by
  obtain ⟨b, P', o, h1, h2, h3, h4, h5, h6, h7, h8⟩ := built_heads ht
  have hl : y.shape.length = t.e.presum.length := by rw [hy, List.length_map]
  rw [module_val (presum_nodup ht) (kernel_sub t) t.dim y.shape hl (by rw [hy]; exact dim_known ht B _ (kernel_sub t) (by rw [h3]; exact h6)) t.hidden t.last (freshLabel t.e.presum) _ 1 _
    (fresh_not_mem _ 0) (fresh_not_mem _ 1) (by omega) ht.sub rfl, Option.bind_some]
  refine (bn_val (presum_nodup ht) t.dim t.bn ht.bn _ y.shape (by rfl) hl ?_).trans ?_
  · intro n hn
    rw [hy]; exact dim_known ht B _ (ht.bn n hn).2.1 (by rw [h3]; exact h7 n hn)
  congr 1
  refine norm_same ⟨rfl, fun idx hidx => ?_⟩
  simp only [preK]
  congr 1
  refine netK_congr _ _ _ _ _ _ _ _ fun i hi => ?_
  rw [norm_get (by exact inShape_append hidx (.cons hi .nil))]
  simp [npLastAxis]

/-! ### Independence of the batch index -/

theorem coords_head {b : ℕ} {P W : List ℕ} (hb : b ∉ W) (j k : ℕ) (r : List ℕ) : coords (b :: P) W (j :: r) = coords (b :: P) W (k :: r) := by
  refine List.map_congr_left fun c hc => ?_
  rw [List.idxOf_cons_ne _ (show b ≠ c by rintro rfl; exact hb hc)]
  rfl

theorem biasShape_length {b : ℕ} {P W : List ℕ} (hb : b ∉ W) (dim : ℕ → ℕ) : (kerasBiasShape (b :: P) W dim).length ≤ P.length := by
  unfold kerasBiasShape
  rw [List.length_map, List.dropWhile_cons_of_pos (by simpa using hb)]
  exact (List.dropWhile_suffix _).length_le

theorem biasK_head (bias : Option (Arr ℚ)) (j k : ℕ) (r : List ℕ) (h : ∀ b ∈ bias, b.shape.length ≤ r.length) : biasK bias (j :: r) = biasK bias (k :: r) := by
  cases bias with
  | none => rfl
  | some b =>
    have := h b rfl
    simp only [biasK, List.length_cons]
    rw [show r.length + 1 - b.shape.length = (r.length - b.shape.length) + 1 by omega]
    rfl

theorem netK_head {b : ℕ} {P W : List ℕ} (hb : b ∉ W) (dim : ℕ → ℕ) (hid : List SubDense) (last : SubDense) : ∀ (d : ℕ), SubBuilt (b :: P) W dim d hid last →
    ∀ (j k : ℕ) (r : List ℕ), r.length = P.length → ∀ h, netK (b :: P) W d hid last (j :: r) h = netK (b :: P) W d hid last (k :: r) h := by
  induction hid with
  | nil =>
    intro d hs j k r hr h
    simp only [netK, coords_head hb j k r]
    rw [biasK_head last.bias j k r fun b hb' => by rw [hs.2 b hb', hr]; exact biasShape_length hb dim]
  | cons s hid ih =>
    intro d hs j k r hr h
    obtain ⟨d', k1, k2, k3⟩ := hs
    have hlast : s.kernel.shape.getLastD 0 = d' := by
      rw [k1, show W.map dim ++ [d, d'] = (W.map dim ++ [d]) ++ [d'] by simp, getLastD_append_singleton]
    simp only [netK, hlast, coords_head hb j k r]
    rw [ih d' k3 j k r hr]
    congr 1
    funext o
    have := biasK_head s.bias j k (r ++ [o]) fun b hb' => by
      rw [k2 b hb', List.length_append, List.length_append, hr]
      have := biasShape_length (P := P) hb dim
      simp only [List.length_singleton]; omega
    simp only [List.cons_append, this]

theorem bnK_head {b : ℕ} {P : List ℕ} (dim : ℕ → ℕ) (bn : Option BnArr) (hb : ∀ n ∈ bn, b ∉ n.norm) (j k : ℕ) (r : List ℕ) (v : ℚ) :
    bnK (b :: P) dim bn (j :: r) v = bnK (b :: P) dim bn (k :: r) v := by
  cases bn with
  | none => rfl
  | some n =>
    have : bnIdxK (b :: P) dim n.norm (j :: r) = bnIdxK (b :: P) dim n.norm (k :: r) := by
      simp [bnIdxK, bnBroadcast, bcastIdx, hb n rfl]
    simp only [bnK, this]

theorem preK_head (ht : EinsumTBuilt t) (j k : ℕ) (r : List ℕ) (hr : r.length = t.e.presum.tail.length) (v : ℚ) : preK t (j :: r) v = preK t (k :: r) v := by
  obtain ⟨b, P', o, h1, h2, h3, h4, h5, h6, h7, h8⟩ := built_heads ht
  have hs := ht.sub
  rw [h1] at hs hr
  simp only [preK, h1]
  rw [netK_head h6 t.dim t.hidden t.last 1 hs j k r hr, bnK_head t.dim t.bn h7 j k r]

/-! ### Sum -/

theorem indices_positions (sh : List ℕ) : Positions sh (indices sh) := by
  refine ⟨?_, fun p => ?_⟩
  · induction sh with
    | nil => simp [indices]
    | cons n sh ih =>
      simp only [indices]
      rw [List.nodup_flatMap]
      refine ⟨fun i _ => ih.map (fun a b h => by simpa using h), ?_⟩
      refine (List.nodup_range (n := n)).imp ?_
      intro i j hij
      simp only [Function.onFun, List.disjoint_left, List.mem_map]
      rintro _ ⟨a, _, rfl⟩ ⟨b, _, h⟩
      exact hij (by simpa using (congrArg List.head? h).symm)
  · rw [mem_indices]
    exact ⟨fun h => List.Forall₂.flip h, fun h => List.Forall₂.flip h⟩

/-- Values of the contracted labels. -/
def Spec.contracted (t : EinsumTArr) : List (List ℕ) := indices ((t.e.input.filter fun c => c ∉ t.e.output).map t.dim)

/-- The sum at an output index. -/
theorem reduce_at (ht : EinsumTBuilt t) (B : ℕ) (z : Arr ℚ) (hz : z.shape = t.e.presum.map (batchDim t B)) :
    ∃ out : Arr ℚ, t.reduce z = some out.norm ∧ out.shape = t.e.output.map (batchDim t B) ∧
      ∀ σ : ℕ → ℕ, out.get (t.e.output.map σ) = ((contracted t).map fun p => z.get (t.e.presum.map (assign (t.e.input.filter fun c => c ∉ t.e.output) σ p))).sum := by
  obtain ⟨b, P', o, h1, h2, h3, h4, h5, h6, h7, h8⟩ := built_heads ht
  have hdim : (t.e.input.filter fun c => c ∉ t.e.output).map (batchDim t B) = (t.e.input.filter fun c => c ∉ t.e.output).map t.dim := by
    refine List.map_congr_left fun c hc => ?_
    have := (List.mem_filter.1 hc).2
    rw [batchDim, if_neg]
    intro h
    rw [h, h3, h2] at this
    simp at this
  obtain ⟨out, o1, o2, o3⟩ := reduce_val t.e (batchDim t B) ht.inp ht.ker.1 ht.out ht.known ht.extra (contracted t) (by rw [hdim]; exact indices_positions _) z hz
  exact ⟨out, by rw [EinsumTArr.reduce, o1]; rfl, o2, o3⟩

theorem reduce_batch {B : ℕ} {σ : List ℕ} (hσ : ∀ j ∈ σ, j < B) (ht : EinsumTBuilt t) (z : Arr ℚ) (hz : z.shape = t.e.presum.map (batchDim t B)) : Bw B σ t.reduce z := by
  intro r hr
  obtain ⟨b, P', o, h1, h2, h3, h4, h5, h6, h7, h8⟩ := built_heads ht
  obtain ⟨out, o1, o2, o3⟩ := reduce_at ht B z hz
  have hzs : z.shape = B :: t.e.presum.tail.map t.dim := by rw [hz, presum_dims ht]
  obtain ⟨out', p1, p2, p3⟩ := reduce_at ht σ.length (pick σ z) (by rw [pick_shape σ z hzs, presum_dims ht])
  rw [output_dims ht] at o2 p2
  rw [o1] at hr
  obtain rfl := Option.some.inj hr
  refine ⟨⟨_, o2⟩, ?_⟩
  rw [p1]
  congr 1
  refine norm_pick hσ _ _ ⟨_, o2⟩ ⟨_, p2⟩ (by rw [o2, p2]; rfl) fun j hj idx hidx => ?_
  have hil : idx.length + 1 = t.e.output.length := by
    have := List.Forall₂.length_eq hidx
    rw [o2] at this
    rw [this, h2]; simp
  have key : ∀ k : ℕ, t.e.output.map (fun c => (k :: idx).getD (t.e.output.idxOf c) 0) = k :: idx := fun k => map_getD_idxOf _ ht.out _ (by simpa using hil)
  rw [← key j, p3, ← key (σ.getD j 0), o3]
  congr 1
  refine List.map_congr_left fun p _ => ?_
  have hbc : b ∉ t.e.input.filter fun c => c ∉ t.e.output := by simp [h2]
  have split : ∀ k : ℕ, t.e.presum.map (assign (t.e.input.filter fun c => c ∉ t.e.output) (fun c => (k :: idx).getD (t.e.output.idxOf c) 0) p) =
      k :: P'.map (assign (t.e.input.filter fun c => c ∉ t.e.output) (fun c => (0 :: idx).getD (t.e.output.idxOf c) 0) p) := by
    intro k
    rw [h1, List.map_cons]
    congr 1
    · rw [assign, if_neg hbc, h2]; simp
    · refine List.map_congr_left fun c hc => ?_
      unfold assign
      split_ifs
      · rfl
      · beta_reduce
        rw [h2, List.idxOf_cons_ne _ (show b ≠ c by rintro rfl; exact h4 hc)]; rfl
  rw [split, split, pick_get σ z j hj]

end Layer

/-! ## The layer -/

/-- Built, and quantizers with widths constant along the batch axis. -/
def Spec.EinsumTBatch (t : EinsumTArr) : Prop := EinsumTBuilt t ∧ QuantBatch t.iq ∧ QuantBatch t.toq ∧ ∀ q ∈ t.oq, QuantBatch q

theorem quant_norm_shape {q : ArrQuant} {x z : Arr ℚ} (h : run (q.keras x) = some z) : z.shape = x.shape := quant_shape (q := some q) h

theorem broadcast_pick {B : ℕ} {σ : List ℕ} (hσ : ∀ j ∈ σ, j < B) (t : EinsumTArr) (ht : EinsumTBuilt t) (x : Arr ℚ) (hx : IsBatch B x) (ha : t.accepts x = true) :
    t.accepts (pick σ x) = true ∧ (t.broadcast (pick σ x)).norm = pick σ (t.broadcast x).norm := by
  obtain ⟨b, P', o, h1, h2, h3, h4, h5, h6, h7, h8⟩ := built_heads ht
  obtain ⟨a1, a2⟩ := accepts_shape ht hx ha
  have a3 := pick_shape σ x a2
  have ha' : t.accepts (pick σ x) = true := by simp [EinsumTArr.accepts, a3]
  obtain ⟨a4, -⟩ := accepts_shape ht (pick_batch σ x) ha'
  refine ⟨ha', norm_pick hσ _ _ ⟨_, by rw [a1, presum_dims ht]⟩ ⟨_, by rw [a4, presum_dims ht]⟩ (by rw [a1, a4, presum_dims ht, presum_dims ht]; rfl) fun j hj idx _ => ?_⟩
  simp only [EinsumTArr.broadcast]
  rw [h8, List.length_cons, List.take_succ_cons, List.take_succ_cons, pick_get σ x j hj]

theorem pre_pick {B : ℕ} {σ : List ℕ} (hσ : ∀ j ∈ σ, j < B) (t : EinsumTArr) (ht : EinsumTBuilt t) (y : Arr ℚ) (hy : y.shape = t.e.presum.map (batchDim t B)) :
    Arr.norm ⟨(pick σ y).shape, fun idx => preK t idx ((pick σ y).get idx)⟩ = pick σ (Arr.norm ⟨y.shape, fun idx => preK t idx (y.get idx)⟩) := by
  rw [presum_dims ht] at hy
  refine norm_pick hσ _ _ ⟨_, hy⟩ ⟨_, pick_shape σ y hy⟩ rfl fun j hj idx hidx => ?_
  have hl : idx.length = t.e.presum.tail.length := by
    have := List.Forall₂.length_eq hidx
    simpa [hy] using this
  simp only [pick_get σ y j hj]
  exact preK_head ht _ _ _ hl _

theorem relu_pick {B : ℕ} {σ : List ℕ} (hσ : ∀ j ∈ σ, j < B) (rl : Bool) (r : Arr ℚ) (hr : IsBatch B r) :
    IsBatch B (reluKeras rl r) ∧ reluKeras rl (pick σ r) = pick σ (reluKeras rl r) := by
  cases rl with
  | false => exact ⟨hr, rfl⟩
  | true => exact map_batch hσ _ _ hr

theorem einsumT_keras_eq (t : EinsumTArr) (ht : EinsumTBuilt t) {B : ℕ} (x : Arr ℚ) (hx : IsBatch B x) :
    t.keras x = if t.accepts x then (kerasOpt (onlyIf t.enableIq t.iq) (t.broadcast x).norm).bind fun y =>
      (run (t.toq.keras (Arr.norm ⟨y.shape, fun idx => preK t idx (y.get idx)⟩))).bind fun z => (t.reduce z).bind fun r => kerasOpt t.oq (reluKeras t.relu r)
      else none := by
  unfold EinsumTArr.keras
  split
  · rename_i ha
    cases hy : kerasOpt (onlyIf t.enableIq t.iq) (t.broadcast x).norm with
    | none => rfl
    | some y =>
      have hys : y.shape = t.e.presum.map (batchDim t B) := by rw [quant_shape hy]; exact (accepts_shape ht hx ha).1
      have := layer_val ht B y hys
      simp only [Option.bind_some]
      rw [← Option.bind_assoc, this, Option.bind_some]
  · rfl

theorem einsumT_batch {B : ℕ} {σ : List ℕ} (hσ : ∀ j ∈ σ, j < B) (t : EinsumTArr) (hb : EinsumTBatch t) (x : Arr ℚ) (hx : IsBatch B x) : Bw B σ t.keras x := by
  intro out h
  obtain ⟨ht, hiq, htoq, hoq⟩ := hb
  rw [einsumT_keras_eq t ht x hx] at h
  rw [einsumT_keras_eq t ht (pick σ x) (pick_batch σ x)]
  split at h
  swap
  · simp at h
  rename_i ha
  obtain ⟨a1, a2⟩ := broadcast_pick hσ t ht x hx ha
  obtain ⟨y, hy, h⟩ := Option.bind_eq_some_iff.1 h
  obtain ⟨z, hz, h⟩ := Option.bind_eq_some_iff.1 h
  obtain ⟨r, hr, h⟩ := Option.bind_eq_some_iff.1 h
  have hbs := (accepts_shape ht hx ha).1
  have hys : y.shape = t.e.presum.map (batchDim t B) := by rw [quant_shape hy]; exact hbs
  obtain ⟨y1, y2⟩ := bw_opt hσ (onlyIf t.enableIq t.iq) (mem_onlyIf hiq) (t.broadcast x).norm ⟨_, by rw [← presum_dims ht B]; exact hbs⟩ y hy
  obtain ⟨z1, z2⟩ := bw_opt hσ (some t.toq) (by simpa using htoq) (Arr.norm ⟨y.shape, fun idx => preK t idx (y.get idx)⟩)
    ⟨_, by rw [← presum_dims ht B]; exact hys⟩ z hz
  have hzs : z.shape = t.e.presum.map (batchDim t B) := by rw [quant_norm_shape hz]; exact hys
  obtain ⟨r1, r2⟩ := reduce_batch hσ ht z hzs r hr
  obtain ⟨u1, u2⟩ := relu_pick hσ t.relu r r1
  obtain ⟨o1, o2⟩ := bw_opt hσ t.oq hoq _ u1 out h
  refine ⟨o1, ?_⟩
  rw [if_pos a1, a2, y2, Option.bind_some, pre_pick hσ t ht y hys]
  rw [show run (t.toq.keras (pick σ (Arr.norm ⟨y.shape, fun idx => preK t idx (y.get idx)⟩))) = some (pick σ z) from z2, Option.bind_some, r2, Option.bind_some, u2, o2]

end HGQ
