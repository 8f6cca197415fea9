import Verif.Props.EinsumTBatch

/-!
# C111: `QEinsumDenseT`: values, and conversion by the Alkaid plugin
-/
namespace HGQ
open Spec

/-! ## Specification -/

/-- Bias of output `o` of a layer of the network of the pair with kernel coordinates `kc`. -/
def Spec.pairBiasAt (b : Option (Arr ℚ)) (kc : List ℕ) (o : List ℕ) : ℚ :=
  match b with
  | some b => b.get (kc ++ o)
  | none => 0

/-- The small network of the pair with kernel coordinates `kc`: the layers, from `d` values to one. -/
def Spec.netAt (kc : List ℕ) : ℕ → List SubDense → SubDense → (ℕ → ℚ) → ℚ
  | d, [], last, h => last.act (∑ i ∈ Finset.range d, h i * last.kernel.get (kc ++ [i]) + pairBiasAt last.bias kc [])
  | d, s :: r, last, h => netAt kc (s.kernel.shape.getLastD 0) r last fun o =>
      s.act (∑ i ∈ Finset.range d, h i * s.kernel.get (kc ++ [i, o]) + pairBiasAt s.bias kc [o])

/-- Batch normalization with the weights at `c`, divided by `sqrt(n_in)`. -/
def Spec.bnAt (n : BnArr) (c : List ℕ) (v : ℚ) : ℚ :=
  ((v - n.mean.get c) / n.std.get c * (match n.gamma with | some g => g.get c | none => 1) + (match n.beta with | some b => b.get c | none => 0)) / n.root

/-- The function of the pair at the values `τ` of all labels. -/
def Spec.pairAt (t : EinsumTArr) (τ : ℕ → ℕ) (v : ℚ) : ℚ :=
  match t.bn with
  | some n => bnAt n (n.norm.map τ) (netAt (t.e.kernel.map τ) 1 t.hidden t.last fun _ => v)
  | none => netAt (t.e.kernel.map τ) 1 t.hidden t.last fun _ => v

/-- What the plugin demands: built, axes in order, supported quantizers, and ranges that hold the (quantized) inputs of every sample. -/
def Spec.EinsumTAlkaid (t : EinsumTArr) (v : LhsArr) (x : Arr ℚ) : Prop :=
  EinsumTBuilt t ∧ AxesInOrder t ∧ QuantOk t.iq ∧ ToqOk t.toq ∧ (∀ q ∈ t.oq, QuantOk q) ∧
  ∀ y, kerasOpt (onlyIf t.enableIq t.iq) (t.broadcast x).norm = some y → ∀ b idx, InShape (b :: idx) y.shape → Knows v idx (y.get (b :: idx))

/-! ## Coordinates -/

theorem unflat_flat_id (sh idx : List ℕ) (h : InShape idx sh) : unflat sh (flat sh idx) = idx := by
  induction h with
  | nil => rfl
  | @cons i n idx sh _ hi ih =>
    have hlt := flat_lt sh idx hi
    have hpos : 0 < sh.prod := by omega
    simp only [flat, unflat]
    rw [Nat.mul_comm, Nat.mul_add_div hpos, Nat.div_eq_of_lt hlt, Nat.mul_add_mod, Nat.mod_eq_of_lt hlt, ih, Nat.add_zero]

theorem filter_sublist {P norm : List ℕ} (h : norm.Sublist P) (hP : P.Nodup) : (P.filter fun c => decide (c ∈ norm)) = norm := by
  induction h with
  | slnil => rfl
  | @cons l1 l2 a hs ih =>
    obtain ⟨h1, h2⟩ := List.nodup_cons.1 hP
    rw [List.filter_cons, if_neg (by simpa using fun hm => h1 (hs.subset hm)), ih h2]
  | @cons_cons l1 l2 a hs ih =>
    obtain ⟨h1, h2⟩ := List.nodup_cons.1 hP
    rw [List.filter_cons, if_pos (by simp)]
    congr 1
    rw [← ih h2]
    refine List.filter_congr fun c hc => ?_
    have : c ≠ a := by rintro rfl; exact h1 hc
    rw [ih h2]
    simp [this]

theorem flat_norm (dim τ : ℕ → ℕ) (norm P : List ℕ) (hτ : ∀ c ∈ P, c ∈ norm → τ c < dim c) :
    flat (bnBroadcast P dim norm) (bcastIdx (bnBroadcast P dim norm) (P.map τ)) =
      flat ((P.filter fun c => decide (c ∈ norm)).map dim) ((P.filter fun c => decide (c ∈ norm)).map τ) := by
  induction P with
  | nil => rfl
  | cons c P ih =>
    have ih' := ih fun d hd => hτ d (List.mem_cons_of_mem _ hd)
    have hp := bn_prod dim norm P
    simp only [bnBroadcast, bcastIdx] at ih' hp ⊢
    simp only [List.map_cons, List.zipWith_cons_cons, flat, List.filter_cons]
    by_cases h : c ∈ norm
    · simp only [h, if_true, decide_true, List.map_cons, flat]
      rw [ih', hp]
      congr 2
      split_ifs with h1
      · have := hτ c (by simp) h; omega
      · rfl
    · simp only [h, if_false, decide_false, if_true, Nat.zero_mul, Nat.zero_add, Bool.false_eq_true]
      exact ih'

theorem bnIdx_eq {P norm idx : List ℕ} (hP : P.Nodup) (hs : norm.Sublist P) (dim : ℕ → ℕ) (hl : idx.length = P.length)
    (hin : InShape (coords P norm idx) (norm.map dim)) : bnIdxK P dim norm idx = coords P norm idx := by
  have hτ : ∀ c ∈ P, c ∈ norm → idx.getD (P.idxOf c) 0 < dim c := by
    intro c _ hc
    unfold coords InShape at hin
    rw [List.forall₂_map_left_iff, List.forall₂_map_right_iff] at hin
    exact List.forall₂_same.1 hin c hc
  have hidx : P.map (fun c => idx.getD (P.idxOf c) 0) = idx := map_getD_idxOf P hP idx hl
  unfold bnIdxK
  have := flat_norm dim (fun c => idx.getD (P.idxOf c) 0) norm P hτ
  rw [hidx, filter_sublist hs hP] at this
  rw [this]
  exact unflat_flat_id _ _ hin

theorem suffix_biasShape {P W : List ℕ} (hP : P.Nodup) (hs : W <:+ P) (hne : W ≠ []) (dim : ℕ → ℕ) : kerasBiasShape P W dim = W.map dim := by
  obtain ⟨P0, rfl⟩ := hs
  unfold kerasBiasShape
  have hd := List.disjoint_of_nodup_append hP
  rw [List.dropWhile_append_of_pos (fun a ha => by simpa using fun hw => hd ha hw)]
  obtain ⟨c, W', rfl⟩ := List.exists_cons_of_ne_nil hne
  rw [List.dropWhile_cons_of_neg (by simp)]
  exact List.map_congr_left fun c hc => if_pos hc

theorem suffix_coords {P W idx : List ℕ} (hP : P.Nodup) (hs : W <:+ P) (hl : idx.length = P.length) : coords P W idx = idx.drop (idx.length - W.length) := by
  have hidx : P.map (fun c => idx.getD (P.idxOf c) 0) = idx := map_getD_idxOf P hP idx hl
  obtain ⟨P0, hP0⟩ := hs
  obtain ⟨g, hg⟩ : ∃ g : ℕ → ℕ, g = fun c => idx.getD (P.idxOf c) 0 := ⟨_, rfl⟩
  have hcw : coords P W idx = W.map g := by rw [hg]; rfl
  rw [← hg] at hidx
  rw [hcw, ← hidx, ← hP0, List.map_append, List.length_append, List.length_map, List.length_map, Nat.add_sub_cancel, List.drop_left' (by simp)]

/-- The bias Keras adds is the bias of the pair. -/
theorem biasK_eq {P W idx : List ℕ} (hP : P.Nodup) (hne : W ≠ []) (dim : ℕ → ℕ) (hl : idx.length = P.length) (hin : InShape (coords P W idx) (W.map dim))
    (b : Option (Arr ℚ)) (hs : b ≠ none → W <:+ P) (o q : List ℕ) (ho : InShape o q) (hb : ∀ r ∈ b, r.shape = kerasBiasShape P W dim ++ q) :
    biasK b (idx ++ o) = pairBiasAt b (coords P W idx) o := by
  cases b with
  | none => rfl
  | some b =>
    have hs' := hs (by simp)
    have hbs := hb b rfl
    rw [suffix_biasShape hP hs' hne] at hbs
    simp only [biasK, pairBiasAt]
    have hWl : W.length ≤ idx.length := by rw [hl]; exact hs'.length_le
    have hol : o.length = q.length := ho.length_eq
    rw [hbs, List.length_append, List.length_append, List.length_map, hol,
      show idx.length + q.length - (W.length + q.length) = idx.length - W.length by omega, List.drop_append_of_le_length (by omega),
      ← suffix_coords hP hs' hl, bcastIdx_eq (inShape_append hin ho)]

theorem netK_eq {P W idx : List ℕ} (hP : P.Nodup) (hne : W ≠ []) (dim : ℕ → ℕ) (hl : idx.length = P.length) (hin : InShape (coords P W idx) (W.map dim))
    (hid : List SubDense) (last : SubDense) (hs : (∃ s ∈ hid ++ [last], s.bias ≠ none) → W <:+ P) : ∀ (d : ℕ), SubBuilt P W dim d hid last →
      ∀ h, netK P W d hid last idx h = netAt (coords P W idx) d hid last h := by
  induction hid with
  | nil =>
    intro d hb h
    have := biasK_eq hP hne dim hl hin last.bias (fun hn => hs ⟨last, by simp, hn⟩) [] [] .nil (by simpa using hb.2)
    rw [List.append_nil] at this
    simp only [netK, netAt, this]
    rfl
  | cons s hid ih =>
    intro d hb h
    obtain ⟨d', k1, k2, k3⟩ := hb
    have hlast : s.kernel.shape.getLastD 0 = d' := by
      rw [k1, show W.map dim ++ [d, d'] = (W.map dim ++ [d]) ++ [d'] by simp, getLastD_append_singleton]
    simp only [netK, netAt, hlast]
    rw [← ih (fun ⟨u, hu, hn⟩ => hs ⟨u, List.mem_cons_of_mem _ hu, hn⟩) d' k3]
    refine netK_congr _ _ _ _ _ _ _ _ fun o ho => ?_
    rw [biasK_eq hP hne dim hl hin s.bias (fun hn => hs ⟨s, by simp, hn⟩) [o] [d'] (.cons ho .nil) k2]
    rfl

/-! ## The tables of the plugin -/

theorem coords_in {P W idx ps : List ℕ} (dim : ℕ → ℕ) (hW : ∀ c ∈ W, c ∈ P) (hl : ps.length = P.length) (hd : ∀ c ∈ W, ps.getD (P.idxOf c) 0 = dim c) (hidx : InShape idx ps) :
    InShape (coords P W idx) (W.map dim) := by
  unfold coords InShape
  rw [List.forall₂_map_left_iff, List.forall₂_map_right_iff]
  refine List.forall₂_same.2 fun c hc => ?_
  rw [← hd c hc]
  have hlt : P.idxOf c < ps.length := by rw [hl]; exact List.idxOf_lt_length_iff.2 (hW c hc)
  have hlt' : P.idxOf c < idx.length := by rw [hidx.length_eq]; exact hlt
  rw [List.getD_eq_getElem?_getD, List.getD_eq_getElem?_getD, List.getElem?_eq_getElem hlt, List.getElem?_eq_getElem hlt']
  exact hidx.get hlt' hlt

theorem gatherNet_eq {P W : List ℕ} (hP : P.Nodup) (hne : W ≠ []) (dim : ℕ → ℕ) (kc : List ℕ) (hin : InShape kc (W.map dim))
    (hid : List SubDense) (last : SubDense) (hs : (∃ s ∈ hid ++ [last], s.bias ≠ none) → W <:+ P) : ∀ (d : ℕ), SubBuilt P W dim d hid last →
      ∃ f, gatherNet kc d (hid ++ [last]) = some f ∧ ∀ h, f h 0 = netAt kc d hid last h := by
  have hkl : kc.length = (W.map dim).length := hin.length_eq
  have hB : inShapeB kc (W.map dim) = true := (inShapeB_iff _ _).2 hin
  induction hid with
  | nil =>
    intro d hb
    obtain ⟨k1, k2⟩ := hb
    have g1 : gatherKernel kc last.kernel = some (d, 1, fun i _ => last.kernel.get (kc ++ [i])) := by
      unfold gatherKernel
      rw [k1, List.take_left' hkl.symm, if_pos hB, if_pos (by simp [hkl]), getD_app_right (k := 0) (by simp [hkl])]
      rfl
    obtain ⟨bf, g2, g3⟩ : ∃ bf, gatherBias kc last.bias = some bf ∧ bf 0 = pairBiasAt last.bias kc [] := by
      cases hbias : last.bias with
      | none => exact ⟨_, rfl, rfl⟩
      | some b =>
        have hbs := k2 b hbias
        rw [suffix_biasShape hP (hs ⟨last, by simp, by simp [hbias]⟩) hne] at hbs
        refine ⟨fun _ => b.get kc, ?_, by simp [pairBiasAt]⟩
        simp only [gatherBias, hbs]
        rw [List.take_of_length_le (by rw [hkl]), if_pos hB, if_pos hkl.symm]
    refine ⟨fun h => Gathered.apply ⟨d, 1, fun i _ => last.kernel.get (kc ++ [i]), bf⟩ last.act h, ?_, fun h => ?_⟩
    · simp only [List.nil_append, gatherNet, SubDense.gather, g1, g2, Option.bind_some, Option.map_some, if_true]
      rfl
    · simp only [Gathered.apply, netAt, g3]
      rfl
  | cons s hid ih =>
    intro d hb
    obtain ⟨d', k1, k2, k3⟩ := hb
    have hlast : s.kernel.shape.getLastD 0 = d' := by
      rw [k1, show W.map dim ++ [d, d'] = (W.map dim ++ [d]) ++ [d'] by simp, getLastD_append_singleton]
    obtain ⟨f, f1, f2⟩ := ih (fun ⟨u, hu, hn⟩ => hs ⟨u, List.mem_cons_of_mem _ hu, hn⟩) d' k3
    have g1 : gatherKernel kc s.kernel = some (d, d', fun i o => s.kernel.get (kc ++ [i, o])) := by
      unfold gatherKernel
      rw [k1, List.take_left' hkl.symm, if_pos hB, if_neg (by simp [hkl]), if_pos (by simp [hkl]), getD_app_right (k := 0) (by simp [hkl]),
        getD_app_right (k := 1) (by simp [hkl])]
      rfl
    obtain ⟨bf, g2, g3⟩ : ∃ bf, gatherBias kc s.bias = some bf ∧ ∀ o < d', bf o = pairBiasAt s.bias kc [o] := by
      cases hbias : s.bias with
      | none => exact ⟨_, rfl, fun _ _ => rfl⟩
      | some b =>
        have hbs := k2 b hbias
        rw [suffix_biasShape hP (hs ⟨s, by simp, by simp [hbias]⟩) hne] at hbs
        refine ⟨fun o => b.get (kc ++ bcastIdx (b.shape.drop kc.length) [o]), ?_, fun o ho => ?_⟩
        · simp only [gatherBias]
          rw [hbs, List.take_left' hkl.symm, if_pos hB, if_neg (by simp [hkl]), if_pos (by simp [hkl])]
        · beta_reduce
          rw [hbs, List.drop_left' hkl.symm, bcastIdx_eq (.cons ho .nil)]
          rfl
    refine ⟨fun h => f (Gathered.apply ⟨d, d', fun i o => s.kernel.get (kc ++ [i, o]), bf⟩ s.act h), ?_, fun h => ?_⟩
    · simp only [List.cons_append, gatherNet, SubDense.gather, g1, g2, Option.bind_some, Option.map_some, if_true, f1]
    · beta_reduce
      rw [f2]
      simp only [netAt, hlast]
      have hc : ∀ (kc : List ℕ) (e : ℕ) (hid : List SubDense) (h h' : ℕ → ℚ), (∀ i < e, h i = h' i) → netAt kc e hid last h = netAt kc e hid last h' := by
        intro kc e hid h h' hh
        cases hid with
        | nil => simp only [netAt]; rw [Finset.sum_congr rfl fun i hi => by rw [hh i (Finset.mem_range.1 hi)]]
        | cons u r =>
          simp only [netAt]
          congr 1
          funext o
          rw [Finset.sum_congr rfl fun i hi => by rw [hh i (Finset.mem_range.1 hi)]]
      refine hc _ _ _ _ _ fun o ho => ?_
      simp only [Gathered.apply, g3 o ho]
      rfl

theorem scaler_eq (n : BnArr) (c : List ℕ) : n.kerasScaler.get c = n.alkaidScaler c := by
  unfold BnArr.kerasScaler BnArr.alkaidScaler
  cases n.gamma <;> rfl

theorem offset_eq (n : BnArr) (c : List ℕ) : n.kerasOffset.get c = n.alkaidOffset c := by
  unfold BnArr.kerasOffset BnArr.alkaidOffset
  cases n.beta with
  | none => simp [scaler_eq]
  | some b => simp [scaler_eq]; ring

theorem bnAt_eq (n : BnArr) (c : List ℕ) (v : ℚ) : (v * n.alkaidScaler c + n.alkaidOffset c) / n.root = bnAt n c v := by
  unfold BnArr.alkaidOffset BnArr.alkaidScaler bnAt
  cases n.gamma <;> cases n.beta <;> ring

section Layer
variable {t : EinsumTArr}

/-- Both sides compute the function of the pair. -/
theorem pair_eq (ht : EinsumTBuilt t) (ho : AxesInOrder t) (B : ℕ) (τ : ℕ → ℕ) (hτ : InShape (t.e.presum.map τ) (t.e.presum.map (batchDim t B))) :
    (∀ v, preK t (t.e.presum.map τ) v = pairAt t τ v) ∧ t.pairFn (t.e.presum.map τ) = some (pairAt t τ) := by
  obtain ⟨b, P', o, h1, h2, h3, h4, h5, h6, h7, h8⟩ := built_heads ht
  have hP := presum_nodup ht
  have hc : ∀ W : List ℕ, (∀ c ∈ W, c ∈ t.e.presum) → coords t.e.presum W (t.e.presum.map τ) = W.map τ :=
    fun W hW => List.map_congr_left fun c hc => getD_idxOf_map τ (hW c hc)
  have hl : (t.e.presum.map τ).length = t.e.presum.length := by simp
  have hkin := coords_in t.dim (kernel_sub t) (by simp) (dim_known ht B _ (kernel_sub t) (by rw [h3]; exact h6)) hτ
  have hnet := netK_eq hP ht.ker.2 t.dim hl hkin t.hidden t.last ho.1 1 ht.sub
  obtain ⟨f, f1, f2⟩ := gatherNet_eq hP ht.ker.2 t.dim _ hkin t.hidden t.last ho.1 1 ht.sub
  rw [hc _ (kernel_sub t)] at hnet f1 f2
  have hka : t.e.kernelAxes.map (fun a => (t.e.presum.map τ).getD a 0) = t.e.kernel.map τ := by
    rw [EinsumT.kernelAxes, List.map_map]
    exact hc _ (kernel_sub t)
  unfold preK EinsumTArr.pairFn pairAt
  rw [hka, f1, Option.bind_some]
  cases hbn : t.bn with
  | none => exact ⟨fun v => hnet _, by simp [bnAlkaid, f2]⟩
  | some n =>
    obtain ⟨n1, n2, n3⟩ := ht.bn n hbn
    have hnin := coords_in t.dim n2 (by simp) (dim_known ht B _ n2 (by rw [h3]; exact h7 n hbn)) hτ
    have hbi := bnIdx_eq hP (ho.2 n hbn) t.dim hl hnin
    have hba : (t.e.bnAxes n.norm).map (fun a => (t.e.presum.map τ).getD a 0) = n.norm.map τ := by
      rw [EinsumT.bnAxes, List.map_map]
      exact hc _ n2
    rw [hc _ n2] at hbi hnin
    refine ⟨fun v => ?_, ?_⟩
    · simp only [bnK, hbi, hnet, scaler_eq, offset_eq, bnAt_eq]
    · simp only [bnAlkaid, hba, n3, (inShapeB_iff _ _).2 hnin, if_true, Option.map_some, bnAt_eq, f2]

theorem label_of {P idx : List ℕ} (hP : P.Nodup) (hl : idx.length = P.length) : P.map (fun c => idx.getD (P.idxOf c) 0) = idx := map_getD_idxOf P hP idx hl

/-- What Keras and the plugin tabulate at an index. -/
theorem pairFn_eq (ht : EinsumTBuilt t) (ho : AxesInOrder t) (B : ℕ) (idx : List ℕ) (hidx : InShape idx (t.e.presum.map (batchDim t B))) :
    t.pairFn idx = some (preK t idx) := by
  have hl : idx.length = t.e.presum.length := by rw [hidx.length_eq, List.length_map]
  have hid := label_of (presum_nodup ht) hl
  obtain ⟨p1, p2⟩ := pair_eq ht ho B (fun c => idx.getD (t.e.presum.idxOf c) 0) (by rw [hid]; exact hidx)
  rw [hid] at p1 p2
  rw [p2]
  congr 1
  funext v
  exact (p1 v).symm

end Layer

end HGQ
