import Verif.Props.RnnArr

/-!
# C110: layers and models with recurrent and spiking layers; C104 for them
-/
namespace HGQ
open Spec

/-! ## The time loop -/

variable {B : ℕ} {σ : List ℕ}

theorem p_timeSlice (hσ : ∀ j ∈ σ, j < B) (x : Arr ℚ) (hx : IsBatch B x) (t : ℕ) : P1 B σ (timeSlice x t) (timeSlice (pick σ x) t) := by
  intro out h
  obtain ⟨s, hs⟩ := hx
  unfold timeSlice at h ⊢
  rw [pick_shape σ x hs]
  rw [hs] at h
  match s, hs, h with
  | [T, d], hs, h =>
    simp only at h ⊢
    split at h
    swap
    · simp at h
    rename_i ht
    rw [if_pos ht]
    obtain rfl := Option.some.inj h
    refine ⟨⟨_, rfl⟩, congrArg some (norm_pick hσ _ _ ⟨_, rfl⟩ ⟨_, rfl⟩ rfl fun j hj idx _ => ?_)⟩
    simp only [List.getD_cons_zero]
    exact pick_get σ x j hj _
  | [], _, h => simp at h
  | [_], _, h => simp at h
  | _ :: _ :: _ :: _, _, h => simp at h

theorem p_slices (hσ : ∀ j ∈ σ, j < B) (x : Arr ℚ) (hx : IsBatch B x) (ts : List ℕ) : ∀ ys, ts.mapM (timeSlice x) = some ys →
    (∀ y ∈ ys, IsBatch B y) ∧ ts.mapM (timeSlice (pick σ x)) = some (ys.map (pick σ)) := by
  induction ts with
  | nil => intro ys h; simp at h; subst h; simp
  | cons t ts ih =>
    intro ys h
    rw [List.mapM_cons] at h ⊢
    simp only [Option.pure_def, Option.bind_eq_bind] at h ⊢
    obtain ⟨y, hy, h⟩ := Option.bind_eq_some_iff.1 h
    obtain ⟨zs, hzs, h⟩ := Option.bind_eq_some_iff.1 h
    obtain rfl := Option.some.inj h
    obtain ⟨h1, h2⟩ := p_timeSlice hσ x hx t y hy
    obtain ⟨h3, h4⟩ := ih zs hzs
    refine ⟨fun z hz => ?_, by rw [h2, Option.bind_some, h4]; rfl⟩
    rcases List.mem_cons.1 hz with rfl | hz
    · exact h1
    · exact h3 z hz

theorem p_loop (K A : Arr ℚ → Arr ℚ → Option (Arr ℚ × Arr ℚ)) (h : ∀ x s, IsBatch B x → IsBatch B s → P2 B σ (K x s) (A (pick σ x) (pick σ s)))
    (xs : List (Arr ℚ)) : ∀ s, (∀ x ∈ xs, IsBatch B x) → IsBatch B s → ∀ r, kerasLoop K xs s = some r →
      (∀ y ∈ r.1, IsBatch B y) ∧ IsBatch B r.2 ∧ kerasLoop A (xs.map (pick σ)) (pick σ s) = some (r.1.map (pick σ), pick σ r.2) := by
  induction xs with
  | nil => intro s _ hs r hr; obtain rfl := Option.some.inj hr; exact ⟨by simp, hs, rfl⟩
  | cons x xs ih =>
    intro s hx hs r hr
    simp only [kerasLoop] at hr
    obtain ⟨p, hp, hr⟩ := Option.bind_eq_some_iff.1 hr
    obtain ⟨q, hq, rfl⟩ := Option.map_eq_some_iff.1 hr
    obtain ⟨⟨h1, h2⟩, h3⟩ := h x s (hx x (by simp)) hs p hp
    obtain ⟨h4, h5, h6⟩ := ih p.2 (fun y hy => hx y (by simp [hy])) h2 q hq
    refine ⟨fun y hy => ?_, h5, by simp only [List.map_cons, kerasLoop, h3, Option.bind_some, h6, Option.map_some]⟩
    rcases List.mem_cons.1 hy with rfl | hy
    · exact h1
    · exact h4 y hy

theorem alkaidFold_none (A : Arr ℚ → Arr ℚ → Option (Arr ℚ × Arr ℚ)) (x : Arr ℚ) (ts : List ℕ) : ts.foldl (alkaidBody A x) none = none := by
  induction ts with
  | nil => rfl
  | cons t ts ih => simpa [List.foldl_cons, alkaidBody] using ih

theorem alkaidFold (A : Arr ℚ → Arr ℚ → Option (Arr ℚ × Arr ℚ)) (x : Arr ℚ) (ts : List ℕ) : ∀ acc s, ts.foldl (alkaidBody A x) (some (acc, s)) =
    (ts.mapM (timeSlice x)).bind fun ys => (kerasLoop A ys s).map fun r => (acc ++ r.1, r.2) := by
  induction ts with
  | nil => intro acc s; simp [kerasLoop]
  | cons t ts ih =>
    intro acc s
    rw [List.foldl_cons, List.mapM_cons]
    simp only [alkaidBody, Option.bind_some, Option.pure_def, Option.bind_eq_bind]
    cases timeSlice x t with
    | none => simpa using alkaidFold_none A x ts
    | some y =>
      simp only [Option.bind_some]
      cases hA : A y s with
      | none =>
        rw [Option.map_none]
        refine (alkaidFold_none A x ts).trans ?_
        cases ts.mapM (timeSlice x) with
        | none => rfl
        | some ys => simp [kerasLoop, hA]
      | some r =>
        rw [Option.map_some]
        refine (ih _ _).trans ?_
        cases ts.mapM (timeSlice x) with
        | none => rfl
        | some ys =>
          simp only [Option.bind_some, kerasLoop, hA]
          cases kerasLoop A ys r.2 with
          | none => rfl
          | some q => simp

theorem mapM_reverse (f : ℕ → Option (Arr ℚ)) (ts : List ℕ) : ts.reverse.mapM f = (ts.mapM f).map List.reverse := by
  induction ts with
  | nil => rfl
  | cons t ts ih =>
    rw [List.reverse_cons, List.mapM_append, ih, List.mapM_cons]
    simp only [List.mapM_cons, List.mapM_nil, Option.pure_def, Option.bind_eq_bind]
    cases ts.mapM f <;> cases f t <;> simp

theorem steps_reverse (T : ℕ) : ((List.range T).map fun k => T - 1 - k) = (List.range T).reverse := by
  apply List.ext_getElem
  · simp
  · intro k h1 h2
    simp

theorem alkaidRun_eq (l : RnnLayer) (x s : Arr ℚ) : l.alkaidRun x s =
    ((List.range (timeSteps x)).mapM (timeSlice x)).bind fun ys => kerasLoop l.cell.stepA (if l.goBackwards then ys.reverse else ys) s := by
  unfold RnnLayer.alkaidRun
  cases l.goBackwards with
  | false =>
    simp only [Bool.false_eq_true, if_false]
    rw [alkaidFold]
    simp
  | true =>
    simp only [if_true]
    rw [steps_reverse, alkaidFold, mapM_reverse]
    cases (List.range (timeSteps x)).mapM (timeSlice x) <;> simp

theorem pick_zero (σ : List ℕ) (B u : ℕ) : pick σ (zeroState B u) = zeroState σ.length u := by
  unfold pick zeroState
  congr 1
  funext idx
  cases idx <;> simp

theorem p_stack (hσ : ∀ j ∈ σ, j < B) (ys : List (Arr ℚ)) (hys : ∀ y ∈ ys, IsBatch B y) : P1 B σ (stackTime ys) (stackTime (ys.map (pick σ))) := by
  intro out h
  cases ys with
  | nil => simp [stackTime] at h
  | cons y ys =>
    obtain ⟨s, hs⟩ := hys y (by simp)
    unfold stackTime at h ⊢
    simp only [List.map_cons] at h ⊢
    rw [pick_shape σ y hs]
    rw [hs] at h
    match s, hs, h with
    | [u], hs, h =>
      simp only at h ⊢
      split at h
      swap
      · simp at h
      rename_i hall
      have hall' : ((pick σ y :: ys.map (pick σ)).all fun z => decide (z.shape = [σ.length, u])) = true := by
        rw [List.all_eq_true] at hall ⊢
        intro z hz
        obtain ⟨w, hw, rfl⟩ := List.mem_map.1 (show z ∈ (y :: ys).map (pick σ) from hz)
        exact decide_eq_true (pick_shape σ w (of_decide_eq_true (hall w hw)))
      rw [if_pos hall']
      obtain rfl := Option.some.inj h
      refine ⟨⟨_, rfl⟩, congrArg some (norm_pick hσ _ _ ⟨_, rfl⟩ ⟨_, rfl⟩ (by simp) fun j hj idx _ => ?_)⟩
      simp only [List.getD_cons_zero]
      have e : ((pick σ y :: ys.map (pick σ)).getD ((j :: idx).getD 1 0) (pick σ y)) = pick σ ((y :: ys).getD ((j :: idx).getD 1 0) y) := by
        rw [← List.map_cons]
        simp only [List.getD_eq_getElem?_getD, List.getElem?_map]
        cases (y :: ys)[(j :: idx)[1]?.getD 0]? <;> rfl
      rw [e, pick_get σ _ j hj]
      rfl
    | [], _, h => simp at h
    | _ :: _ :: _, _, h => simp at h

theorem p_result (hσ : ∀ j ∈ σ, j < B) (o : RnnOut) (r : List (Arr ℚ) × Arr ℚ) (h1 : ∀ y ∈ r.1, IsBatch B y) (h2 : IsBatch B r.2) :
    P1 B σ (o.result r) (o.result (r.1.map (pick σ), pick σ r.2)) := by
  cases o with
  | seq => exact p_stack hσ r.1 h1
  | last =>
    intro out h
    have h : r.1.getLast? = some out := h
    refine ⟨h1 out (List.mem_of_getLast? h), ?_⟩
    simp only [RnnOut.result]
    rw [List.getLast?_map, h]
    rfl
  | state =>
    intro out h
    simp only [RnnOut.result] at h ⊢
    split at h
    · simp at h
    · rename_i hne
      obtain rfl := Option.some.inj h
      exact ⟨h2, by rw [if_neg (by simpa using hne)]⟩

/-- The whole loop, with steps `A` on the chosen samples. -/
theorem p_run (hσ : ∀ j ∈ σ, j < B) (l : RnnLayer) (A : Arr ℚ → Arr ℚ → Option (Arr ℚ × Arr ℚ))
    (h : ∀ x s, IsBatch B x → IsBatch B s → P2 B σ (l.cell.stepK x s) (A (pick σ x) (pick σ s))) (x s : Arr ℚ) (hx : IsBatch B x) (hs : IsBatch B s) :
    P1 B σ ((l.kerasRun x s).bind l.out.result) ((((List.range (timeSteps (pick σ x))).mapM (timeSlice (pick σ x))).bind fun ys =>
      kerasLoop A (if l.goBackwards then ys.reverse else ys) (pick σ s)).bind l.out.result) := by
  intro out hout
  obtain ⟨r, hr, hout⟩ := Option.bind_eq_some_iff.1 hout
  obtain ⟨ys, hys, hr⟩ := Option.bind_eq_some_iff.1 hr
  obtain ⟨h1, h2⟩ := p_slices hσ x hx _ ys hys
  have ht : timeSteps (pick σ x) = timeSteps x := by
    obtain ⟨t, ht⟩ := hx
    simp [timeSteps, pick, ht]
  obtain ⟨h3, h4, h5⟩ := p_loop l.cell.stepK A h (if l.goBackwards then ys.reverse else ys) s
    (fun y hy => h1 y (by split at hy <;> simpa using hy)) hs r hr
  obtain ⟨h6, h7⟩ := p_result hσ l.out r h3 h4 out hout
  refine ⟨h6, ?_⟩
  rw [ht, h2, Option.bind_some]
  have e : (if l.goBackwards = true then (ys.map (pick σ)).reverse else ys.map (pick σ)) = (if l.goBackwards then ys.reverse else ys).map (pick σ) := by
    split <;> simp
  rw [e, h5, Option.bind_some, h7]

theorem getD_head {x : Arr ℚ} {B : ℕ} (hx : IsBatch B x) : x.shape.getD 0 0 = B := by
  obtain ⟨s, hs⟩ := hx
  rw [hs]; rfl

theorem pick_len {x : Arr ℚ} (hx : IsBatch B x) : (pick σ x).shape.length = x.shape.length := by
  obtain ⟨s, hs⟩ := hx
  rw [pick_shape σ x hs, hs]; rfl

/-- **C104 (recurrent and spiking layers, partial).** On any selection of samples of a batch, `QSimpleRNN`, `QGRU`, `QSimpleSNN` and `QLIF` layers (with or without
given initial state, forwards or backwards, returning sequences, the last output or the state) and the layers of C104 give the selection of what they give on the
whole batch. -/
theorem C104_recurrent_partial (hσ : ∀ j ∈ σ, j < B) (l : ZLayer) (xs : List (Arr ℚ)) (hok : ZLayerBatch l xs) (hB : ∀ x ∈ xs, IsBatch B x) :
    Batchwise B σ l.keras xs := by
  cases l with
  | base l => exact C104_attention_tables_partial hσ l xs hok hB
  | rnn l =>
    intro out h
    have hc := fun x s hx hs => cell_batch hσ l.cell hok x s hx hs
    match xs, hB, h with
    | [x], hB, h =>
      have hx := hB x (by simp)
      simp only [ZLayer.keras, RnnLayer.keras, List.map_cons, List.map_nil] at h ⊢
      split at h
      swap
      · simp at h
      rename_i hl
      rw [getD_head hx] at h
      obtain ⟨h1, h2⟩ := p_run hσ l _ hc x _ hx ⟨_, rfl⟩ out h
      refine ⟨h1, ?_⟩
      rw [if_pos (by rw [pick_len hx]; exact hl), getD_head (pick_batch σ x)]
      rw [pick_zero] at h2
      exact h2
    | [x, s], hB, h =>
      have hx := hB x (by simp)
      have hs := hB s (by simp)
      simp only [ZLayer.keras, RnnLayer.keras, List.map_cons, List.map_nil] at h ⊢
      split at h
      swap
      · simp at h
      rename_i hl
      obtain ⟨h1, h2⟩ := p_run hσ l _ hc x s hx hs out h
      refine ⟨h1, ?_⟩
      rw [if_pos ⟨by rw [pick_len hx]; exact hl.1, by
        rw [getD_head (pick_batch σ x), pick_shape σ s hl.2]⟩]
      exact h2
    | [], _, h => simp [ZLayer.keras, RnnLayer.keras] at h
    | _ :: _ :: _ :: _, _, h => simp [ZLayer.keras, RnnLayer.keras] at h

/-- **C104 (models with recurrent and spiking layers, partial).** As `C104_batching_partial`. -/
theorem C104_recurrent_models_partial {T : Type} [DecidableEq T] (B : ℕ) (σ : List ℕ) (hσ : ∀ j ∈ σ, j < B) (inputs : List (T × Arr ℚ))
    (byDepth : ℕ → List (ANode T ZLayer)) (D : ℕ) (outputs : List T) (kval : T → Arr ℚ) (hin : ∀ p ∈ inputs, IsBatch B p.2)
    (hacyc : DepthOrdered inputs (evalGraph ZLayer.keras byDepth) D) (hsol : Solves inputs (parseModel (evalGraph ZLayer.keras byDepth) D) kval)
    (hok : ∀ d ≤ D, ∀ n ∈ byDepth d, n.isInput = false → ZLayerBatch n.layer (n.requires.map kval))
    (hout : ∀ t ∈ outputs, t ∈ inputs.map (·.1) ∨ ∃ d ≤ D, ∃ n ∈ byDepth d, n.isInput = false ∧ t = n.produces) :
    traceOutputs inputs (parseModel (evalGraph ZLayer.keras byDepth) D) outputs = some (outputs.map kval) ∧
    traceOutputs (inputs.map fun p => (p.1, pick σ p.2)) (parseModel (evalGraph ZLayer.keras byDepth) D) outputs =
      some (outputs.map fun t => pick σ (kval t)) := by
  refine ⟨(C45_graph_replay _ _ D outputs _ hacyc hsol ?_).1, graph_pick ZLayer.keras ZLayer.keras ZLayerBatch
    (fun l xs hl hB => C104_recurrent_partial hσ l xs hl hB) inputs byDepth D outputs kval hin hacyc hsol hok hout⟩
  intro t ht
  rcases hout t ht with h | ⟨d, hd, n, hn, hi, rfl⟩
  · exact Or.inl h
  · exact Or.inr ⟨n.eval ZLayer.keras, (mem_parseModel _ _ _).2 ⟨d, hd, List.mem_map_of_mem hn⟩, hi, by simp [ANode.eval]⟩

/-- **C110 (layers, partial).** For recurrent and spiking layers and the layers of C105 and C109: whenever Keras computes the layer on a batch, the plugin's conversion
on each sample of it gives exactly that sample of the result. -/
theorem C110_layer_partial {b : ℕ} (hb : b < B) (l : ZLayer) (xs : List (Arr ℚ)) (hok : ZLayerAlkaid l xs) (hB : ∀ x ∈ xs, IsBatch B x) (out : Arr ℚ)
    (h : l.keras xs = some out) : IsBatch B out ∧ l.alkaid (xs.map (pick [b])) = some (pick [b] out) := by
  cases l with
  | base l => exact C109_layer_partial hb l xs hok hB out h
  | rnn l =>
    have hc := fun x s hx hs => cell_alkaid hb l.cell hok x s hx hs
    match xs, hB, h with
    | [x], hB, h =>
      have hx := hB x (by simp)
      simp only [ZLayer.keras, ZLayer.alkaid, RnnLayer.keras, RnnLayer.alkaid, List.map_cons, List.map_nil] at h ⊢
      split at h
      swap
      · simp at h
      rename_i hl
      rw [getD_head hx] at h
      obtain ⟨h1, h2⟩ := p_run (one_lt hb) l _ hc x _ hx ⟨_, rfl⟩ out h
      refine ⟨h1, ?_⟩
      rw [if_pos (by rw [pick_len hx]; exact hl), getD_head (pick_batch [b] x), alkaidRun_eq]
      rw [pick_zero] at h2
      exact h2
    | [x, s], hB, h =>
      have hx := hB x (by simp)
      have hs := hB s (by simp)
      simp only [ZLayer.keras, ZLayer.alkaid, RnnLayer.keras, RnnLayer.alkaid, List.map_cons, List.map_nil] at h ⊢
      split at h
      swap
      · simp at h
      rename_i hl
      obtain ⟨h1, h2⟩ := p_run (one_lt hb) l _ hc x s hx hs out h
      refine ⟨h1, ?_⟩
      rw [if_pos (by rw [pick_len hx]; exact hl.1), alkaidRun_eq]
      exact h2
    | [], _, h => simp [ZLayer.keras, RnnLayer.keras] at h
    | _ :: _ :: _ :: _, _, h => simp [ZLayer.keras, RnnLayer.keras] at h

/-- **C110 (partial).** For every functional model (any acyclic graph) of recurrent and spiking layers and the layers of C105 and C109, every batch and every sample
of it: the conversion by the plugin gives exactly the sample of the Keras predictions. -/
theorem C110_end_to_end_partial {T : Type} [DecidableEq T] (B b : ℕ) (hb : b < B) (inputs : List (T × Arr ℚ)) (byDepth : ℕ → List (ANode T ZLayer)) (D : ℕ)
    (outputs : List T) (kval : T → Arr ℚ) (hin : ∀ p ∈ inputs, IsBatch B p.2)
    (hacyc : DepthOrdered inputs (evalGraph ZLayer.keras byDepth) D) (hsol : Solves inputs (parseModel (evalGraph ZLayer.keras byDepth) D) kval)
    (hok : ∀ d ≤ D, ∀ n ∈ byDepth d, n.isInput = false → ZLayerAlkaid n.layer (n.requires.map kval))
    (hout : ∀ t ∈ outputs, t ∈ inputs.map (·.1) ∨ ∃ d ≤ D, ∃ n ∈ byDepth d, n.isInput = false ∧ t = n.produces) :
    traceOutputs (inputs.map fun p => (p.1, pick [b] p.2)) (parseModel (evalGraph ZLayer.alkaid byDepth) D) outputs =
      some (outputs.map fun t => pick [b] (kval t)) :=
  graph_pick ZLayer.keras ZLayer.alkaid ZLayerAlkaid (fun l xs hl hB out h => C110_layer_partial hb l xs hl hB out h) inputs byDepth D outputs kval hin hacyc hsol hok hout

end HGQ
