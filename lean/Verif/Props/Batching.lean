import Verif.Props.EndToEnd

/-!
# C104: predictions do not depend on how samples are batched

Specification: `Spec.pick σ x`, the samples `σ` of a batch in this order (subsets, permutations, repetitions).
-/
namespace HGQ
open Spec

/-- The samples numbered `σ` of a batch, in this order; 0 outside the shape. -/
def Spec.pick (σ : List ℕ) (x : Arr ℚ) : Arr ℚ :=
  ⟨σ.length :: x.shape.tail, fun idx => match idx with
    | [] => 0
    | j :: r => if j < σ.length then x.get (σ.getD j 0 :: r) else 0⟩

/-- Widths of a quantizer do not vary along the batch axis. -/
def Spec.QuantBatch (q : ArrQuant) : Prop := q.ws.head? = some 1

/-- What a core demands: batch normalization along an axis other than the batch axis; einsum with the batch label first, in the
input(s) and the output only. -/
def Spec.CoreBatch : Core → Prop
  | .bn ax _ _ _ => 1 ≤ ax
  | .einsumDense inL kerL outL _ _ => ∃ l r r', inL = l :: r ∧ outL = l :: r' ∧ l ∉ r ∧ l ∉ r' ∧ l ∉ kerL
  | .einsum aL bL outL => ∃ l a b o, aL = l :: a ∧ bL = l :: b ∧ outL = l :: o ∧ l ∉ a ∧ l ∉ b ∧ l ∉ o
  | _ => True

/-- Layers; concatenation, repetition and moving of an axis other than the batch axis of the given inputs. -/
def Spec.LayerBatch : LLayer → List (Arr ℚ) → Prop
  | .quantizer q, _ => QuantBatch q
  | .qlayer iq core _ oq, _ => (∀ qs ∈ iq, ∀ q ∈ qs, QuantBatch q) ∧ CoreBatch core ∧ ∀ q ∈ oq, QuantBatch q
  | .concat z, xs => ∀ x ∈ xs.head?, z ≠ 0 ∧ z ≠ -(x.shape.length : ℤ)
  | .repeat _ z, xs => ∀ x ∈ xs, z ≠ 0 ∧ z ≠ -(x.shape.length : ℤ)
  | .moveaxis s d, xs => ∀ x ∈ xs, (s ≠ 0 ∧ s ≠ -(x.shape.length : ℤ)) ∧ d ≠ 0 ∧ d ≠ -(x.shape.length : ℤ)
  | _, _ => True

/-- On the picked samples the operation gives the picked samples of the result. -/
def Spec.Batchwise (B : ℕ) (σ : List ℕ) (k : List (Arr ℚ) → Option (Arr ℚ)) (xs : List (Arr ℚ)) : Prop :=
  ∀ out, k xs = some out → IsBatch B out ∧ k (xs.map (pick σ)) = some (pick σ out)

/-- The same before normalisation. -/
def BatchRaw (B : ℕ) (σ : List ℕ) (k : List (Arr ℚ) → Option (Arr ℚ)) (xs : List (Arr ℚ)) : Prop :=
  ∀ out, k xs = some out → IsBatch B out ∧ ∃ out', k (xs.map (pick σ)) = some out' ∧ IsBatch σ.length out' ∧
    out'.shape.tail = out.shape.tail ∧ ∀ j < σ.length, ∀ idx, InShape idx out.shape.tail → out'.get (j :: idx) = out.get (σ.getD j 0 :: idx)

theorem pick_sample (σ : List ℕ) (x : Arr ℚ) (j : ℕ) (hj : j < σ.length) : (pick σ x).sample j = x.sample (σ.getD j 0) := by
  simp [Arr.sample, pick, hj]

theorem pick_get (σ : List ℕ) (x : Arr ℚ) (j : ℕ) (hj : j < σ.length) (r : List ℕ) : (pick σ x).get (j :: r) = x.get (σ.getD j 0 :: r) := by
  simp [pick, hj]

theorem pick_shape {B : ℕ} (σ : List ℕ) (x : Arr ℚ) {s : List ℕ} (hs : x.shape = B :: s) : (pick σ x).shape = σ.length :: s := by
  simp [pick, hs]

theorem pick_batch (σ : List ℕ) (x : Arr ℚ) : IsBatch σ.length (pick σ x) := ⟨_, rfl⟩

theorem pick_samples (σ : List ℕ) (xs : List (Arr ℚ)) (j : ℕ) (hj : j < σ.length) :
    (xs.map (pick σ)).map (·.sample j) = xs.map (·.sample (σ.getD j 0)) := by
  rw [List.map_map]; exact List.map_congr_left fun x _ => pick_sample σ x j hj

theorem getD_lt {B : ℕ} {σ : List ℕ} (hσ : ∀ j ∈ σ, j < B) {j : ℕ} (hj : j < σ.length) : σ.getD j 0 < B := by
  have e : σ.getD j 0 = σ[j] := by simp [List.getD, hj]
  rw [e]; exact hσ _ (List.getElem_mem hj)

theorem getLastD_skip (j : ℕ) {idx : List ℕ} (h : idx ≠ []) : (j :: idx).getLastD 0 = idx.getLastD 0 := by
  cases idx with
  | nil => exact absurd rfl h
  | cons i idx => simp

theorem norm_pick {B : ℕ} {σ : List ℕ} (hσ : ∀ j ∈ σ, j < B) (o o' : Arr ℚ) (hB : IsBatch B o) (hB' : IsBatch σ.length o')
    (ht : o'.shape.tail = o.shape.tail)
    (hg : ∀ j < σ.length, ∀ idx, InShape idx o.shape.tail → o'.get (j :: idx) = o.get (σ.getD j 0 :: idx)) : o'.norm = pick σ o.norm := by
  obtain ⟨s, hs⟩ := hB
  obtain ⟨s', hs'⟩ := hB'
  have hss : s' = s := by simpa [hs, hs'] using ht
  subst hss
  unfold Arr.norm pick
  simp only [hs, hs', List.tail_cons]
  congr 1
  funext idx
  cases idx with
  | nil => simp [inShapeB]
  | cons j r =>
    simp only [inShapeB, Bool.and_eq_true, decide_eq_true_eq]
    by_cases hj : j < σ.length
    · simp only [hj, true_and, if_true, getD_lt hσ hj]
      split
      · rename_i hi
        exact hg j hj r (by rw [hs]; exact (inShapeB_iff _ _).1 hi)
      · rfl
    · simp [hj]

theorem batch_run {B : ℕ} {σ : List ℕ} (hσ : ∀ j ∈ σ, j < B) {k : List (Arr ℚ) → Option (Arr ℚ)} {xs : List (Arr ℚ)} (h : BatchRaw B σ k xs) :
    Batchwise B σ (fun xs => run (k xs)) xs := by
  intro out hout
  simp only [run, Option.map_eq_some_iff] at hout
  obtain ⟨o, ho, rfl⟩ := hout
  obtain ⟨hB, o', ho', hB', ht, hg⟩ := h o ho
  refine ⟨hB, ?_⟩
  simp only [run, ho', Option.map_some, norm_pick hσ o o' hB hB' ht hg]

/-- Operations with a replay on samples: only success and the shape have to be checked. -/
theorem braw_of {B : ℕ} {σ : List ℕ} (hσ : ∀ j ∈ σ, j < B) {k r : List (Arr ℚ) → Option (Arr ℚ)} {xs : List (Arr ℚ)}
    (h1 : FaithfulRaw B k r xs) (h2 : FaithfulRaw σ.length k r (xs.map (pick σ)))
    (h3 : ∀ out, k xs = some out → ∃ out', k (xs.map (pick σ)) = some out' ∧ out'.shape.tail = out.shape.tail) : BatchRaw B σ k xs := by
  intro out ho
  obtain ⟨hB, hf⟩ := h1 out ho
  obtain ⟨out', ho', ht⟩ := h3 out ho
  obtain ⟨hB', hf'⟩ := h2 out' ho'
  refine ⟨hB, out', ho', hB', ht, fun j hj idx hidx => ?_⟩
  obtain ⟨a, ha, ha'⟩ := hf _ (getD_lt hσ hj)
  obtain ⟨c, hc, hc'⟩ := hf' j hj
  rw [pick_samples σ xs j hj, ha] at hc
  cases hc
  have e1 := ha'.2 idx hidx
  have e2 := hc'.2 idx (by simpa [Arr.sample, ht] using hidx)
  exact e2.trans e1.symm

theorem batches_pick (σ : List ℕ) (xs : List (Arr ℚ)) : ∀ x ∈ xs.map (pick σ), IsBatch σ.length x := by
  intro x hx
  obtain ⟨y, _, rfl⟩ := List.mem_map.1 hx
  exact pick_batch σ y

/-- One input. -/
theorem braw_single {B : ℕ} {σ : List ℕ} {k : Arr ℚ → Option (Arr ℚ)} {xs : List (Arr ℚ)} (hB : ∀ x ∈ xs, IsBatch B x)
    (h : ∀ x ∈ xs, IsBatch B x → ∀ out, k x = some out → IsBatch B out ∧ ∃ out', k (pick σ x) = some out' ∧ IsBatch σ.length out' ∧
      out'.shape.tail = out.shape.tail ∧ ∀ j < σ.length, ∀ idx, InShape idx out.shape.tail → out'.get (j :: idx) = out.get (σ.getD j 0 :: idx)) :
    BatchRaw B σ (single k) xs := by
  intro out hout
  match xs, hB, h, hout with
  | [x], hB, h, hout => exact h x (by simp) (hB x (by simp)) out hout
  | [], _, _, hout => simp [single] at hout
  | _ :: _ :: _, _, _, hout => simp [single] at hout

theorem succ_single {σ : List ℕ} {k : Arr ℚ → Option (Arr ℚ)} {xs : List (Arr ℚ)}
    (h : ∀ x ∈ xs, ∀ out, k x = some out → ∃ out', k (pick σ x) = some out' ∧ out'.shape.tail = out.shape.tail) :
    ∀ out, single k xs = some out → ∃ out', single k (xs.map (pick σ)) = some out' ∧ out'.shape.tail = out.shape.tail := by
  intro out hout
  match xs, h, hout with
  | [x], h, hout => exact h x (by simp) out hout
  | [], _, hout => simp [single] at hout
  | _ :: _ :: _, _, hout => simp [single] at hout

/-! ## Quantizers -/

theorem quant_batch {B : ℕ} {σ : List ℕ} (q : ArrQuant) (hq : QuantBatch q) (x : Arr ℚ) (hx : IsBatch B x) (out : Arr ℚ)
    (h : q.keras x = some out) : IsBatch B out ∧ ∃ out', q.keras (pick σ x) = some out' ∧ IsBatch σ.length out' ∧
      out'.shape.tail = out.shape.tail ∧ ∀ j < σ.length, ∀ idx, InShape idx out.shape.tail → out'.get (j :: idx) = out.get (σ.getD j 0 :: idx) := by
  obtain ⟨s, hs⟩ := hx
  obtain ⟨ws, hws⟩ : ∃ ws, q.ws = 1 :: ws := by
    unfold QuantBatch at hq
    cases hw : q.ws with
    | nil => simp [hw] at hq
    | cons w ws => simp [hw] at hq; exact ⟨ws, by rw [hq]⟩
  unfold ArrQuant.keras at h
  split at h
  · rename_i hb
    simp only [Option.some.injEq] at h
    subst h
    rw [hws, hs] at hb
    simp only [bcastOk, Bool.and_eq_true] at hb
    refine ⟨⟨s, hs⟩, ?_⟩
    unfold ArrQuant.keras
    rw [if_pos (by rw [hws, pick_shape σ x hs]; simp [bcastOk, hb.2])]
    refine ⟨_, rfl, pick_batch σ x, by simp [pick], fun j hj idx _ => ?_⟩
    have e : bcastIdx q.ws (j :: idx) = bcastIdx q.ws (σ.getD j 0 :: idx) := by simp [hws, bcastIdx]
    simp only [e, pick_get σ x j hj]
  · simp at h

/-! ## Merges -/

theorem npBin_fold (op : ℚ → ℚ → ℚ) (p : Arr ℚ) (r : List (Arr ℚ)) (u : List ℕ)
    (h : r.foldlM (fun s q => bcDims s q.shape) p.shape = some u) : ∃ out, r.foldlM (npBin op) p = some out ∧ out.shape = u := by
  induction r generalizing p with
  | nil =>
    simp only [List.foldlM_nil, pure, Option.some.injEq] at h
    exact ⟨p, rfl, h⟩
  | cons q r ih =>
    simp only [List.foldlM_cons] at h ⊢
    cases hb : bcDims p.shape q.shape with
    | none => simp [hb] at h
    | some v =>
      rw [hb] at h
      simp only [npBin, hb, Option.map_some]
      exact ih _ h

theorem foldlM_bcDims_mk (n : ℕ) (r : List (List ℕ)) (s u : List ℕ) (h : r.foldlM bcDims s = some u) :
    (r.map (n :: ·)).foldlM bcDims (n :: s) = some (n :: u) := by
  induction r generalizing s with
  | nil => simp only [List.foldlM_nil, pure, Option.some.injEq] at h; subst h; rfl
  | cons t r ih =>
    simp only [List.map_cons, List.foldlM_cons] at h ⊢
    cases hb : bcDims s t with
    | none => simp [hb] at h
    | some v =>
      rw [hb] at h
      simp only [bcDims, true_or, if_true, hb, Option.map_some]
      exact ih v h

theorem merge_succ {B : ℕ} {σ : List ℕ} (op : ℚ → ℚ → ℚ) (xs : List (Arr ℚ)) (hB : ∀ x ∈ xs, IsBatch B x) (out : Arr ℚ)
    (h : kerasMerge op xs = some out) : ∃ out', kerasMerge op (xs.map (pick σ)) = some out' ∧ out'.shape.tail = out.shape.tail := by
  cases xs with
  | nil => simp [kerasMerge] at h
  | cons x r =>
    have hrank : ((x :: r).map (pick σ)).map (fun x => x.shape.length) = (x :: r).map fun x => x.shape.length := by
      rw [List.map_map]
      refine List.map_congr_left fun y hy => ?_
      obtain ⟨s, hs⟩ := hB y hy
      simp [pick, hs]
    simp only [kerasMerge] at h ⊢
    rw [hrank]
    generalize ((x :: r).map fun x => x.shape.length).foldl max 0 = R at h ⊢
    simp only [List.map_cons] at h ⊢
    obtain ⟨h1, _⟩ := foldl_npBin op _ _ out h
    rw [foldlM_shape] at h1
    have hp : ∀ y ∈ x :: r, ∀ n, (y.padBatch (R - n)).shape = B :: (List.replicate (R - n) 1 ++ y.shape.tail) ∧
        ((pick σ y).padBatch (R - n)).shape = σ.length :: (List.replicate (R - n) 1 ++ y.shape.tail) := by
      intro y hy n
      obtain ⟨s, hs⟩ := hB y hy
      exact ⟨by simp [Arr.padBatch, hs], by simp [Arr.padBatch, pick, hs]⟩
    have hl : ∀ y ∈ x :: r, (pick σ y).shape.length = y.shape.length := by
      intro y hy
      obtain ⟨s, hs⟩ := hB y hy
      simp [pick, hs]
    have e1 : (r.map fun y => y.padBatch (R - y.shape.length)).map (·.shape)
        = (r.map fun y => List.replicate (R - y.shape.length) 1 ++ y.shape.tail).map (B :: ·) := by
      simp only [List.map_map]
      exact List.map_congr_left fun y hy => (hp y (List.mem_cons_of_mem _ hy) _).1
    rw [(hp x (List.mem_cons_self ..) _).1, e1] at h1
    obtain ⟨u, hu, hu'⟩ := foldlM_bcDims_cons _ _ _ h1
    have h2 := foldlM_bcDims_mk σ.length _ _ _ hu'
    have e2 : ((r.map (pick σ)).map fun y => y.padBatch (R - y.shape.length)).map (·.shape)
        = (r.map fun y => List.replicate (R - y.shape.length) 1 ++ y.shape.tail).map (σ.length :: ·) := by
      simp only [List.map_map]
      refine List.map_congr_left fun y hy => ?_
      simp only [Function.comp_apply]
      rw [hl y (List.mem_cons_of_mem _ hy)]
      exact (hp y (List.mem_cons_of_mem _ hy) _).2
    obtain ⟨out', ho', hs'⟩ := npBin_fold op ((pick σ x).padBatch (R - (pick σ x).shape.length))
      ((r.map (pick σ)).map fun y => y.padBatch (R - y.shape.length)) (σ.length :: u) (by
        rw [foldlM_shape, e2, hl x (List.mem_cons_self ..), (hp x (List.mem_cons_self ..) _).2]; exact h2)
    exact ⟨out', ho', by rw [hs', hu]; rfl⟩

theorem merge_faithful (op : ℚ → ℚ → ℚ) {B : ℕ} (xs : List (Arr ℚ)) (hB : ∀ x ∈ xs, IsBatch B x) :
    FaithfulRaw B (kerasMerge op) (daMerge fun l => l.tail.foldl op (l.headD 0)) xs :=
  fun out h => ⟨merge_batch op xs hB out h, fun b hb => C71_merge op _ B xs (fun _ _ _ => rfl) hB out h b hb⟩

theorem merge_braw {B : ℕ} {σ : List ℕ} (hσ : ∀ j ∈ σ, j < B) (op : ℚ → ℚ → ℚ) (xs : List (Arr ℚ)) (hB : ∀ x ∈ xs, IsBatch B x) :
    BatchRaw B σ (kerasMerge op) xs :=
  braw_of hσ (merge_faithful op xs hB) (merge_faithful op _ (batches_pick σ xs)) (merge_succ op xs hB)

/-! ## Einsum -/

theorem einsum_succ {B : ℕ} (n l : ℕ) (a bL o : List ℕ) (ha : l ∉ a) (ho : l ∉ o) (x x' y y' : Arr ℚ) (s : List ℕ) (hs : x.shape = B :: s)
    (hs' : x'.shape = n :: s) (hsz : ∀ l' ≠ l, labelSize (l :: a) bL (n :: s) y'.shape l' = labelSize (l :: a) bL (B :: s) y.shape l')
    (hy' : y.shape = bL.map (labelSize (l :: a) bL (B :: s) y.shape) → y'.shape = bL.map (labelSize (l :: a) bL (n :: s) y'.shape)) (out : Arr ℚ)
    (h : npEinsum (l :: a) bL (l :: o) x y = some out) :
    ∃ r, npEinsum (l :: a) bL (l :: o) x' y' = some r ∧ r.shape.tail = out.shape.tail := by
  unfold npEinsum at h
  rw [hs] at h
  split at h
  · rename_i hc
    obtain ⟨h1, h2, h3⟩ := hc
    simp only [Option.some.injEq] at h
    subst h
    have l1 : labelSize (l :: a) bL (n :: s) y'.shape l = n := by simp [labelSize]
    have hmap : ∀ L : List ℕ, l ∉ L → L.map (labelSize (l :: a) bL (n :: s) y'.shape) = L.map (labelSize (l :: a) bL (B :: s) y.shape) := by
      intro L hL
      exact List.map_congr_left fun l' hl' => hsz l' (fun e => hL (e ▸ hl'))
    have hc' : (n :: s) = (l :: a).map (labelSize (l :: a) bL (n :: s) y'.shape) ∧
        y'.shape = bL.map (labelSize (l :: a) bL (n :: s) y'.shape) ∧ ∀ l' ∈ l :: o, l' ∈ l :: a ∨ l' ∈ bL := by
      refine ⟨?_, hy' h2, h3⟩
      rw [List.map_cons, l1, hmap a ha]
      rw [List.map_cons] at h1
      rw [(List.cons.inj h1).2.symm]
    unfold npEinsum
    rw [hs', if_pos hc']
    exact ⟨_, rfl, by simp [hmap o ho]⟩
  · simp at h

/-! ## Cores -/

theorem core_batch {B : ℕ} {σ : List ℕ} (hσ : ∀ j ∈ σ, j < B) (core : Core) (hok : CoreBatch core) (xs : List (Arr ℚ))
    (hB : ∀ x ∈ xs, IsBatch B x) : BatchRaw B σ core.keras xs := by
  have hB' := batches_pick σ xs
  cases core with
  | dense n m K bias =>
    refine braw_of hσ (r := (Core.dense n m K bias).replay) (raw_single hB fun x hx out h => dense_raw n m K bias x hx out h)
      (raw_single hB' fun x hx out h => dense_raw n m K bias x hx out h) (succ_single fun x hx out h => ?_)
    obtain ⟨s, hs⟩ := hB x hx
    split at h
    · rename_i hl
      obtain ⟨c, s', rfl⟩ : ∃ c s', s = c :: s' := by
        cases s with
        | nil => simp [hs] at hl
        | cons c s' => exact ⟨c, s', rfl⟩
      unfold lastAxisDense at h
      split at h
      · rename_i hn
        simp only [Option.some.injEq] at h
        subst h
        rw [if_pos (by simp [pick_shape σ x hs])]
        unfold lastAxisDense
        rw [if_pos (by rw [pick_shape σ x hs]; rw [hs] at hn; simpa [List.getLast?_cons_cons] using hn)]
        exact ⟨_, rfl, by simp [pick_shape σ x hs, hs]⟩
      · simp at h
    · simp at h
  | conv P G a b osp geo K bias =>
    refine braw_single hB fun x _ hx out h => ?_
    obtain ⟨s, hs⟩ := hx
    simp only [Option.some.injEq] at h
    subst h
    refine ⟨⟨osp ++ [G * b], by simp [hs]⟩, _, rfl, ⟨osp ++ [G * b], by simp [pick]⟩, by simp, fun j hj idx hidx => ?_⟩
    have e : (pick σ x).shape.tail = x.shape.tail := rfl
    have hi : idx ≠ [] := by
      rintro rfl
      have := List.Forall₂.length_eq hidx
      simp at this
    simp only [List.headD_cons, List.tail_cons, getLastD_skip _ hi, e]
    congr 2
    simp only [pick_get σ x j hj]
  | merge op =>
    intro out h
    simp only [Core.keras] at h
    split at h
    · simp at h
    · rename_i hsub
      obtain ⟨h1, o', h2, h3⟩ := merge_braw hσ op.bin xs hB out h
      exact ⟨h1, o', by simp only [Core.keras, List.length_map]; rw [if_neg hsub]; exact h2, h3⟩
  | sum keep fl scale =>
    refine braw_single hB fun x _ hx out h => ?_
    obtain ⟨s, hs⟩ := hx
    simp only [Option.some.injEq] at h
    subst h
    have hs' := pick_shape σ x hs
    refine ⟨⟨redShape keep fl s, by simp [qSum, npReduce, hs, redShape]⟩, _, rfl, ⟨redShape keep fl s, by simp [qSum, npReduce, hs', redShape]⟩,
      by simp [qSum, npReduce, hs, hs', redShape], fun j hj idx _ => ?_⟩
    simp only [qSum]
    rw [reduce_get _ _ _ _ _ s hs', reduce_get _ _ _ _ B s hs]
    simp only [pick_get σ x j hj]
  | bn ax C sc o =>
    refine braw_of hσ (r := (Core.bn ax C sc o).replay) (raw_single hB fun x hx out h => axis_raw ax C sc o hok x hx out h)
      (raw_single hB' fun x hx out h => axis_raw ax C sc o hok x hx out h) (succ_single fun x hx out h => ?_)
    obtain ⟨s, hs⟩ := hB x hx
    obtain ⟨a, rfl⟩ : ∃ a, ax = a + 1 := ⟨ax - 1, by simp only [CoreBatch] at hok; omega⟩
    unfold axisAffine at h
    split at h
    · rename_i hc
      simp only [Option.some.injEq] at h
      subst h
      unfold axisAffine
      rw [if_pos (by rw [pick_shape σ x hs]; rw [hs] at hc; simpa using hc)]
      exact ⟨_, rfl, rfl⟩
    · simp at h
  | lut f =>
    refine braw_single hB fun x _ hx out h => ?_
    simp only [Option.some.injEq] at h
    subst h
    exact ⟨hx, _, rfl, pick_batch σ x, rfl, fun j hj idx _ => by simp only [pick_get σ x j hj]⟩
  | pool isMax w osp geo =>
    refine braw_single hB fun x _ hx out h => ?_
    obtain ⟨s, hs⟩ := hx
    split at h
    swap
    · simp at h
    rename_i hl
    simp only [Option.some.injEq] at h
    subst h
    have hne : s ≠ [] := by
      rintro rfl
      simp [hs] at hl
    have hs' := pick_shape σ x hs
    rw [if_pos (by rw [hs']; rw [hs] at hl; simpa using hl)]
    have c1 : x.shape.getLastD 0 = s.getLastD 0 := by rw [hs, getLastD_skip _ hne]
    have c2 : (pick σ x).shape.getLastD 0 = s.getLastD 0 := by rw [hs', getLastD_skip _ hne]
    refine ⟨⟨osp ++ [s.getLastD 0], by rw [c1, hs]; rfl⟩, _, rfl, ⟨osp ++ [s.getLastD 0], by rw [c2, hs']; rfl⟩, by
      simp only [c1, c2, List.cons_append, List.tail_cons], fun j hj idx hidx => ?_⟩
    have e : (pick σ x).shape.tail = x.shape.tail := rfl
    have hi : idx ≠ [] := by
      rintro rfl
      have := List.Forall₂.length_eq hidx
      simp at this
    simp only [List.headD_cons, List.tail_cons, getLastD_skip _ hi, e, c1, c2]
    congr 1
    simp only [pick_get σ x j hj]
  | globalPool isMax keep =>
    refine braw_of hσ (r := (Core.globalPool isMax keep).replay) (raw_single hB fun x hx out h => global_raw isMax keep x hx out h)
      (raw_single hB' fun x hx out h => global_raw isMax keep x hx out h) (succ_single fun x hx out h => ?_)
    obtain ⟨s, hs⟩ := hB x hx
    have hs' := pick_shape σ x hs
    split at h
    · rename_i hl
      simp only [Option.some.injEq] at h
      subst h
      rw [if_pos (by rw [hs']; rw [hs] at hl; simpa using hl)]
      exact ⟨_, rfl, by simp [npReduce, hs, hs', redShape]⟩
    · simp at h
  | softmax stable fl expT invT =>
    exact braw_of hσ (r := (Core.softmax stable fl expT invT).replay) (raw_single hB fun x hx out h => softmax_raw stable fl expT invT x hx out h)
      (raw_single hB' fun x hx out h => softmax_raw stable fl expT invT x hx out h) (succ_single fun x hx out h => by
        simp only [Option.some.injEq] at h
        subst h
        exact ⟨_, rfl, by simp [kerasSoftmax, pick]⟩)
  | einsumDense inL kerL outL K bias =>
    refine braw_of hσ (r := (Core.einsumDense inL kerL outL K bias).replay)
      (raw_single hB fun x hx out h => einsumDense_raw inL kerL outL K bias hok x hx out h)
      (raw_single hB' fun x hx out h => einsumDense_raw inL kerL outL K bias hok x hx out h) (succ_single fun x hx out h => ?_)
    obtain ⟨l, r, r', rfl, rfl, hr, hr', hk⟩ := hok
    obtain ⟨s, hs⟩ := hB x hx
    obtain ⟨o, ho, rfl⟩ := Option.map_eq_some_iff.1 h
    obtain ⟨o', h1, h2⟩ := einsum_succ σ.length l r kerL r' hr hr' x (pick σ x) K K s hs (pick_shape σ x hs) (by
        intro l' hl'
        unfold labelSize
        split
        · rw [List.idxOf_cons_ne _ (Ne.symm hl')]; simp
        · rfl)
      (by
        intro hK
        conv_lhs => rw [hK]
        refine List.map_congr_left fun l' hl' => ?_
        have hne : l' ≠ l := fun e => hk (e ▸ hl')
        unfold labelSize
        split
        · rw [List.idxOf_cons_ne _ (Ne.symm hne)]; simp
        · rfl) o ho
    exact ⟨addBias bias o', by rw [h1]; rfl, h2⟩
  | einsum aL bL outL =>
    refine braw_of hσ (einsum_raw aL bL outL xs hok hB) (einsum_raw aL bL outL _ hok hB') fun out h => ?_
    obtain ⟨l, a, b', o, rfl, rfl, rfl, ha, hb', ho⟩ := hok
    match xs, hB, h with
    | [x, y], hB, h =>
      obtain ⟨s, hs⟩ := hB x (by simp)
      obtain ⟨t, ht⟩ := hB y (by simp)
      simp only [Core.keras, double, List.map_cons, List.map_nil] at h ⊢
      refine einsum_succ σ.length l a (l :: b') o ha ho x (pick σ x) y (pick σ y) s hs (pick_shape σ x hs) (by
          intro l' hl'
          unfold labelSize
          split
          · rw [List.idxOf_cons_ne _ (Ne.symm hl')]; simp
          · rw [List.idxOf_cons_ne _ (Ne.symm hl')]; simp [pick, ht])
        (by
          intro hy
          rw [ht, List.map_cons] at hy
          rw [pick_shape σ y ht, List.map_cons]
          have : labelSize (l :: a) (l :: b') (σ.length :: s) (σ.length :: t) l = σ.length := by simp [labelSize]
          rw [this]
          congr 1
          conv_lhs => rw [(List.cons.inj hy).2]
          refine List.map_congr_left fun l' hl' => ?_
          have hne : l' ≠ l := fun e => hb' (e ▸ hl')
          unfold labelSize
          split
          · rw [List.idxOf_cons_ne _ (Ne.symm hne)]; simp
          · rw [List.idxOf_cons_ne _ (Ne.symm hne)]; simp) out h
    | [], _, h => simp [Core.keras, double] at h
    | [_], _, h => simp [Core.keras, double] at h
    | _ :: _ :: _ :: _, _, h => simp [Core.keras, double] at h
  | avgPow2 scale =>
    intro out h
    simp only [Core.keras, Option.map_eq_some_iff] at h
    obtain ⟨a, ha, rfl⟩ := h
    obtain ⟨h1, o', h2, h3, h4, h5⟩ := merge_braw hσ (· + ·) xs hB a ha
    refine ⟨h1, ⟨o'.shape, fun idx => o'.get idx * scale⟩, by simp only [Core.keras, h2, Option.map_some], h3, h4, fun j hj idx hidx => ?_⟩
    simp only [h5 j hj idx hidx]

/-! ## Layers -/

theorem iq_batch {B : ℕ} {σ : List ℕ} (hσ : ∀ j ∈ σ, j < B) (qs : List ArrQuant) (hq : ∀ q ∈ qs, QuantBatch q) (xs : List (Arr ℚ))
    (hB : ∀ x ∈ xs, IsBatch B x) (ins : List (Arr ℚ)) (h : (List.zipWith (fun q x => run (ArrQuant.keras q x)) qs xs).mapM id = some ins) :
    (∀ x ∈ ins, IsBatch B x) ∧
      (List.zipWith (fun q x => run (ArrQuant.keras q x)) qs (xs.map (pick σ))).mapM id = some (ins.map (pick σ)) := by
  induction qs generalizing xs ins with
  | nil =>
    simp only [List.zipWith_nil_left, List.mapM_nil, pure, Option.some.injEq] at h
    subst h
    simp
  | cons q qs ih =>
    cases xs with
    | nil =>
      simp only [List.zipWith_nil_right, List.mapM_nil, pure, Option.some.injEq] at h
      subst h
      simp
    | cons x xs =>
      simp only [List.zipWith_cons_cons, List.mapM_cons, id] at h
      cases h1 : run (q.keras x) with
      | none => simp [h1] at h
      | some y =>
        simp only [h1, Option.pure_def, Option.bind_eq_bind, Option.bind_some] at h
        cases h2 : (List.zipWith (fun q x => run (ArrQuant.keras q x)) qs xs).mapM id with
        | none => rw [h2] at h; simp at h
        | some ys =>
          rw [h2] at h
          simp only [Option.bind_some, Option.some.injEq] at h
          subst h
          obtain ⟨i1, i2⟩ := ih (fun q' hq' => hq q' (List.mem_cons_of_mem _ hq')) xs (fun x' hx' => hB x' (List.mem_cons_of_mem _ hx')) ys h2
          have hf := batch_run hσ (braw_single (xs := [x]) (B := B) (fun x' hx' => by
            have : x' = x := by simpa using hx'
            rw [this]; exact hB x (List.mem_cons_self ..))
            fun x' _ hx' out' h' => quant_batch q (hq q (List.mem_cons_self ..)) x' hx' out' h') y h1
          refine ⟨fun z hz => ?_, ?_⟩
          · rcases List.mem_cons.1 hz with rfl | hz
            · exact hf.1
            · exact i1 z hz
          · have e := hf.2
            simp only [List.map_cons, List.map_nil, single] at e
            simp only [List.map_cons, List.zipWith_cons_cons, List.mapM_cons, id]
            rw [e, i2]
            rfl

theorem map_batch {B : ℕ} {σ : List ℕ} (hσ : ∀ j ∈ σ, j < B) (g : ℚ → ℚ) (c : Arr ℚ) (hc : IsBatch B c) :
    IsBatch B (c.mapQ g).norm ∧ ((pick σ c).mapQ g).norm = pick σ (c.mapQ g).norm :=
  ⟨hc, norm_pick hσ (c.mapQ g) ((pick σ c).mapQ g) hc (pick_batch σ c) rfl fun j hj idx _ => by simp only [Arr.mapQ, pick_get σ c j hj]⟩

theorem qlayer_batch {B : ℕ} {σ : List ℕ} (hσ : ∀ j ∈ σ, j < B) (iq : Option (List ArrQuant)) (core : Core) (rl : Bool) (oq : Option ArrQuant)
    (hiq : ∀ qs ∈ iq, ∀ q ∈ qs, QuantBatch q) (hcore : CoreBatch core) (hoq : ∀ q ∈ oq, QuantBatch q)
    (xs : List (Arr ℚ)) (hB : ∀ x ∈ xs, IsBatch B x) : Batchwise B σ (fun xs => (kerasQLayer iq core rl oq xs).map (·.final)) xs := by
  intro out h
  simp only [Option.map_eq_some_iff] at h
  obtain ⟨st, h, rfl⟩ := h
  unfold kerasQLayer at h
  cases hins : kerasIq iq xs with
  | none => simp [hins] at h
  | some ins =>
  obtain ⟨hinsB, hrep⟩ : (∀ x ∈ ins, IsBatch B x) ∧ kerasIq iq (xs.map (pick σ)) = some (ins.map (pick σ)) := by
    cases iq with
    | none =>
      simp only [kerasIq, Option.some.injEq] at hins
      subst hins
      exact ⟨hB, rfl⟩
    | some qs =>
      simp only [kerasIq] at hins ⊢
      split at hins
      · rename_i hl
        rw [if_pos (by simpa using hl)]
        exact iq_batch hσ qs (hiq qs rfl) xs hB ins hins
      · simp at hins
  rw [hins] at h
  simp only [Option.bind_some] at h
  cases hc : run (core.keras ins) with
  | none => simp [hc] at h
  | some c =>
    obtain ⟨hcB, hcr⟩ := batch_run hσ (core_batch hσ core hcore ins hinsB) c hc
    simp only [hc, Option.bind_some] at h
    obtain ⟨haB, har⟩ : IsBatch B (reluKeras rl c) ∧ reluKeras rl (pick σ c) = pick σ (reluKeras rl c) := by
      cases rl with
      | false => exact ⟨hcB, rfl⟩
      | true =>
        simp only [reluKeras, if_true]
        exact map_batch hσ _ c hcB
    generalize hae : reluKeras rl c = a at h haB har
    cases oq with
    | none =>
      simp only [Option.some.injEq] at h
      subst h
      refine ⟨haB, ?_⟩
      simp only [kerasQLayer, hrep, Option.bind_some, hcr, har, Option.map_some]
    | some q =>
      simp only at h
      cases ho : run (q.keras a) with
      | none => simp [ho] at h
      | some o =>
        simp only [ho, Option.map_some, Option.some.injEq] at h
        subst h
        have hf := batch_run hσ (braw_single (xs := [a]) (B := B) (fun x' hx' => by
            have : x' = a := by simpa using hx'
            rw [this]; exact haB)
            fun x' _ hx' out' h' => quant_batch q (hoq q rfl) x' hx' out' h') o ho
        refine ⟨hf.1, ?_⟩
        have e := hf.2
        simp only [List.map_cons, List.map_nil, single] at e
        simp only [kerasQLayer, hrep, Option.bind_some, hcr, har, e, Option.map_some]

/-- **C104 (one layer, partial).** On any selection of samples of a batch every layer gives the selection of what it gives on the whole batch. -/
theorem C104_layer_partial {B : ℕ} {σ : List ℕ} (hσ : ∀ j ∈ σ, j < B) (l : LLayer) (xs : List (Arr ℚ)) (hok : LayerBatch l xs)
    (hB : ∀ x ∈ xs, IsBatch B x) : Batchwise B σ l.keras xs := by
  have hB' := batches_pick σ xs
  have hne : ∀ x ∈ xs, x.shape ≠ [] := fun x hx => by obtain ⟨s, hs⟩ := hB x hx; simp [hs]
  have hne' : ∀ x ∈ xs.map (pick σ), x.shape ≠ [] := fun x hx => by obtain ⟨s, hs⟩ := hB' x hx; simp [hs]
  have hlen : ∀ x ∈ xs, (pick σ x).shape.length = x.shape.length := fun x hx => by
    obtain ⟨s, hs⟩ := hB x hx
    simp [pick, hs]
  have reshape : ∀ (t : List ℕ) (x : Arr ℚ), x ∈ xs → ∀ out, kerasReshape t x = some out → IsBatch B out ∧ ∃ out', kerasReshape t (pick σ x) = some out' ∧
      IsBatch σ.length out' ∧ out'.shape.tail = out.shape.tail ∧
      ∀ j < σ.length, ∀ idx, InShape idx out.shape.tail → out'.get (j :: idx) = out.get (σ.getD j 0 :: idx) := by
    intro t x hx out h
    obtain ⟨s, hs⟩ := hB x hx
    have hps := C71_reshape t x (hne x hx) |>.1 out h
    simp only [kerasReshape, npReshape] at h
    split at h
    swap
    · simp at h
    rename_i hp
    simp only [Option.some.injEq] at h
    have ho' : ∃ out', kerasReshape t (pick σ x) = some out' ∧ out'.shape = σ.length :: t := by
      simp only [kerasReshape, npReshape]
      rw [if_pos]
      · exact ⟨_, rfl, by simp [pick]⟩
      · rw [pick_shape σ x hs]
        rw [hs] at hp
        simp only [List.headD_cons, List.prod_cons] at hp ⊢
        cases σ with
        | nil => simp
        | cons b σ =>
          have hb := hσ b (by simp)
          rw [Nat.eq_of_mul_eq_mul_left (by omega) hp]
    obtain ⟨out', ho', hs'⟩ := ho'
    have hps' := C71_reshape t (pick σ x) (by simp [pick]) |>.1 out' ho'
    have hsh : out.shape = B :: t := by subst h; simp [hs]
    refine ⟨⟨t, hsh⟩, out', ho', ⟨t, hs'⟩, by rw [hs', hsh]; rfl, fun j hj idx hidx => ?_⟩
    obtain ⟨a, ha, ha'⟩ := hps _ (by rw [hs]; exact getD_lt hσ hj)
    obtain ⟨c, hc, hc'⟩ := hps' j (by rw [pick_shape σ x hs]; exact hj)
    rw [pick_sample σ x j hj, ha] at hc
    cases hc
    exact (hc'.2 idx (by simpa [Arr.sample, hs', hsh] using hidx)).trans (ha'.2 idx hidx).symm
  cases l with
  | quantizer q => exact batch_run hσ (braw_single hB fun x _ hx out h => quant_batch q hok x hx out h)
  | qlayer iq core rl oq => exact qlayer_batch hσ iq core rl oq hok.1 hok.2.1 hok.2.2 xs hB
  | relu neg maxv =>
    refine batch_run hσ (braw_single hB fun x _ hx out h => ?_)
    simp only [Option.some.injEq] at h
    subst h
    exact ⟨hx, _, rfl, pick_batch σ x, rfl, fun j hj idx _ => by simp only [Arr.mapQ, pick_get σ x j hj]⟩
  | reshape t => exact batch_run hσ (braw_single hB fun x hx _ out h => reshape t x hx out h)
  | flatten =>
    refine batch_run hσ (braw_single hB fun x hx _ out h => ?_)
    have := reshape [x.shape.tail.prod] x hx out h
    exact this
  | concat z =>
    have hz : ∀ x ∈ xs.head?, normAxis x.shape.length z ≠ some 0 := fun x hx => normAxis_ne_zero (hok x hx).1 (hok x hx).2
    have hz' : ∀ x ∈ (xs.map (pick σ)).head?, normAxis x.shape.length z ≠ some 0 := by
      intro x hx
      cases xs with
      | nil => simp at hx
      | cons y r =>
        have : x = pick σ y := by simpa using hx.symm
        subst this
        rw [hlen y (List.mem_cons_self ..)]
        exact hz y (by simp)
    refine batch_run hσ (braw_of hσ (r := daConcatOp z)
      (fun out h => ⟨concat_batch z xs hB hz out h, fun b hb => C71_concat_op z B xs hne hz out h b hb⟩)
      (fun out h => ⟨concat_batch z _ hB' hz' out h, fun b hb => C71_concat_op z _ _ hne' hz' out h b hb⟩) fun out h => ?_)
    cases xs with
    | nil => simp [npConcat] at h
    | cons x r =>
      obtain ⟨s, hs⟩ := hB x (List.mem_cons_self ..)
      simp only [npConcat, List.map_cons] at h ⊢
      rw [hlen x (List.mem_cons_self ..)]
      cases ha : normAxis x.shape.length z with
      | none => simp [ha] at h
      | some k =>
        cases k with
        | zero => exact absurd ha (hz x (by simp))
        | succ k =>
          simp only [ha] at h ⊢
          split at h
          · rename_i hall
            simp only [Option.some.injEq] at h
            subst h
            rw [if_pos]
            · refine ⟨_, rfl, ?_⟩
              have hg : ∀ y ∈ x :: r, (pick σ y).shape.getD (k + 1) 0 = y.shape.getD (k + 1) 0 := by
                intro y hy
                obtain ⟨t, ht⟩ := hB y hy
                simp [pick, ht]
              have e : (r.map (pick σ)).map (fun b => b.shape.getD (k + 1) 0) = r.map fun b => b.shape.getD (k + 1) 0 := by
                rw [List.map_map]
                exact List.map_congr_left fun y hy => hg y (List.mem_cons_of_mem _ hy)
              rw [e, hg x (List.mem_cons_self ..)]
              simp [pick, hs]
            · intro b hb
              obtain ⟨y, hy, rfl⟩ := List.mem_map.1 hb
              obtain ⟨t, ht⟩ := hB y (List.mem_cons_of_mem _ hy)
              have := hall y hy
              rw [hs, ht] at this
              rw [pick_shape σ x hs, pick_shape σ y ht, hs]
              simpa using this
          · simp at h
  | getitem ks =>
    refine batch_run hσ (braw_single hB fun x _ hx out h => ?_)
    obtain ⟨s, hs⟩ := hx
    simp only [npGetItem, hs, keyShape, Option.map_map, Option.map_eq_some_iff] at h
    obtain ⟨t, ht, rfl⟩ := h
    refine ⟨⟨t, rfl⟩, ⟨σ.length :: t, fun idx => (pick σ x).get (keyIdx (.all :: ks) idx)⟩, ?_, ⟨t, rfl⟩, rfl, fun j hj idx _ => ?_⟩
    · simp only [npGetItem, pick_shape σ x hs, keyShape, ht, Option.map_some]
    · simp only [Function.comp_apply, keyIdx, pick_get σ x j hj]
  | «repeat» n z =>
    refine batch_run hσ (braw_single hB fun x hmem hx out h => ?_)
    have hz := normAxis_ne_zero (hok x hmem).1 (hok x hmem).2
    obtain ⟨s, hs⟩ := hx
    unfold npRepeat at h ⊢
    rw [hlen x hmem]
    cases hk : normAxis x.shape.length z with
    | none => simp [hk] at h
    | some k =>
      cases k with
      | zero => exact absurd hk hz
      | succ k =>
        simp only [hk, Option.some.injEq] at h ⊢
        subst h
        refine ⟨⟨_, by simp only [hs, List.modify_succ_cons]; rfl⟩, _, rfl, ⟨_, by simp only [pick_shape σ x hs, List.modify_succ_cons]; rfl⟩, ?_, fun j hj idx _ => ?_⟩
        · simp [pick_shape σ x hs, hs]
        · simp only [List.modify_succ_cons, pick_get σ x j hj]
  | moveaxis s d =>
    have key : ∀ {B : ℕ} (x : Arr ℚ), IsBatch B x → normAxis x.shape.length s ≠ some 0 → normAxis x.shape.length d ≠ some 0 → ∀ out, npMoveaxis s d x = some out →
        IsBatch B out ∧ ∀ b < B, ∃ o, daMoveaxis s d (x.sample b) = some o ∧ (out.sample b).Same o := by
      intro B x hx hs0 hd0 out h
      obtain ⟨sh, hs⟩ := hx
      exact ⟨moveaxis_batch s d x sh hs hs0 hd0 out h,
        fun b hb => C71_moveaxis s d x (by simp [hs]) hs0 hd0 out h b (by simpa [hs] using hb)⟩
    have n1 : ∀ x ∈ xs, normAxis x.shape.length s ≠ some 0 ∧ normAxis x.shape.length d ≠ some 0 := fun x hx =>
      ⟨normAxis_ne_zero (hok x hx).1.1 (hok x hx).1.2, normAxis_ne_zero (hok x hx).2.1 (hok x hx).2.2⟩
    have n2 : ∀ x ∈ xs.map (pick σ), normAxis x.shape.length s ≠ some 0 ∧ normAxis x.shape.length d ≠ some 0 := by
      intro x hx
      obtain ⟨y, hy, rfl⟩ := List.mem_map.1 hx
      rw [hlen y hy]; exact n1 y hy
    refine batch_run hσ (braw_of hσ (r := single (daMoveaxis s d))
      (raw_single' hB fun x hmem hx out h => key x hx (n1 x hmem).1 (n1 x hmem).2 out h)
      (raw_single' hB' fun x hmem hx out h => key x hx (n2 x hmem).1 (n2 x hmem).2 out h) (succ_single fun x hx out h => ?_))
    obtain ⟨sh, hs⟩ := hB x hx
    obtain ⟨so, hso⟩ := (key x (hB x hx) (n1 x hx).1 (n1 x hx).2 out h).1
    unfold npMoveaxis at h ⊢
    rw [hlen x hx]
    split at h
    · rename_i s' d' h1 h2
      have hd' : d' ≠ 0 := by rintro rfl; exact (n1 x hx).2 h2
      have hs' : s' ≠ 0 := by rintro rfl; exact (n1 x hx).1 h1
      unfold npTranspose at h ⊢
      rw [hlen x hx]
      split at h
      · simp only [Option.some.injEq] at h
        subst h
        rename_i hperm
        rw [if_pos hperm]
        refine ⟨_, rfl, ?_⟩
        obtain ⟨d'', rfl⟩ := Nat.exists_eq_succ_of_ne_zero hd'
        have e : moveOrder x.shape.length s' (d'' + 1) = 0 :: (((List.range' 1 sh.length).erase s').insertIdx d'' s') := by
          unfold moveOrder
          rw [hs, List.length_cons, List.range_eq_range', List.range'_succ, List.erase_cons_tail (by simpa using Ne.symm hs'), List.insertIdx_succ_cons]
        have e2 : ∀ j ∈ ((List.range' 1 sh.length).erase s').insertIdx d'' s', j ≠ 0 := by
          have hnd : (moveOrder x.shape.length s' (d'' + 1)).Nodup := hperm.nodup_iff.2 List.nodup_range
          rw [e, List.nodup_cons] at hnd
          intro j hj h0
          exact hnd.1 (h0 ▸ hj)
        show List.tail ((moveOrder x.shape.length s' (d'' + 1)).map _) = List.tail ((moveOrder x.shape.length s' (d'' + 1)).map _)
        rw [e]
        simp only [List.map_cons, List.tail_cons]
        refine List.map_congr_left fun j hj => ?_
        obtain ⟨j', rfl⟩ := Nat.exists_eq_succ_of_ne_zero (e2 j hj)
        rw [pick_shape σ x hs, hs]; rfl
      · simp at h
    · simp at h
  | abs =>
    refine batch_run hσ (braw_single hB fun x _ hx out h => ?_)
    simp only [Option.some.injEq] at h
    subst h
    exact ⟨hx, _, rfl, pick_batch σ x, rfl, fun j hj idx _ => by simp only [Arr.mapQ, pick_get σ x j hj]⟩
  | prelu alpha =>
    refine batch_run hσ (braw_single hB fun x _ hx out h => ?_)
    simp only [Option.some.injEq] at h
    subst h
    exact ⟨hx, _, rfl, pick_batch σ x, rfl, fun j hj idx _ => by simp only [List.tail_cons, pick_get σ x j hj]⟩
  | noop =>
    refine batch_run hσ (braw_single hB fun x _ hx out h => ?_)
    simp only [Option.some.injEq] at h
    subst h
    exact ⟨hx, _, rfl, pick_batch σ x, rfl, fun j hj idx _ => pick_get σ x j hj idx⟩

/-! ## Models -/

theorem all_batches_pick {T : Type} {B : ℕ} (inputs : List (T × Arr ℚ)) (byDepth : ℕ → List (LNode T)) (D : ℕ) (kval : T → Arr ℚ)
    (hin : ∀ p ∈ inputs, IsBatch B p.2) (hacyc : DepthOrdered inputs (kerasGraph byDepth) D)
    (hsol : Solves inputs (parseModel (kerasGraph byDepth) D) kval)
    (hok : ∀ d ≤ D, ∀ n ∈ byDepth d, n.isInput = false → LayerBatch n.layer (n.requires.map kval)) (k : ℕ) :
    ∀ d ≤ D, D - d ≤ k → ∀ n ∈ byDepth d, (∀ t ∈ n.requires, IsBatch B (kval t)) ∧ (n.isInput = false → IsBatch B (kval n.produces)) := by
  induction k using Nat.strong_induction_on with
  | _ k ih =>
    intro d hd hk n hn
    have hreq : ∀ t ∈ n.requires, IsBatch B (kval t) := by
      intro t ht
      rcases hacyc d hd n.kerasNode (List.mem_map_of_mem hn) t ht with h | ⟨d', hd', hlt, n', hn', hi', ht'⟩
      · obtain ⟨p, hp, rfl⟩ := List.mem_map.1 h
        rw [hsol.1 p hp]; exact hin p hp
      · obtain ⟨m, hm, rfl⟩ := List.mem_map.1 hn'
        have := (ih (D - d') (by omega) d' hd' le_rfl m hm).2 hi'
        simp only [LNode.kerasNode, List.mem_singleton] at ht'
        rw [ht']; exact this
    refine ⟨hreq, fun hi => ?_⟩
    have he := hsol.2 n.kerasNode ((mem_parseModel _ _ _).2 ⟨d, hd, List.mem_map_of_mem hn⟩) hi
    simp only [LNode.kerasNode, List.map_cons, List.map_nil] at he
    cases hk' : n.layer.keras (n.requires.map kval) with
    | none => simp [hk', optList] at he
    | some out =>
      simp only [hk', optList, List.cons.injEq, and_true] at he
      rw [he]
      exact (C104_layer_partial (σ := []) (by simp) n.layer _ (hok d hd n hn hi) (fun x hx => by
        obtain ⟨t, ht, rfl⟩ := List.mem_map.1 hx; exact hreq t ht) out hk').1

/-- **C104 (partial).** For every functional model (any acyclic graph of the modelled layers, with shared layers), every batch of inputs
and every selection `σ` of its samples — subsets, permutations, repetitions: if the model computes on the whole batch (`kval` gives the value
of every tensor), then it computes on the selected samples, and every output is the selection of that output of the whole batch.  In
particular predictions do not depend on the batch size, on the order, or on the other samples of the batch.  Missing: layers outside
`LLayer`; layers that act across the batch axis, where it is false. -/
theorem C104_batching_partial {T : Type} [DecidableEq T] (B : ℕ) (σ : List ℕ) (hσ : ∀ j ∈ σ, j < B) (inputs : List (T × Arr ℚ))
    (byDepth : ℕ → List (LNode T)) (D : ℕ) (outputs : List T) (kval : T → Arr ℚ) (hin : ∀ p ∈ inputs, IsBatch B p.2)
    (hacyc : DepthOrdered inputs (kerasGraph byDepth) D) (hsol : Solves inputs (parseModel (kerasGraph byDepth) D) kval)
    (hok : ∀ d ≤ D, ∀ n ∈ byDepth d, n.isInput = false → LayerBatch n.layer (n.requires.map kval))
    (hout : ∀ t ∈ outputs, t ∈ inputs.map (·.1) ∨ ∃ d ≤ D, ∃ n ∈ byDepth d, n.isInput = false ∧ t = n.produces) :
    traceOutputs inputs (parseModel (kerasGraph byDepth) D) outputs = some (outputs.map kval) ∧
    traceOutputs (inputs.map fun p => (p.1, pick σ p.2)) (parseModel (kerasGraph byDepth) D) outputs =
      some (outputs.map fun t => pick σ (kval t)) := by
  have hout' : ∀ t ∈ outputs, t ∈ inputs.map (·.1) ∨ ∃ n ∈ parseModel (kerasGraph byDepth) D, n.isInput = false ∧ t ∈ n.produces := by
    intro t ht
    rcases hout t ht with h | ⟨d, hd, n, hn, hi, rfl⟩
    · exact Or.inl h
    · exact Or.inr ⟨n.kerasNode, (mem_parseModel _ _ _).2 ⟨d, hd, List.mem_map_of_mem hn⟩, hi, by simp [LNode.kerasNode]⟩
  refine ⟨(C45_graph_replay _ _ D outputs _ hacyc hsol hout').1, ?_⟩
  have hacyc' : DepthOrdered (inputs.map fun p => (p.1, pick σ p.2)) (kerasGraph byDepth) D := by
    intro d hd n hn t ht
    rcases hacyc d hd n hn t ht with h | h
    · left; simpa [List.map_map, Function.comp_def] using h
    · exact Or.inr h
  have hsol' : Solves (inputs.map fun p => (p.1, pick σ p.2)) (parseModel (kerasGraph byDepth) D) (fun t => pick σ (kval t)) := by
    constructor
    · intro p hp
      obtain ⟨q, hq, rfl⟩ := List.mem_map.1 hp
      simp only [hsol.1 q hq]
    · intro n hn hi
      obtain ⟨d, hd, hn'⟩ := (mem_parseModel _ _ _).1 hn
      obtain ⟨m, hm, rfl⟩ := List.mem_map.1 hn'
      have he := hsol.2 m.kerasNode ((mem_parseModel _ _ _).2 ⟨d, hd, List.mem_map_of_mem hm⟩) hi
      have hreq := (all_batches_pick inputs byDepth D kval hin hacyc hsol hok (D - d) d hd le_rfl m hm).1
      simp only [LNode.kerasNode, List.map_cons, List.map_nil] at he ⊢
      cases hk' : m.layer.keras (m.requires.map kval) with
      | none => simp [hk', optList] at he
      | some out =>
        simp only [hk', optList, List.cons.injEq, and_true] at he
        have hf := (C104_layer_partial hσ m.layer _ (hok d hd m hm hi) (fun x hx => by
          obtain ⟨t, ht, rfl⟩ := List.mem_map.1 hx; exact hreq t ht) out hk').2
        rw [List.map_map] at hf
        rw [he, show List.map (fun t => pick σ (kval t)) m.requires = List.map (pick σ ∘ kval) m.requires from rfl, hf]
        rfl
  exact (C45_graph_replay _ _ D outputs _ hacyc' hsol' (by
    intro t ht
    rcases hout' t ht with h | h
    · left; simpa [List.map_map, Function.comp_def] using h
    · exact Or.inr h)).1

/-! ## Where it fails -/

/-- Widths that vary along the batch axis (accepted for inputs with a fixed batch size): the first sample has one integer bit, the second three. -/
def perBatchQ : ArrQuant := ⟨.RND, .SAT, none, none, [2, 1], fun _ => true, fun j => if j.headD 0 = 0 then 1 else 3, fun _ => 0⟩

/-- **C104 fails for a quantizer that is heterogeneous along the batch axis**: the same sample is quantized differently in another position of
the batch, and a batch of another size is an error. -/
theorem C104_batch_axis_violated : ∃ (q : ArrQuant) (x y : Arr ℚ), IsBatch 2 x ∧ q.keras x = some y ∧
    (∃ z, q.keras (pick [1, 0] x) = some z ∧ z.get [0, 0] ≠ (pick [1, 0] y).get [0, 0]) ∧ q.keras (pick [0, 1, 1] x) = none := by
  refine ⟨perBatchQ, ⟨[2, 1], fun _ => 5⟩, _, ⟨[1], rfl⟩, rfl, ⟨_, rfl, by decide +kernel⟩, by decide +kernel⟩

/-- **C104 fails for operations along the batch axis**: repeating along axis 0. -/
theorem C104_repeat_batch_violated : ∃ (x y z : Arr ℚ), IsBatch 2 x ∧ (LLayer.repeat 2 0).keras [x] = some y ∧
    (LLayer.repeat 2 0).keras [pick [1, 0] x] = some z ∧ z.shape.head? = some 4 ∧ z.get [0, 0] ≠ y.get [1, 0] := by
  refine ⟨⟨[2, 1], fun idx => idx.headD 0⟩, _, _, ⟨[1], rfl⟩, rfl, rfl, by decide +kernel, by decide +kernel⟩

/-! ## A concrete model -/

/-- The model of C91 meets the demands; picking the samples 1, 1, 0. -/
example : LayerBatch exDense [exV1] ∧ LayerBatch (.quantizer exQ) [exBatch] ∧ LayerBatch (.concat (-1)) [exV1, exV2] ∧
    (exDense.keras [pick [1, 1, 0] exV1]) = some (pick [1, 1, 0] exV2) ∧
    ((List.range 3).map fun j => (pick [1, 1, 0] exV2).get [j, 1]) = [7, 7, 0] := by
  have hd : LayerBatch exDense [exV1] := by
    refine ⟨?_, trivial, ?_⟩
    · intro qs hqs q hq
      have : qs = [exQ] := by simpa using hqs.symm
      subst this
      have : q = exQ := by simpa using hq
      rw [this]; rfl
    · intro q hq
      have : q = exQ := by simpa using hq.symm
      rw [this]; rfl
  refine ⟨hd, rfl, fun x hx => ?_, ?_, by decide +kernel⟩
  · have : x = exV1 := by simpa using hx.symm
    subst this; decide
  · have hk : exDense.keras [exV1] = some exV2 := by
      have h : (exDense.keras [exV1]).isSome = true := by decide +kernel
      unfold exV2
      cases e : exDense.keras [exV1] with
      | none => rw [e] at h; simp at h
      | some v => rfl
    have := (C104_layer_partial (B := 2) (σ := [1, 1, 0]) (by decide) exDense [exV1] hd (by
      intro x hx
      have : x = exV1 := by simpa using hx
      subst this; exact ⟨[2], by decide +kernel⟩) exV2 hk).2
    simpa using this

end HGQ
