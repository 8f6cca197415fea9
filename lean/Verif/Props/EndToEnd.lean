import Verif.Model.EndToEnd
import Verif.Props.ReplayOps
import Verif.Props.Replay
import Verif.Props.Wrapper
import Verif.Props.Graph
import Verif.Props.ReplayOps2
import Verif.Props.Mapper

/-!
# C91: the traced model computes, sample by sample, what the Keras model computes
-/
namespace HGQ
open Spec

/-! ## What tracing supports -/

/-- A quantizer whose widths do not vary along the batch axis, with widths in the int8 range, and no scaler (or scaler 1). -/
def Spec.QuantOk (q : ArrQuant) : Prop :=
  q.ws.head? = some 1 ∧ (q.scaler = none ∨ q.scaler = some 1) ∧
  ∀ j, (-128 ≤ q.i j ∧ q.i j ≤ 127) ∧ (-128 ≤ q.f j ∧ q.f j ≤ 127)

/-- What a core demands of itself and of its (quantized) inputs `ins`.  Convolutions: one group or one input channel per group, samples of at
most `2^24` entries.  Batch normalization along an axis other than the batch axis.  Windowed pooling: samples of at most `2^24` entries, every
window has an entry that is not padding, and values of a maximum pooling are at least `-2^31`.  Einsum: the first label is the batch label, of
the input(s) and the output only. -/
def Spec.CoreOk : Core → List (Arr ℚ) → Prop
  | .conv P G a b _ geo _ _, _ => 0 < P ∧ 0 < G ∧ 0 < a ∧ 0 < b ∧ (G = 1 ∨ a = 1) ∧ ∀ p j i, geo p j = some i → i < 2 ^ 24
  | .bn ax _ _ _, _ => 1 ≤ ax
  | .pool isMax w osp geo, ins => ∀ x ∈ ins, ∃ B sp C, x.shape = B :: (sp ++ [C]) ∧ (sp ++ [C]).prod ≤ 2 ^ 24 ∧
      (∀ p, InShape p osp → (∃ j ≤ w, ∃ q, geo p j = some q) ∧ ∀ j q, geo p j = some q → q < sp.prod) ∧
      (isMax = true → ∀ idx, InShape idx x.shape → -2147483648 ≤ x.get idx)
  | .einsumDense inL kerL outL _ _, _ => ∃ l r r', inL = l :: r ∧ outL = l :: r' ∧ l ∉ r ∧ l ∉ r' ∧ l ∉ kerL
  | .einsum aL bL outL, _ => ∃ l a b o, aL = l :: a ∧ bL = l :: b ∧ outL = l :: o ∧ l ∉ a ∧ l ∉ b ∧ l ∉ o
  | _, _ => True

/-- Layers; concatenation, repetition and moving of an axis other than the batch axis of the given inputs. -/
def Spec.LayerOk : LLayer → List (Arr ℚ) → Prop
  | .quantizer q, _ => QuantOk q
  | .qlayer iq core _ oq, xs => (∀ qs ∈ iq, ∀ q ∈ qs, QuantOk q) ∧ (∀ ins, kerasIq iq xs = some ins → CoreOk core ins) ∧ ∀ q ∈ oq, QuantOk q
  | .relu _ maxv, _ => ∀ m ∈ maxv, 0 ≤ m
  | .concat z, xs => ∀ x ∈ xs.head?, z ≠ 0 ∧ z ≠ -(x.shape.length : ℤ)
  | .repeat _ z, xs => ∀ x ∈ xs, z ≠ 0 ∧ z ≠ -(x.shape.length : ℤ)
  | .moveaxis s d, xs => ∀ x ∈ xs, (s ≠ 0 ∧ s ≠ -(x.shape.length : ℤ)) ∧ d ≠ 0 ∧ d ≠ -(x.shape.length : ℤ)
  | _, _ => True

/-- A batch of `B` samples. -/
def Spec.IsBatch (B : ℕ) (x : Arr ℚ) : Prop := ∃ s, x.shape = B :: s

/-- Keras gives a batch, and tracing each sample gives exactly that sample of the batch. -/
def Spec.Faithful (B : ℕ) (k r : List (Arr ℚ) → Option (Arr ℚ)) (xs : List (Arr ℚ)) : Prop :=
  ∀ out, k xs = some out → IsBatch B out ∧ ∀ b < B, r (xs.map (·.sample b)) = some (out.sample b)

/-- Before normalisation: the same up to entries outside the shape. -/
def FaithfulRaw (B : ℕ) (k r : List (Arr ℚ) → Option (Arr ℚ)) (xs : List (Arr ℚ)) : Prop :=
  ∀ out, k xs = some out → IsBatch B out ∧ ∀ b < B, ∃ o, r (xs.map (·.sample b)) = some o ∧ (out.sample b).Same o

/-! ## Normalisation -/

theorem inShapeB_iff (idx sh : List ℕ) : inShapeB idx sh = true ↔ InShape idx sh := by
  induction idx generalizing sh with
  | nil => cases sh <;> simp [inShapeB, InShape]
  | cons i idx ih =>
    cases sh with
    | nil => simp [inShapeB, InShape]
    | cons n sh => simp [inShapeB, InShape, ih]

theorem norm_sample {B : ℕ} (out : Arr ℚ) (hB : IsBatch B out) (b : ℕ) (hb : b < B) (o : Arr ℚ) (h : (out.sample b).Same o) :
    out.norm.sample b = o.norm := by
  obtain ⟨s, hs⟩ := hB
  obtain ⟨h1, h2⟩ := h
  have h1' : s = o.shape := by simpa [Arr.sample, hs] using h1
  unfold Arr.norm
  simp only [Arr.sample, hs, List.tail_cons, inShapeB, hb, decide_true, Bool.true_and]
  congr 1
  funext idx
  rw [← h1']
  split
  · rename_i hi
    exact h2 idx (by simpa [Arr.sample, hs] using (inShapeB_iff _ _).1 hi)
  · rfl

theorem faithful_run {B : ℕ} {k r : List (Arr ℚ) → Option (Arr ℚ)} {xs : List (Arr ℚ)} (h : FaithfulRaw B k r xs) :
    Faithful B (fun xs => run (k xs)) (fun xs => run (r xs)) xs := by
  intro out hout
  simp only [run] at hout
  cases hk : k xs with
  | none => simp [hk] at hout
  | some o =>
    simp only [hk, Option.map_some, Option.some.injEq] at hout
    subst hout
    obtain ⟨hB, h2⟩ := h o hk
    refine ⟨hB, fun b hb => ?_⟩
    obtain ⟨o', h3, h4⟩ := h2 b hb
    simp only [run, h3, Option.map_some]
    rw [norm_sample o hB b hb o' h4]

theorem raw_single {B : ℕ} {k r : Arr ℚ → Option (Arr ℚ)} {xs : List (Arr ℚ)} (hB : ∀ x ∈ xs, IsBatch B x)
    (h : ∀ x, IsBatch B x → ∀ out, k x = some out → IsBatch B out ∧ ∀ b < B, ∃ o, r (x.sample b) = some o ∧ (out.sample b).Same o) :
    FaithfulRaw B (single k) (single r) xs := by
  intro out hout
  match xs, hout with
  | [x], hout =>
    simp only [single] at hout
    obtain ⟨h1, h2⟩ := h x (hB x (by simp)) out hout
    exact ⟨h1, fun b hb => by simpa [single] using h2 b hb⟩
  | [], hout => simp [single] at hout
  | _ :: _ :: _, hout => simp [single] at hout

theorem raw_single' {B : ℕ} {k r : Arr ℚ → Option (Arr ℚ)} {xs : List (Arr ℚ)} (hB : ∀ x ∈ xs, IsBatch B x)
    (h : ∀ x ∈ xs, IsBatch B x → ∀ out, k x = some out → IsBatch B out ∧ ∀ b < B, ∃ o, r (x.sample b) = some o ∧ (out.sample b).Same o) :
    FaithfulRaw B (single k) (single r) xs := by
  intro out hout
  match xs, hB, h, hout with
  | [x], hB, h, hout =>
    simp only [single] at hout
    obtain ⟨h1, h2⟩ := h x (by simp) (hB x (by simp)) out hout
    exact ⟨h1, fun b hb => by simpa [single] using h2 b hb⟩
  | [], _, _, hout => simp [single] at hout
  | _ :: _ :: _, _, _, hout => simp [single] at hout

/-! ## Quantizers -/

theorem quant_raw {B : ℕ} (q : ArrQuant) (hq : QuantOk q) (x : Arr ℚ) (hx : IsBatch B x) (out : Arr ℚ) (h : q.keras x = some out) :
    IsBatch B out ∧ ∀ b < B, ∃ o, q.mirror (x.sample b) = some o ∧ (out.sample b).Same o := by
  obtain ⟨s, hs⟩ := hx
  obtain ⟨h1, h2, h3⟩ := hq
  obtain ⟨ws, hws⟩ : ∃ ws, q.ws = 1 :: ws := by
    cases hw : q.ws with
    | nil => simp [hw] at h1
    | cons w ws => simp [hw] at h1; exact ⟨ws, by rw [h1]⟩
  unfold ArrQuant.keras at h
  split at h
  · rename_i hb
    simp only [Option.some.injEq] at h
    subst h
    refine ⟨⟨s, hs⟩, fun b _ => ?_⟩
    rw [hws, hs] at hb
    simp only [bcastOk, Bool.and_eq_true] at hb
    unfold ArrQuant.mirror
    rw [if_pos (by rw [hws]; simp [bcastOk, Arr.sample, hs, hb.2])]
    refine ⟨_, rfl, rfl, fun idx _ => ?_⟩
    simp only [Arr.sample]
    have e : bcastIdx q.ws (b :: idx) = bcastIdx q.ws (0 :: idx) := by simp [hws, bcastIdx]
    rw [e]
    exact (C18_replay_partial _ h2 _ none _ _ _ _ _ (h3 _).1 (h3 _).2 _).symm
  · simp at h

/-! ## Cores -/

theorem getLastD_append_singleton (l : List ℕ) (a d : ℕ) : (l ++ [a]).getLastD d = a := by simp

theorem inShape_snoc {idx sh : List ℕ} {n : ℕ} (h : InShape idx (sh ++ [n])) : idx.getLastD 0 < n := by
  induction sh generalizing idx with
  | nil =>
    cases h with
    | cons hi hr => cases hr; simpa using hi
  | cons m sh ih =>
    cases h with
    | @cons i _ idx' _ hi hr =>
      have := ih hr
      cases idx' with
      | nil => simp [InShape] at hr
      | cons j idx'' => simpa using this

theorem dense_raw {B : ℕ} (n m : ℕ) (K : ℕ → ℕ → ℚ) (bias : ℕ → ℚ) (x : Arr ℚ) (hx : IsBatch B x) (out : Arr ℚ)
    (h : (if 2 ≤ x.shape.length then lastAxisDense n m K bias x else none) = some out) :
    IsBatch B out ∧ ∀ b < B, ∃ o, (lastAxisDense n m K bias (npExpand (x.sample b))).map npFirst = some o ∧ (out.sample b).Same o := by
  obtain ⟨s, hs⟩ := hx
  split at h
  · rename_i hl
    rw [hs] at hl
    obtain ⟨c, s', hs'⟩ : ∃ c s', s = c :: s' := by
      cases s with
      | nil => simp at hl
      | cons c s' => exact ⟨c, s', rfl⟩
    unfold lastAxisDense at h
    split at h
    · rename_i hn
      simp only [Option.some.injEq] at h
      subst h
      refine ⟨⟨_, by simp [hs, hs']; rfl⟩, fun b hb => ?_⟩
      unfold lastAxisDense
      rw [if_pos (by simpa [npExpand, Arr.sample, hs, hs', List.getLast?_cons_cons] using hn)]
      refine ⟨_, rfl, ?_, fun idx hidx => ?_⟩
      · simp [npFirst, npExpand, Arr.sample, hs, hs']
      · have hne : idx ≠ [] := by
          rintro rfl
          simp [Arr.sample, hs, hs', InShape] at hidx
        simp only [npFirst, Arr.sample, npExpand]
        cases idx with
        | nil => exact absurd rfl hne
        | cons i idx => simp
    · simp at h
  · simp at h

theorem axis_raw {B : ℕ} (ax C : ℕ) (s o : ℕ → ℚ) (hax : 1 ≤ ax) (x : Arr ℚ) (hx : IsBatch B x) (out : Arr ℚ)
    (h : axisAffine ax C s o x = some out) :
    IsBatch B out ∧ ∀ b < B, ∃ o', axisAffine (ax - 1) C s o (x.sample b) = some o' ∧ (out.sample b).Same o' := by
  obtain ⟨sh, hs⟩ := hx
  obtain ⟨a, rfl⟩ : ∃ a, ax = a + 1 := ⟨ax - 1, by omega⟩
  unfold axisAffine at h
  split at h
  · rename_i hc
    simp only [Option.some.injEq] at h
    subst h
    refine ⟨⟨sh, hs⟩, fun b _ => ?_⟩
    unfold axisAffine
    rw [if_pos (by simpa [Arr.sample, hs] using hc)]
    exact ⟨_, rfl, rfl, fun idx _ => by simp [Arr.sample]⟩
  · simp at h

theorem conv_raw {B : ℕ} (P G a b : ℕ) (osp : List ℕ) (geo : List ℕ → ℕ → Option ℕ) (K bias : ℕ → ℚ)
    (xs : List (Arr ℚ)) (hok : CoreOk (.conv P G a b osp geo K bias) xs) (hB : ∀ x ∈ xs, IsBatch B x) :
    FaithfulRaw B (Core.conv P G a b osp geo K bias).keras (Core.conv P G a b osp geo K bias).replay xs := by
  obtain ⟨hP, hG, ha, hb0, hg, hgeo⟩ := hok
  refine raw_single hB fun x hx out h => ?_
  obtain ⟨s, hs⟩ := hx
  simp only [Option.some.injEq] at h
  subst h
  refine ⟨⟨osp ++ [G * b], by simp [hs]⟩, fun c _ => ⟨_, rfl, by simp [Arr.sample], fun idx hidx => ?_⟩⟩
  have hidx' : InShape idx (osp ++ [G * b]) := by simpa [Arr.sample] using hidx
  have hne : idx ≠ [] := by
    rintro rfl
    have h := List.Forall₂.length_eq hidx'
    simp at h
  have hl := inShape_snoc hidx'
  have e1 : (c :: idx).tail.dropLast = idx.dropLast := rfl
  have e2 : (c :: idx).getLastD 0 = idx.getLastD 0 := by
    cases idx with
    | nil => exact absurd rfl hne
    | cons i idx => simp
  simp only [Arr.sample]
  rw [e1, e2]
  congr 1
  rw [(C43_conv_partial P G a b hP hb0 hG ha).2 hg _ _ _ hl]
  congr 1
  funext j
  rw [C64_patches_partial (2 ^ 24) le_rfl _ _ (hgeo idx.dropLast)]
  simp

theorem merge_batch {B : ℕ} (op : ℚ → ℚ → ℚ) (xs : List (Arr ℚ)) (hB : ∀ x ∈ xs, IsBatch B x) (out : Arr ℚ)
    (h : kerasMerge op xs = some out) : IsBatch B out := by
  cases xs with
  | nil => simp [kerasMerge] at h
  | cons x r =>
    simp only [kerasMerge, List.map_cons] at h
    obtain ⟨h1, _⟩ := foldl_npBin op _ _ out h
    rw [foldlM_shape] at h1
    obtain ⟨s, hs⟩ := hB x (List.mem_cons_self ..)
    have e : ∀ k : ℕ, (x.padBatch k).shape = B :: (List.replicate k 1 ++ s) := fun k => by simp [Arr.padBatch, hs]
    rw [e] at h1
    rw [← List.map_cons (f := fun x : Arr ℚ => x.shape.length)] at h1
    generalize ((x :: r).map fun x => x.shape.length).foldl max 0 = R at h1
    have hr : ∃ ss : List (List ℕ), (r.map fun y => y.padBatch (R - y.shape.length)).map (·.shape) = ss.map (B :: ·) := by
      refine ⟨r.map fun y => List.replicate (R - y.shape.length) 1 ++ y.shape.tail, ?_⟩
      simp only [List.map_map]
      refine List.map_congr_left fun y hy => ?_
      obtain ⟨t, ht⟩ := hB y (List.mem_cons_of_mem _ hy)
      simp [Arr.padBatch, ht]
    obtain ⟨ss, hss⟩ := hr
    have h1' : (List.map (B :: ·) ss).foldlM bcDims (B :: (List.replicate (R - x.shape.length) 1 ++ s)) = some out.shape := by
      rw [← hss]; exact h1
    obtain ⟨u', hu, _⟩ := foldlM_bcDims_cons _ _ _ h1'
    exact ⟨u', hu⟩

/-! ### Pooling, softmax, einsum -/

theorem prelu_same (alpha : List ℕ → ℚ) (x : Arr ℚ) (b : ℕ) :
    ((⟨x.shape, fun idx => kerasPReLU (alpha idx.tail) (x.get idx)⟩ : Arr ℚ).sample b).Same (tracePReLU alpha (x.sample b)) := by
  have val : ∀ a v : ℚ, kerasPReLU a v = if v < 0 then v * a else v := by
    intro a v
    unfold kerasPReLU
    split
    · rename_i h; rw [max_eq_right h.le, max_eq_left (by linarith)]; ring
    · rename_i h
      have h := not_lt.1 h
      rw [max_eq_left h, max_eq_right (by linarith)]; ring
  unfold tracePReLU
  split
  · rename_i hall
    refine ⟨rfl, fun idx hidx => ?_⟩
    have h0 : alpha idx = 0 := by
      have := List.all_eq_true.1 hall idx ((mem_indices _ _).2 (List.Forall₂.flip hidx))
      simpa using this
    simp only [Arr.sample, Arr.mapQ, List.tail_cons, h0, val, tracerRelu, mul_zero]
    split
    · rename_i h; exact (max_eq_right h.le).symm
    · rename_i h; exact (max_eq_left (not_lt.1 h)).symm
  · refine ⟨rfl, fun idx _ => ?_⟩
    simp only [Arr.sample, val, List.tail_cons]
    congr

/-- A reduction that keeps the batch axis acts on every sample separately. -/
theorem reduce_get (red : List ℚ → ℚ) (keep : Bool) (fl : List Bool) (x : Arr ℚ) (B : ℕ) (s : List ℕ) (hs : x.shape = B :: s) (b : ℕ)
    (idx : List ℕ) : (npReduce red keep (false :: fl) x).get (b :: idx)
      = red ((redIdx fl s (dropKept keep fl idx)).map fun i => x.get (b :: i)) := by
  simp [npReduce, hs, dropKept, redIdx, List.map_map, Function.comp_def]

theorem global_raw {B : ℕ} (isMax keep : Bool) (x : Arr ℚ) (hx : IsBatch B x) (out : Arr ℚ)
    (h : (if 2 ≤ x.shape.length then
      some (npReduce (poolRed isMax x.shape.tail.dropLast.prod) keep (false :: (List.replicate (x.shape.length - 2) true ++ [false])) x)
      else none) = some out) :
    IsBatch B out ∧ ∀ b < B, ∃ o, daGlobalPool (poolRed isMax) false keep (x.sample b) = some o ∧ (out.sample b).Same o := by
  obtain ⟨s, hs⟩ := hx
  split at h
  · simp only [Option.some.injEq] at h
    subst h
    have hl : x.shape.length - 2 = s.length - 1 := by rw [hs]; simp
    refine ⟨⟨_, by simp only [npReduce, hs, redShape]; rfl⟩, fun b _ => ⟨_, rfl, ?_, fun idx _ => ?_⟩⟩
    · simp only [npReduce, hs, Arr.sample, redShape, List.tail_cons, hl]
      simp
    · rw [Arr.sample, reduce_get _ _ _ _ B s hs, hl, hs]
      simp only [npReduce, Arr.sample, hs, List.tail_cons]
  · simp at h

theorem softmax_raw {B : ℕ} (stable : Bool) (fl : List Bool) (expT invT : List ℕ → ℚ → ℚ) (x : Arr ℚ) (hx : IsBatch B x) (out : Arr ℚ)
    (h : some (kerasSoftmax stable fl expT invT x) = some out) :
    IsBatch B out ∧ ∀ b < B, ∃ o, some (traceSoftmax stable fl expT invT (x.sample b)) = some o ∧ (out.sample b).Same o := by
  obtain ⟨s, hs⟩ := hx
  simp only [Option.some.injEq] at h
  subst h
  refine ⟨⟨s, hs⟩, fun b _ => ⟨_, rfl, ?_, fun idx _ => ?_⟩⟩
  · simp only [traceSoftmax, kerasSoftmax, Arr.sample, npFirst]
    cases stable <;> simp [npExpand, hs]
  · have hx1 : (npExpand (x.sample b)).shape = 1 :: s := by simp [npExpand, Arr.sample, hs]
    cases stable
    · simp only [traceSoftmax, kerasSoftmax, Arr.sample, npFirst, Bool.false_eq_true, if_false]
      rw [reduce_get _ _ _ _ B s (by exact hs), reduce_get _ _ _ _ 1 s (by simp [npExpand, hs])]
      simp [npExpand]
    · simp only [traceSoftmax, kerasSoftmax, Arr.sample, npFirst, if_true]
      rw [reduce_get _ _ _ _ B s (by exact hs), reduce_get _ _ _ _ B s (by exact hs), reduce_get _ _ _ _ 1 s (by simp [npExpand, hs]),
        reduce_get _ _ _ _ 1 s (by simp [npExpand, hs])]
      simp only [npExpand, List.tail_cons]
      congr 3
      refine List.map_congr_left fun i _ => ?_
      rw [reduce_get _ _ _ _ B s (by exact hs), reduce_get _ _ _ _ 1 s (by simp [hs])]
      simp

theorem filterMap_sum (f : ℕ → Option ℚ) (n : ℕ) :
    ((List.range n).filterMap f).sum = ∑ i : Fin n, (f i).getD 0 ∧
    ((List.range n).filterMap f).length = ∑ i : Fin n, if (f i).isSome then 1 else 0 := by
  induction n with
  | zero => simp
  | succ n ih =>
    rw [List.range_succ, List.filterMap_append, List.sum_append, List.length_append, ih.1, ih.2, Fin.sum_univ_castSucc, Fin.sum_univ_castSucc]
    simp only [Fin.val_castSucc, Fin.val_last]
    have e : List.filterMap f [n] = (f n).toList := by cases hf : f n <;> simp [hf]
    have k1 : ∀ v : Option ℚ, v.toList.sum = v.getD 0 := by intro v; cases v <;> simp
    have k2 : ∀ v : Option ℚ, v.toList.length = if v.isSome then 1 else 0 := by intro v; cases v <;> simp
    rw [e, k1, k2]
    exact ⟨rfl, rfl⟩

theorem pool_val (isMax : Bool) (w : ℕ) (geo : List ℕ → ℕ → Option ℕ) (C : ℕ) (img : ℕ → ℚ) (p : List ℕ) (c : ℕ)
    (hne : ∃ j ≤ w, ∃ q, geo p j = some q) (hidx : ∀ j q, geo p j = some q → q * C + c < 2 ^ 24)
    (hlow : isMax = true → ∀ j q, geo p j = some q → -2147483648 ≤ img (q * C + c)) :
    kerasPool isMax w geo C img p c = tracePool isMax w geo C img p c := by
  have hg : ∀ j i, ((geo p j).map fun s => s * C + c) = some i → i < 2 ^ 24 := by
    intro j i h
    obtain ⟨q, h1, rfl⟩ := Option.map_eq_some_iff.1 h
    exact hidx j q h1
  have hwin : (fun j : Fin (w + 1) => if symbolicExtract f32Int (0 : ℤ) (fun j => (geo p j).map fun s => s * C + c) (fun _ => 1) j = 0 then none
      else some (symbolicExtract f32Int 0 (fun j => (geo p j).map fun s => s * C + c) img j))
      = fun j : Fin (w + 1) => (geo p j).map fun s => img (s * C + c) := by
    funext j
    rw [C64_patches_partial (2 ^ 24) le_rfl _ _ hg, C64_patches_partial (2 ^ 24) le_rfl _ _ hg]
    unfold extractPatches
    cases hgj : geo p j <;> simp [hgj]
  unfold tracePool
  simp only [hwin]
  obtain ⟨j0, hj0, q0, hq0⟩ := hne
  have hex : ∃ i : Fin (w + 1), ((geo p i).map fun s => img (s * C + c)).isSome := ⟨⟨j0, by omega⟩, by simp [hq0]⟩
  unfold kerasPool poolRed
  cases isMax with
  | true =>
    simp only [if_true]
    have hgr := C66_max_pool (fun j : Fin (w + 1) => (geo p j).map fun s => img (s * C + c)) hex (by
      intro i v hv
      obtain ⟨q, h1, rfl⟩ := Option.map_eq_some_iff.1 hv
      exact hlow rfl _ q h1)
    refine IsGreatest.unique (s := {v | ∃ i : Fin (w + 1), ((geo p i).map fun s => img (s * C + c)) = some v}) ?_ hgr
    have hset : ∀ v, (∃ i : Fin (w + 1), ((geo p i).map fun s => img (s * C + c)) = some v) ↔
        v ∈ (List.range (w + 1)).filterMap fun j => (geo p j).map fun s => img (s * C + c) := by
      intro v
      simp only [List.mem_filterMap, List.mem_range]
      exact ⟨fun ⟨i, hi⟩ => ⟨i, i.2, hi⟩, fun ⟨i, hi, h⟩ => ⟨⟨i, hi⟩, h⟩⟩
    have hmem := (hset (img (q0 * C + c))).1 ⟨⟨j0, by omega⟩, by simp [hq0]⟩
    generalize (List.range (w + 1)).filterMap (fun j => (geo p j).map fun s => img (s * C + c)) = L at hset hmem
    cases L with
    | nil => simp at hmem
    | cons v L =>
      obtain ⟨h1, h2⟩ := foldl_max_spec L v
      simp only [poolMax, List.tail_cons, List.headD_cons]
      exact ⟨(hset _).2 h2, fun u hu => h1 u ((hset u).1 hu)⟩
  | false =>
    obtain ⟨h1, h2⟩ := filterMap_sum (fun j => (geo p j).map fun s => img (s * C + c)) (w + 1)
    simp only [Bool.false_eq_true, if_false, poolAvg, replayAvgPool, h1, h2]

theorem flat_bound {sp : List ℕ} {C q c : ℕ} (hq : q < sp.prod) (hc : c < C) : q * C + c < (sp ++ [C]).prod := by
  rw [List.prod_append, List.prod_singleton]
  calc q * C + c < q * C + C := by omega
    _ = (q + 1) * C := by ring
    _ ≤ sp.prod * C := Nat.mul_le_mul_right _ hq

theorem unflat_inShape (sh : List ℕ) (k : ℕ) (hk : k < sh.prod) : InShape (unflat sh k) sh := by
  induction sh generalizing k with
  | nil => simp [unflat, InShape]
  | cons n sh ih =>
    rw [List.prod_cons] at hk
    have hpos : 0 < sh.prod := by
      rcases Nat.eq_zero_or_pos sh.prod with h | h
      · simp [h] at hk
      · exact h
    exact .cons (Nat.div_lt_of_lt_mul (by rw [mul_comm]; exact hk)) (ih _ (Nat.mod_lt _ hpos))

theorem inShape_init {idx sh : List ℕ} {n : ℕ} (h : InShape idx (sh ++ [n])) : InShape idx.dropLast sh := by
  induction sh generalizing idx with
  | nil =>
    cases h with
    | cons hi hr => cases hr; exact .nil
  | cons m sh ih =>
    cases h with
    | @cons i _ idx' _ hi hr =>
      have := ih hr
      cases idx' with
      | nil => have := List.Forall₂.length_eq hr; simp at this
      | cons j idx'' => exact .cons hi this

theorem pool_raw {B : ℕ} (isMax : Bool) (w : ℕ) (osp : List ℕ) (geo : List ℕ → ℕ → Option ℕ) (xs : List (Arr ℚ))
    (hok : CoreOk (.pool isMax w osp geo) xs) (hB : ∀ x ∈ xs, IsBatch B x) :
    FaithfulRaw B (Core.pool isMax w osp geo).keras (Core.pool isMax w osp geo).replay xs := by
  intro out h
  match xs, hok, hB, h with
  | [x], hok, hB, h =>
    obtain ⟨s, hs⟩ := hB x (by simp)
    obtain ⟨B', sp, C, hsh, h24, hgeo, hlow⟩ := hok x (by simp)
    obtain ⟨rfl, rfl⟩ : B = B' ∧ s = sp ++ [C] := by rw [hs] at hsh; simpa using hsh
    simp only [Core.keras, single] at h
    split at h
    swap
    · simp at h
    simp only [Option.some.injEq] at h
    subst h
    have hC : x.shape.getLastD 0 = C := by rw [hs, ← List.cons_append]; exact getLastD_append_singleton _ _ _
    have hC' : ∀ b, (x.sample b).shape.getLastD 0 = C := by intro b; simp [Arr.sample, hs]
    refine ⟨⟨osp ++ [C], by rw [hC, hs]; simp⟩, fun b hb => ⟨_, rfl, ?_, fun idx hidx => ?_⟩⟩
    · rw [hC' b]; simp only [Arr.sample]; rw [hC]; simp
    · have hidx' : InShape idx (osp ++ [C]) := by
        simp only [Arr.sample] at hidx
        rw [hC] at hidx
        simpa using hidx
      have hl := inShape_snoc hidx'
      have hp := inShape_init hidx'
      have hne : idx ≠ [] := by
        rintro rfl
        have h := List.Forall₂.length_eq hidx'
        simp at h
      have e2 : (b :: idx).getLastD 0 = idx.getLastD 0 := by
        cases idx with
        | nil => exact absurd rfl hne
        | cons i idx => simp
      simp only [Arr.sample, List.tail_cons, List.headD_cons, e2]
      rw [hC, show x.shape.tail.getLastD 0 = C from hC' b]
      obtain ⟨g1, g2⟩ := hgeo idx.dropLast hp
      refine pool_val isMax w geo C _ _ _ g1 (fun j q hq => ?_) (fun hm j q hq => ?_)
      · exact lt_of_lt_of_le (flat_bound (g2 j q hq) hl) h24
      · refine hlow hm _ ?_
        rw [hs]
        exact .cons hb (unflat_inShape _ _ (flat_bound (g2 j q hq) hl))
  | [], _, _, h => simp [Core.keras, single] at h
  | _ :: _ :: _, _, _, h => simp [Core.keras, single] at h

/-- Sizes of labels other than the batch label, value of the batch label. -/
theorem einsum_split {B : ℕ} (l : ℕ) (a bL o : List ℕ) (ha : l ∉ a) (ho : l ∉ o) (x y y' : Arr ℚ) (s : List ℕ) (hs : x.shape = B :: s)
    (b : ℕ) (hsz : ∀ l' ≠ l, labelSize (l :: a) bL (1 :: s) y'.shape l' = labelSize (l :: a) bL (B :: s) y.shape l')
    (hy' : y.shape = bL.map (labelSize (l :: a) bL (B :: s) y.shape) → y'.shape = bL.map (labelSize (l :: a) bL (1 :: s) y'.shape))
    (hget : ∀ v v' : ℕ → ℕ, v l = b → v' l = 0 → (∀ l' ≠ l, v l' = v' l') → y.get (bL.map v) = y'.get (bL.map v')) (out : Arr ℚ)
    (h : npEinsum (l :: a) bL (l :: o) x y = some out) :
    IsBatch B out ∧ ∃ r, npEinsum (l :: a) bL (l :: o) (npExpand (x.sample b)) y' = some r ∧
      r.shape.tail = out.shape.tail ∧ ∀ idx, out.get (b :: idx) = r.get (0 :: idx) := by
  unfold npEinsum at h
  rw [hs] at h
  split at h
  · rename_i hc
    obtain ⟨h1, h2, h3⟩ := hc
    simp only [Option.some.injEq] at h
    have l0 : labelSize (l :: a) bL (B :: s) y.shape l = B := by simp [labelSize]
    have l1 : labelSize (l :: a) bL (1 :: s) y'.shape l = 1 := by simp [labelSize]
    have hshape : (npExpand (x.sample b)).shape = 1 :: s := by simp [npExpand, Arr.sample, hs]
    have hmap : ∀ L : List ℕ, l ∉ L → L.map (labelSize (l :: a) bL (1 :: s) y'.shape) = L.map (labelSize (l :: a) bL (B :: s) y.shape) := by
      intro L hL
      exact List.map_congr_left fun l' hl' => hsz l' (fun e => hL (e ▸ hl'))
    have hsum : l ∉ summedLabels (l :: a) bL (l :: o) := by simp [summedLabels]
    have hc' : (1 :: s) = (l :: a).map (labelSize (l :: a) bL (1 :: s) y'.shape) ∧
        y'.shape = bL.map (labelSize (l :: a) bL (1 :: s) y'.shape) ∧ ∀ l' ∈ l :: o, l' ∈ l :: a ∨ l' ∈ bL := by
      refine ⟨?_, hy' h2, h3⟩
      rw [List.map_cons, l1, hmap a ha]
      rw [List.map_cons] at h1
      rw [(List.cons.inj h1).2.symm]
    subst h
    refine ⟨⟨o.map (labelSize (l :: a) bL (B :: s) y.shape), by simp [l0]⟩, ?_⟩
    unfold npEinsum
    rw [hshape, if_pos hc']
    refine ⟨_, rfl, by simp [hmap o ho], fun idx => ?_⟩
    simp only []
    rw [hmap _ hsum]
    refine congrArg List.sum (List.map_congr_left fun t _ => ?_)
    have v0 : labelVal (l :: a) bL (l :: o) (b :: idx) t l = b := by simp [labelVal]
    have v1 : labelVal (l :: a) bL (l :: o) (0 :: idx) t l = 0 := by simp [labelVal]
    have vv : ∀ l' ≠ l, labelVal (l :: a) bL (l :: o) (b :: idx) t l' = labelVal (l :: a) bL (l :: o) (0 :: idx) t l' := by
      intro l' hl'
      unfold labelVal
      split
      · rw [List.idxOf_cons_ne _ (Ne.symm hl')]; simp
      · rfl
    rw [hget _ _ v0 v1 vv]
    congr 1
    simp only [npExpand, Arr.sample, List.map_cons, v0, List.tail_cons]
    rw [List.map_congr_left fun l' hl' => vv l' (fun e => ha (e ▸ hl'))]
  · simp at h

theorem einsumDense_raw {B : ℕ} (inL kerL outL : List ℕ) (K : Arr ℚ) (bias : List ℕ → ℚ)
    (hok : ∃ l r r', inL = l :: r ∧ outL = l :: r' ∧ l ∉ r ∧ l ∉ r' ∧ l ∉ kerL) (x : Arr ℚ) (hx : IsBatch B x) (out : Arr ℚ)
    (h : (npEinsum inL kerL outL x K).map (addBias bias) = some out) :
    IsBatch B out ∧ ∀ b < B, ∃ o, ((npEinsum inL kerL outL (npExpand (x.sample b)) K).map fun a => npFirst (addBias bias a)) = some o ∧
      (out.sample b).Same o := by
  obtain ⟨l, r, r', rfl, rfl, hr, hr', hk⟩ := hok
  obtain ⟨s, hs⟩ := hx
  obtain ⟨out', ho, rfl⟩ := Option.map_eq_some_iff.1 h
  have key := fun b => einsum_split (B := B) l r kerL r' hr hr' x K K s hs b (by
      intro l' hl'
      unfold labelSize
      split
      · rw [List.idxOf_cons_ne _ (Ne.symm hl')]; simp
      · rfl)
    (by
      intro hK
      conv_lhs => rw [hK]
      refine List.map_congr_left fun l' hl' => ?_
      have hne : l' ≠ l := fun e => hk (e ▸ hl')
      unfold labelSize
      split
      · rw [List.idxOf_cons_ne _ (Ne.symm hne)]; simp
      · rfl)
    (by
      intro v v' _ _ hvv
      rw [List.map_congr_left fun l' hl' => hvv l' (fun e => hk (e ▸ hl'))]) out' ho
  refine ⟨(key 0).1, fun b _ => ?_⟩
  obtain ⟨_, o, h1, h2, h3⟩ := key b
  refine ⟨_, by rw [h1]; rfl, by simp [addBias, npFirst, Arr.sample, h2], fun idx _ => ?_⟩
  simp only [addBias, npFirst, Arr.sample, h3 idx, List.tail_cons]

theorem einsum_raw {B : ℕ} (aL bL outL : List ℕ) (xs : List (Arr ℚ)) (hok : CoreOk (.einsum aL bL outL) xs) (hB : ∀ x ∈ xs, IsBatch B x) :
    FaithfulRaw B (Core.einsum aL bL outL).keras (Core.einsum aL bL outL).replay xs := by
  obtain ⟨l, a, b', o, rfl, rfl, rfl, ha, hb', ho⟩ := hok
  intro out h
  match xs, hB, h with
  | [x, y], hB, h =>
    obtain ⟨s, hs⟩ := hB x (by simp)
    obtain ⟨t, ht⟩ := hB y (by simp)
    simp only [Core.keras, double] at h
    have key := fun b => einsum_split (B := B) l a (l :: b') o ha ho x y (npExpand (y.sample b)) s hs b (by
        intro l' hl'
        unfold labelSize
        split
        · rw [List.idxOf_cons_ne _ (Ne.symm hl')]; simp
        · rw [List.idxOf_cons_ne _ (Ne.symm hl')]; simp [npExpand, Arr.sample, ht])
      (by
        intro hy
        have e : (npExpand (y.sample b)).shape = 1 :: t := by simp [npExpand, Arr.sample, ht]
        rw [ht, List.map_cons] at hy
        rw [e, List.map_cons]
        have : labelSize (l :: a) (l :: b') (1 :: s) (1 :: t) l = 1 := by simp [labelSize]
        rw [this]
        congr 1
        conv_lhs => rw [(List.cons.inj hy).2]
        refine List.map_congr_left fun l' hl' => ?_
        have hne : l' ≠ l := fun e => hb' (e ▸ hl')
        unfold labelSize
        split
        · rw [List.idxOf_cons_ne _ (Ne.symm hne)]; simp
        · rw [List.idxOf_cons_ne _ (Ne.symm hne)]; simp)
      (by
        intro v v' hv _ hvv
        simp only [List.map_cons, npExpand, Arr.sample, hv, List.tail_cons]
        rw [List.map_congr_left fun l' hl' => hvv l' (fun e => hb' (e ▸ hl'))]) out h
    refine ⟨(key 0).1, fun b _ => ?_⟩
    obtain ⟨_, r, h1, h2, h3⟩ := key b
    refine ⟨_, by simp only [Core.replay, double, List.map_cons, List.map_nil]; rw [h1]; rfl, by simp [npFirst, Arr.sample, h2], fun idx _ => ?_⟩
    simp only [npFirst, Arr.sample, h3 idx]
  | [], _, h => simp [Core.keras, double] at h
  | [_], _, h => simp [Core.keras, double] at h
  | _ :: _ :: _ :: _, _, h => simp [Core.keras, double] at h

theorem core_raw {B : ℕ} (core : Core) (xs : List (Arr ℚ)) (hok : CoreOk core xs) (hB : ∀ x ∈ xs, IsBatch B x) :
    FaithfulRaw B core.keras core.replay xs := by
  cases core with
  | dense n m K bias => exact raw_single hB fun x hx out h => dense_raw n m K bias x hx out h
  | conv P G a b osp geo K bias => exact conv_raw P G a b osp geo K bias xs hok hB
  | merge op =>
    intro out h
    simp only [Core.keras] at h
    split at h
    · simp at h
    · rename_i hsub
      refine ⟨merge_batch _ xs hB out h, fun b hb => ?_⟩
      obtain ⟨m1, m2, m3, m4, m5⟩ := C71_merge_ops B xs hB
      cases op with
      | add => exact m1 out h b hb
      | mul => exact m2 out h b hb
      | max => exact m3 out h b hb
      | min => exact m4 out h b hb
      | sub =>
        have : xs.length = 2 := by by_contra hn; exact hsub ⟨rfl, hn⟩
        exact m5 this out h b hb
  | sum keep fl scale =>
    refine raw_single hB fun x hx out h => ?_
    obtain ⟨s, hs⟩ := hx
    simp only [Option.some.injEq] at h
    subst h
    exact ⟨⟨redShape keep fl s, by simp [qSum, npReduce, hs, redShape]⟩, fun b _ => ⟨_, rfl, C71_qsum keep fl scale x (by simp [hs]) b⟩⟩
  | bn ax C s o => exact raw_single hB fun x hx out h => axis_raw ax C s o hok x hx out h
  | lut f =>
    refine raw_single hB fun x hx out h => ?_
    obtain ⟨s, hs⟩ := hx
    simp only [Option.some.injEq] at h
    subst h
    exact ⟨⟨s, hs⟩, fun b _ => ⟨_, rfl, rfl, fun _ _ => rfl⟩⟩
  | pool isMax w osp geo => exact pool_raw isMax w osp geo xs hok hB
  | globalPool isMax keep => exact raw_single hB fun x hx out h => global_raw isMax keep x hx out h
  | softmax stable fl expT invT => exact raw_single hB fun x hx out h => softmax_raw stable fl expT invT x hx out h
  | einsumDense inL kerL outL K bias => exact raw_single hB fun x hx out h => einsumDense_raw inL kerL outL K bias hok x hx out h
  | einsum aL bL outL => exact einsum_raw aL bL outL xs hok hB
  | avgPow2 scale =>
    intro out h
    simp only [Core.keras, Option.map_eq_some_iff] at h
    obtain ⟨a, ha, rfl⟩ := h
    refine ⟨merge_batch _ xs hB a ha, fun b hb => ?_⟩
    obtain ⟨o, ho, h1, h2⟩ := (C71_merge_ops B xs hB).1 a ha b hb
    refine ⟨⟨o.shape, fun idx => o.get idx * scale⟩, by simp only [Core.replay, ho, Option.map_some], h1, fun idx hidx => ?_⟩
    have := h2 idx hidx
    simp only [Arr.sample] at this ⊢
    rw [this]

/-! ## Quantized layers -/

/-- The stages of a batch, for one sample. -/
def LStages.sample (st : LStages) (b : ℕ) : LStages :=
  ⟨st.postIq.map (·.map (·.sample b)), st.postCall.sample b, st.postOq.map (·.sample b), st.final.sample b⟩

theorem faithful_iq {B : ℕ} (qs : List ArrQuant) (hq : ∀ q ∈ qs, QuantOk q) (xs : List (Arr ℚ)) (hB : ∀ x ∈ xs, IsBatch B x)
    (ins : List (Arr ℚ)) (h : (List.zipWith (fun q x => run (ArrQuant.keras q x)) qs xs).mapM id = some ins) :
    (∀ x ∈ ins, IsBatch B x) ∧ ∀ b < B,
      (List.zipWith (fun q x => run (ArrQuant.mirror q x)) qs (xs.map (·.sample b))).mapM id = some (ins.map (·.sample b)) := by
  induction qs generalizing xs ins with
  | nil =>
    simp only [List.zipWith_nil_left, List.mapM_nil, pure, Option.some.injEq] at h
    subst h
    simp
  | cons q qs ih =>
    cases xs with
    | nil =>
      simp only [List.zipWith_nil_right, List.mapM_nil, pure, Option.some.injEq] at h
      subst h
      simp
    | cons x xs =>
      simp only [List.zipWith_cons_cons, List.mapM_cons, id] at h
      cases h1 : run (q.keras x) with
      | none => simp [h1] at h
      | some y =>
        simp only [h1, Option.pure_def, Option.bind_eq_bind, Option.bind_some] at h
        cases h2 : (List.zipWith (fun q x => run (ArrQuant.keras q x)) qs xs).mapM id with
        | none => rw [h2] at h; simp at h
        | some ys =>
          rw [h2] at h
          simp only [Option.bind_some, Option.some.injEq] at h
          subst h
          obtain ⟨i1, i2⟩ := ih (fun q' hq' => hq q' (List.mem_cons_of_mem _ hq')) xs (fun x' hx' => hB x' (List.mem_cons_of_mem _ hx')) ys h2
          have hf := faithful_run (raw_single (xs := [x]) (B := B) (fun x' hx' => by
            have : x' = x := by simpa using hx'
            rw [this]; exact hB x (List.mem_cons_self ..))
            fun x' hx' out' h' => quant_raw q (hq q (List.mem_cons_self ..)) x' hx' out' h') y h1
          refine ⟨fun z hz => ?_, fun b hb => ?_⟩
          · rcases List.mem_cons.1 hz with rfl | hz
            · exact hf.1
            · exact i1 z hz
          · have e := hf.2 b hb
            simp only [List.map_cons, List.map_nil, single] at e
            simp only [List.map_cons, List.zipWith_cons_cons, List.mapM_cons, id]
            rw [e, i2 b hb]
            rfl

theorem relu_mapQ {B : ℕ} (g1 g2 : ℚ → ℚ) (hg : ∀ x, g1 x = g2 x) (c : Arr ℚ) (hc : IsBatch B c) :
    IsBatch B (c.mapQ g1).norm ∧ ∀ b < B, ((c.sample b).mapQ g2).norm = (c.mapQ g1).norm.sample b := by
  refine ⟨hc, fun b hb => ?_⟩
  have hm : IsBatch B (c.mapQ g1) := hc
  have := norm_sample (c.mapQ g1) hm b hb ((c.sample b).mapQ g2) ⟨rfl, fun idx _ => by simp [Arr.sample, Arr.mapQ, hg]⟩
  exact this.symm

/-- **C91 (one quantized layer, partial).** For every quantized layer — any number of inputs, all cores (dense, convolution, merge,
sum, batch normalization, table), any widths per element, with or without ReLU and output quantizer — and every batch: whenever the Keras
layer computes, tracing each sample succeeds and every recorded stage (`post_iq`, `post_call`, `post_oq`, `final`) is that sample of what
Keras computes at this point.  Missing: what `QuantOk` and `CoreOk` exclude, where it is false (C18, C43, C64). -/
theorem C91_layer_stages_partial (B : ℕ) (iq : Option (List ArrQuant)) (core : Core) (rl : Bool) (oq : Option ArrQuant)
    (hiq : ∀ qs ∈ iq, ∀ q ∈ qs, QuantOk q) (hoq : ∀ q ∈ oq, QuantOk q)
    (xs : List (Arr ℚ)) (hcore : ∀ ins, kerasIq iq xs = some ins → CoreOk core ins) (hB : ∀ x ∈ xs, IsBatch B x) (st : LStages) (h : kerasQLayer iq core rl oq xs = some st) :
    IsBatch B st.final ∧ ∀ b < B, replayQLayer iq core rl oq (xs.map (·.sample b)) = some (st.sample b) := by
  unfold kerasQLayer at h
  cases hins : kerasIq iq xs with
  | none => simp [hins] at h
  | some ins =>
  obtain ⟨hinsB, hrep⟩ : (∀ x ∈ ins, IsBatch B x) ∧ ∀ b < B, replayIq iq (xs.map (·.sample b)) = some (ins.map (·.sample b)) := by
    cases iq with
    | none =>
      simp only [kerasIq, Option.some.injEq] at hins
      subst hins
      exact ⟨hB, fun b _ => rfl⟩
    | some qs =>
      simp only [kerasIq] at hins
      split at hins
      · exact faithful_iq qs (hiq qs rfl) xs hB ins hins
      · simp at hins
  rw [hins] at h
  simp only [Option.bind_some] at h
  cases hc : run (core.keras ins) with
  | none => simp [hc] at h
  | some c =>
    obtain ⟨hcB, hcr⟩ := faithful_run (core_raw core ins (hcore ins hins) hinsB) c hc
    simp only [hc, Option.bind_some] at h
    obtain ⟨haB, har⟩ : IsBatch B (reluKeras rl c) ∧ ∀ b < B, reluTraced rl (c.sample b) = (reluKeras rl c).sample b := by
      cases rl with
      | false => exact ⟨hcB, fun b _ => rfl⟩
      | true =>
        simp only [reluKeras, reluTraced, if_true]
        exact relu_mapQ (fun x => if x > 0 then x else 0) tracerRelu (fun x => by
          simp only [tracerRelu]
          split
          · rename_i hx; rw [max_eq_left (le_of_lt hx)]
          · rename_i hx; rw [max_eq_right (not_lt.1 hx)]) c hcB
    generalize hae : reluKeras rl c = a at h haB har
    cases oq with
    | none =>
      simp only [Option.some.injEq] at h
      subst h
      refine ⟨haB, fun b hb => ?_⟩
      simp only [replayQLayer, hrep b hb, Option.bind_some, hcr b hb, har b hb, LStages.sample]
      cases iq <;> rfl
    | some q =>
      simp only at h
      cases ho : run (q.keras a) with
      | none => simp [ho] at h
      | some o =>
        simp only [ho, Option.map_some, Option.some.injEq] at h
        subst h
        have hf := faithful_run (raw_single (xs := [a]) (B := B) (fun x' hx' => by
            have : x' = a := by simpa using hx'
            rw [this]; exact haB)
            fun x' hx' out' h' => quant_raw q (hoq q rfl) x' hx' out' h') o ho
        refine ⟨hf.1, fun b hb => ?_⟩
        have e := hf.2 b hb
        simp only [List.map_cons, List.map_nil, single] at e
        simp only [replayQLayer, hrep b hb, Option.bind_some, hcr b hb, har b hb, LStages.sample, e, Option.map_some]
        cases iq <;> rfl

/-! ## All layers -/

theorem normAxis_ne_zero {n : ℕ} {z : ℤ} (h0 : z ≠ 0) (h1 : z ≠ -(n : ℤ)) : normAxis n z ≠ some 0 := by
  unfold normAxis
  split
  · rename_i h
    rw [ne_eq, Option.some.injEq]
    intro hz
    have hn : 0 < (n : ℤ) := by omega
    have h2 := Int.emod_nonneg z hn.ne'
    have h3 : z % n = 0 := by omega
    obtain ⟨c, rfl⟩ := Int.dvd_of_emod_eq_zero h3
    have hc1 : -1 ≤ c := by nlinarith
    have hc2 : c < 1 := by nlinarith
    have : c = -1 ∨ c = 0 := by omega
    rcases this with rfl | rfl
    · exact h1 (by ring)
    · exact h0 (by ring)
  · simp

theorem concat_batch {B : ℕ} (z : ℤ) (xs : List (Arr ℚ)) (hB : ∀ x ∈ xs, IsBatch B x)
    (hz : ∀ x ∈ xs.head?, normAxis x.shape.length z ≠ some 0) (out : Arr ℚ) (h : npConcat z xs = some out) : IsBatch B out := by
  cases xs with
  | nil => simp [npConcat] at h
  | cons x r =>
    obtain ⟨s, hs⟩ := hB x (List.mem_cons_self ..)
    simp only [npConcat] at h
    cases ha : normAxis x.shape.length z with
    | none => simp [ha] at h
    | some k =>
      cases k with
      | zero => exact absurd ha (hz x (by simp))
      | succ k =>
        simp only [ha] at h
        split at h
        · simp only [Option.some.injEq] at h
          subst h
          exact ⟨_, by simp only [hs, List.set_cons_succ]; rfl⟩
        · simp at h

theorem relu_zero (neg : ℚ) (maxv : Option ℚ) (hm : ∀ m ∈ maxv, 0 ≤ m) (f : ℤ) (x : ℚ) :
    kerasReLU 0 neg maxv x = replayReLU 0 neg maxv f x := by
  unfold replayReLU kerasReLU
  by_cases h : neg = 0 ∧ maxv = none
  · obtain ⟨rfl, rfl⟩ := h
    simp only [and_self, if_true, tracerRelu, zero_mul]
    split
    · rename_i hx; exact (max_eq_left (le_of_lt hx)).symm
    · rename_i hx; exact (max_eq_right (not_lt.1 hx)).symm
  · rw [if_neg (show ¬((0 : ℚ) = 0 ∧ neg = 0 ∧ maxv = none) from fun hc => h hc.2)]
    simp only [ne_eq, not_true_eq_false, if_false, sub_zero]
    rcases lt_trichotomy x 0 with hx | hx | hx
    · rw [if_pos hx, if_neg (by linarith)]; ring
    · subst hx
      simp only [lt_irrefl, if_false, gt_iff_lt, mul_zero]
      cases maxv with
      | none => rfl
      | some m => simp [hm m rfl]
    · rw [if_pos (show x > 0 from hx), if_neg (not_lt.2 hx.le)]
      cases maxv with
      | none => rfl
      | some m => simp [clip, hx.le]

theorem moveaxis_batch {B : ℕ} (s d : ℤ) (x : Arr ℚ) (sh : List ℕ) (hs : x.shape = B :: sh) (hs0 : normAxis x.shape.length s ≠ some 0)
    (hd0 : normAxis x.shape.length d ≠ some 0) (out : Arr ℚ) (h : npMoveaxis s d x = some out) : IsBatch B out := by
  unfold npMoveaxis at h
  split at h
  · rename_i s' d' h1 h2
    have hs' : s' ≠ 0 := by rintro rfl; exact hs0 h1
    have hd' : d' ≠ 0 := by rintro rfl; exact hd0 h2
    unfold npTranspose at h
    split at h
    · simp only [Option.some.injEq] at h
      subst h
      obtain ⟨d'', rfl⟩ := Nat.exists_eq_succ_of_ne_zero hd'
      have : moveOrder x.shape.length s' (d'' + 1) = 0 :: (((List.range' 1 sh.length).erase s').insertIdx d'' s') := by
        unfold moveOrder
        rw [hs, List.length_cons, List.range_eq_range', List.range'_succ, List.erase_cons_tail (by simpa using Ne.symm hs'), List.insertIdx_succ_cons]
      refine ⟨(((List.range' 1 sh.length).erase s').insertIdx d'' s').map fun j => x.shape.getD j 0, ?_⟩
      show (moveOrder x.shape.length s' (d'' + 1)).map _ = _
      rw [this, List.map_cons]
      simp [hs]
    · simp at h
  · simp at h

/-- Every layer. -/
theorem layer_faithful {B : ℕ} (fb : ℤ) (l : LLayer) (xs : List (Arr ℚ)) (hok : LayerOk l xs) (hB : ∀ x ∈ xs, IsBatch B x) :
    Faithful B l.keras (l.replay fb) xs := by
  have hne : ∀ x ∈ xs, x.shape ≠ [] := fun x hx => by obtain ⟨s, hs⟩ := hB x hx; simp [hs]
  cases l with
  | quantizer q => exact faithful_run (raw_single hB fun x hx out h => quant_raw q hok x hx out h)
  | qlayer iq core rl oq =>
    intro out h
    simp only [LLayer.keras, Option.map_eq_some_iff] at h
    obtain ⟨st, h1, rfl⟩ := h
    obtain ⟨h2, h3⟩ := C91_layer_stages_partial B iq core rl oq hok.1 hok.2.2 xs hok.2.1 hB st h1
    exact ⟨h2, fun b hb => by simp [LLayer.replay, h3 b hb, LStages.sample]⟩
  | relu neg maxv =>
    refine faithful_run (raw_single hB fun x hx out h => ?_)
    simp only [Option.some.injEq] at h
    subst h
    exact ⟨hx, fun b _ => ⟨_, rfl, rfl, fun idx _ => relu_zero neg maxv hok fb _⟩⟩
  | reshape t =>
    refine faithful_run (raw_single hB fun x hx out h => ?_)
    obtain ⟨s, hs⟩ := hx
    refine ⟨⟨t, ?_⟩, fun b hb => (C71_reshape t x (by simp [hs])).1 out h b (by simpa [hs] using hb)⟩
    simp only [kerasReshape, npReshape] at h
    split at h
    · simp only [Option.some.injEq] at h; subst h; simp [hs]
    · simp at h
  | flatten =>
    refine faithful_run (raw_single hB fun x hx out h => ?_)
    obtain ⟨s, hs⟩ := hx
    refine ⟨⟨[s.prod], ?_⟩, fun b hb => (C71_reshape [] x (by simp [hs])).2 out h b (by simpa [hs] using hb)⟩
    simp only [kerasReshape, npReshape] at h
    split at h
    · simp only [Option.some.injEq] at h; subst h; simp [hs]
    · simp at h
  | concat z =>
    have hz : ∀ x ∈ xs.head?, normAxis x.shape.length z ≠ some 0 := fun x hx => normAxis_ne_zero (hok x hx).1 (hok x hx).2
    refine faithful_run fun out h => ⟨concat_batch z xs hB hz out h, fun b hb => C71_concat_op z B xs hne hz out h b hb⟩
  | getitem ks =>
    refine faithful_run (raw_single hB fun x hx out h => ?_)
    obtain ⟨s, hs⟩ := hx
    refine ⟨?_, fun b hb => C71_getitem ks x (by simp [hs]) out h b (by simpa [hs] using hb)⟩
    simp only [npGetItem, hs, keyShape, Option.map_map, Option.map_eq_some_iff] at h
    obtain ⟨t, _, rfl⟩ := h
    exact ⟨t, rfl⟩
  | «repeat» n z =>
    refine faithful_run (raw_single' hB fun x hmem hx out h => ?_)
    have hz := normAxis_ne_zero (hok x hmem).1 (hok x hmem).2
    obtain ⟨s, hs⟩ := hx
    refine ⟨?_, fun b hb => C71_repeat n z x (by simp [hs]) hz out h b (by simpa [hs] using hb)⟩
    unfold npRepeat at h
    split at h
    · simp at h
    · rename_i k hk
      cases k with
      | zero => exact absurd hk hz
      | succ k =>
        simp only [Option.some.injEq] at h
        subst h
        exact ⟨_, by simp only [hs, List.modify_succ_cons]; rfl⟩
  | moveaxis s d =>
    refine faithful_run (raw_single' hB fun x hmem hx out h => ?_)
    have hs0 := normAxis_ne_zero (hok x hmem).1.1 (hok x hmem).1.2
    have hd0 := normAxis_ne_zero (hok x hmem).2.1 (hok x hmem).2.2
    obtain ⟨sh, hs⟩ := hx
    refine ⟨?_, fun b hb => C71_moveaxis s d x (by simp [hs]) hs0 hd0 out h b (by simpa [hs] using hb)⟩
    exact moveaxis_batch s d x sh hs hs0 hd0 out h
  | abs =>
    refine faithful_run (raw_single hB fun x hx out h => ?_)
    simp only [Option.some.injEq] at h
    subst h
    exact ⟨hx, fun b _ => ⟨_, rfl, rfl, fun idx _ => rfl⟩⟩
  | prelu alpha =>
    refine faithful_run (raw_single hB fun x hx out h => ?_)
    simp only [Option.some.injEq] at h
    subst h
    exact ⟨hx, fun b _ => ⟨_, rfl, prelu_same alpha x b⟩⟩
  | noop =>
    refine faithful_run (raw_single hB fun x hx out h => ?_)
    simp only [Option.some.injEq] at h
    subst h
    exact ⟨hx, fun b _ => ⟨_, rfl, rfl, fun idx _ => rfl⟩⟩

/-! ## Models -/

/-- The model as Keras evaluates it on a batch, and as it is traced. -/
def Spec.kerasGraph {T : Type} (byDepth : ℕ → List (LNode T)) : ℕ → List (GNode T (Arr ℚ)) := fun d => (byDepth d).map (·.kerasNode)
def Spec.tracedGraph {T : Type} (fb : ℤ) (byDepth : ℕ → List (LNode T)) : ℕ → List (GNode T (Arr ℚ)) :=
  fun d => (byDepth d).map (·.replayNode fb)

theorem all_batches {T : Type} {B : ℕ} (inputs : List (T × Arr ℚ)) (byDepth : ℕ → List (LNode T)) (D : ℕ) (kval : T → Arr ℚ)
    (hin : ∀ p ∈ inputs, IsBatch B p.2) (hacyc : DepthOrdered inputs (kerasGraph byDepth) D)
    (hsol : Solves inputs (parseModel (kerasGraph byDepth) D) kval)
    (hok : ∀ d ≤ D, ∀ n ∈ byDepth d, n.isInput = false → LayerOk n.layer (n.requires.map kval)) (k : ℕ) :
    ∀ d ≤ D, D - d ≤ k → ∀ n ∈ byDepth d, (∀ t ∈ n.requires, IsBatch B (kval t)) ∧ (n.isInput = false → IsBatch B (kval n.produces)) := by
  induction k using Nat.strong_induction_on with
  | _ k ih =>
    intro d hd hk n hn
    have hreq : ∀ t ∈ n.requires, IsBatch B (kval t) := by
      intro t ht
      rcases hacyc d hd n.kerasNode (List.mem_map_of_mem hn) t ht with h | ⟨d', hd', hlt, n', hn', hi', ht'⟩
      · obtain ⟨p, hp, rfl⟩ := List.mem_map.1 h
        rw [hsol.1 p hp]; exact hin p hp
      · obtain ⟨m, hm, rfl⟩ := List.mem_map.1 hn'
        have := (ih (D - d') (by omega) d' hd' le_rfl m hm).2 hi'
        simp only [LNode.kerasNode, List.mem_singleton] at ht'
        rw [ht']; exact this
    refine ⟨hreq, fun hi => ?_⟩
    have he := hsol.2 n.kerasNode ((mem_parseModel _ _ _).2 ⟨d, hd, List.mem_map_of_mem hn⟩) hi
    simp only [LNode.kerasNode, List.map_cons, List.map_nil] at he
    cases hk' : n.layer.keras (n.requires.map kval) with
    | none => simp [hk', optList] at he
    | some out =>
      simp only [hk', optList, List.cons.injEq, and_true] at he
      rw [he]
      exact (layer_faithful 0 n.layer _ (hok d hd n hn hi) (fun x hx => by
        obtain ⟨t, ht, rfl⟩ := List.mem_map.1 hx; exact hreq t ht) out hk').1

/-- **C91 (partial).** For every functional model (any acyclic graph of quantizers, quantized layers of the kinds in `Core`, ReLUs, PReLUs, reshapes,
concatenations, repetitions, moved axes, absolute values, subscripts and dropouts, with shared layers), every batch of inputs and every sample `b` of it: if Keras computes the model on the batch (`kval` gives the
value of every tensor), then tracing the model on the inputs of sample `b` succeeds, gives for every output exactly sample `b` of what
Keras computes, and evaluates every node once, in order, with result sample `b` of that node's value.  Missing: the layers `LayerOk`
excludes, where it is false (C18, C43, C64), and layers outside this list. -/
theorem C91_end_to_end_partial {T : Type} [DecidableEq T] (B : ℕ) (fb : ℤ) (inputs : List (T × Arr ℚ)) (byDepth : ℕ → List (LNode T))
    (D : ℕ) (outputs : List T) (kval : T → Arr ℚ) (hin : ∀ p ∈ inputs, IsBatch B p.2)
    (hacyc : DepthOrdered inputs (kerasGraph byDepth) D) (hsol : Solves inputs (parseModel (kerasGraph byDepth) D) kval)
    (hok : ∀ d ≤ D, ∀ n ∈ byDepth d, n.isInput = false → LayerOk n.layer (n.requires.map kval))
    (hout : ∀ t ∈ outputs, t ∈ inputs.map (·.1) ∨ ∃ d ≤ D, ∃ n ∈ byDepth d, n.isInput = false ∧ t = n.produces)
    (b : ℕ) (hb : b < B) :
    traceOutputs (inputs.map fun p => (p.1, p.2.sample b)) (parseModel (tracedGraph fb byDepth) D) outputs =
      some (outputs.map fun t => (kval t).sample b) ∧
    (traceModel (inputs.map fun p => (p.1, p.2.sample b)) (parseModel (tracedGraph fb byDepth) D)).map (·.log) =
      some ((((List.range (D + 1)).reverse.flatMap byDepth).filter fun n => !n.isInput).map
        fun n => (n.name, [(kval n.produces).sample b])) := by
  have hacyc' : DepthOrdered (inputs.map fun p => (p.1, p.2.sample b)) (tracedGraph fb byDepth) D := by
    intro d hd n hn t ht
    obtain ⟨m, hm, rfl⟩ := List.mem_map.1 hn
    rcases hacyc d hd m.kerasNode (List.mem_map_of_mem hm) t ht with h | ⟨d', hd', hlt, n', hn', hi', ht'⟩
    · left; simpa [List.map_map, Function.comp_def] using h
    · obtain ⟨m', hm', rfl⟩ := List.mem_map.1 hn'
      exact Or.inr ⟨d', hd', hlt, m'.replayNode fb, List.mem_map_of_mem hm', hi', ht'⟩
  have hsol' : Solves (inputs.map fun p => (p.1, p.2.sample b)) (parseModel (tracedGraph fb byDepth) D) (fun t => (kval t).sample b) := by
    constructor
    · intro p hp
      obtain ⟨q, hq, rfl⟩ := List.mem_map.1 hp
      simp only [hsol.1 q hq]
    · intro n hn hi
      obtain ⟨d, hd, hn'⟩ := (mem_parseModel _ _ _).1 hn
      obtain ⟨m, hm, rfl⟩ := List.mem_map.1 hn'
      have he := hsol.2 m.kerasNode ((mem_parseModel _ _ _).2 ⟨d, hd, List.mem_map_of_mem hm⟩) hi
      have hreq := (all_batches inputs byDepth D kval hin hacyc hsol hok (D - d) d hd le_rfl m hm).1
      simp only [LNode.kerasNode, List.map_cons, List.map_nil] at he
      cases hk' : m.layer.keras (m.requires.map kval) with
      | none => simp [hk', optList] at he
      | some out =>
        simp only [hk', optList, List.cons.injEq, and_true] at he
        have hf := (layer_faithful fb m.layer _ (hok d hd m hm hi) (fun x hx => by
          obtain ⟨t, ht, rfl⟩ := List.mem_map.1 hx; exact hreq t ht) out hk').2 b hb
        rw [List.map_map] at hf
        simp only [LNode.replayNode, List.map_cons, List.map_nil, he]
        rw [show List.map (fun t => (kval t).sample b) m.requires = List.map ((fun x => x.sample b) ∘ kval) m.requires from rfl, hf]
        rfl
  obtain ⟨h1, h2⟩ := C45_graph_replay _ _ D outputs _ hacyc' hsol' (by
    intro t ht
    rcases hout t ht with h | ⟨d, hd, n, hn, hi, rfl⟩
    · left; simpa [List.map_map, Function.comp_def] using h
    · exact Or.inr ⟨n.replayNode fb, (mem_parseModel _ _ _).2 ⟨d, hd, List.mem_map_of_mem hn⟩, hi, by simp [LNode.replayNode]⟩)
  refine ⟨h1, h2.trans ?_⟩
  congr 1
  have e : parseModel (tracedGraph fb byDepth) D = ((List.range (D + 1)).reverse.flatMap byDepth).map (·.replayNode fb) := by
    simp only [parseModel, List.map_flatMap]; rfl
  rw [e, List.filter_map, List.map_map]
  rfl

/-! ## A concrete model -/

/-- Quantizer for samples of shape `(2,)`: 3 integer and 1 or 0 fractional bits. -/
def exQ : ArrQuant := ⟨.RND, .SAT, none, none, [1, 2], fun _ => true, fun _ => 3, fun j => if j = [0, 0] then 1 else 0⟩

/-- The dense layer. -/
def exDense : LLayer := .qlayer (some [exQ]) (.dense 2 2 (fun c o => (c + 2 * o : ℚ) - 1) fun o => 1 / 2 + o) true (some exQ)

/-- `x → Quantizer → QDense(2 → 2, relu, iq, oq) → concatenate with the quantized input`. -/
def exModel : ℕ → List (LNode ℕ)
  | 3 => [⟨"in".toList, true, [], 0, .flatten⟩]
  | 2 => [⟨"q".toList, false, [0], 1, .quantizer exQ⟩]
  | 1 => [⟨"d".toList, false, [1], 2, exDense⟩]
  | 0 => [⟨"c".toList, false, [1, 2], 3, .concat (-1)⟩]
  | _ => []

/-- Two samples. -/
def exBatch : Arr ℚ := ⟨[2, 2], fun idx => if idx = [0, 0] then 5 / 4 else if idx = [0, 1] then -7 / 3 else if idx = [1, 0] then 1 else 3⟩

/-- What Keras computes. -/
def exV1 : Arr ℚ := ((LLayer.quantizer exQ).keras [exBatch]).getD ⟨[], fun _ => 0⟩
def exV2 : Arr ℚ := (exDense.keras [exV1]).getD ⟨[], fun _ => 0⟩
def exV3 : Arr ℚ := ((LLayer.concat (-1)).keras [exV1, exV2]).getD ⟨[], fun _ => 0⟩
def exVal (t : ℕ) : Arr ℚ := [exBatch, exV1, exV2, exV3].getD t exBatch

theorem optList_getD {V : Type} (o : Option V) (d : V) (h : o.isSome = true) : [o.getD d] = optList o := by
  cases o with
  | none => simp at h
  | some v => rfl

theorem exQ_ok : QuantOk exQ := ⟨rfl, Or.inl rfl, fun j => ⟨by simp [exQ], by simp only [exQ]; split <;> omega⟩⟩

/-- The hypotheses of C91 hold for this model, so both samples are traced to their Keras values, which are not trivial. -/
example : (∀ b < 2, traceOutputs [(0, exBatch.sample b)] (parseModel (tracedGraph 0 exModel) 3) [3] = some [(exVal 3).sample b]) ∧
    (exVal 3).shape = [2, 4] ∧
    ((List.range 4).map fun j => (exVal 3).get [0, j]) = [3 / 2, -2, 0, 0] ∧
    ((List.range 4).map fun j => (exVal 3).get [1, j]) = [1, 3, 0, 7] := by
  have hacyc : DepthOrdered [(0, exBatch)] (kerasGraph exModel) 3 := by
    intro d hd n hn t ht
    have hd' : d = 0 ∨ d = 1 ∨ d = 2 ∨ d = 3 := by omega
    rcases hd' with rfl | rfl | rfl | rfl <;>
      simp only [kerasGraph, exModel, List.map_cons, List.map_nil, List.mem_singleton] at hn <;> subst hn <;> simp [LNode.kerasNode] at ht
    · rcases ht with rfl | rfl
      · exact Or.inr ⟨2, by omega, by omega, _, List.mem_singleton.2 rfl, rfl, by simp [LNode.kerasNode]⟩
      · exact Or.inr ⟨1, by omega, by omega, _, List.mem_singleton.2 rfl, rfl, by simp [LNode.kerasNode]⟩
    · subst ht; exact Or.inr ⟨2, by omega, by omega, _, List.mem_singleton.2 rfl, rfl, by simp [LNode.kerasNode]⟩
    · subst ht; exact Or.inl (by simp)
  have hsol : Solves [(0, exBatch)] (parseModel (kerasGraph exModel) 3) exVal := by
    refine ⟨by simp [exVal], fun n hn hi => ?_⟩
    have : parseModel (kerasGraph exModel) 3 = kerasGraph exModel 3 ++ (kerasGraph exModel 2 ++ (kerasGraph exModel 1 ++ kerasGraph exModel 0)) := rfl
    rw [this] at hn
    simp only [kerasGraph, exModel, List.map_cons, List.map_nil, List.cons_append, List.nil_append, List.mem_cons, List.not_mem_nil, or_false] at hn
    rcases hn with rfl | rfl | rfl | rfl
    · simp [LNode.kerasNode] at hi
    · exact optList_getD ((LLayer.quantizer exQ).keras [exBatch]) ⟨[], fun _ => 0⟩ (by decide +kernel)
    · exact optList_getD (exDense.keras [exV1]) ⟨[], fun _ => 0⟩ (by decide +kernel)
    · exact optList_getD ((LLayer.concat (-1)).keras [exV1, exV2]) ⟨[], fun _ => 0⟩ (by decide +kernel)
  have hok : ∀ d ≤ 3, ∀ n ∈ exModel d, n.isInput = false → LayerOk n.layer (n.requires.map exVal) := by
    intro d hd n hn hi
    have hd' : d = 0 ∨ d = 1 ∨ d = 2 ∨ d = 3 := by omega
    rcases hd' with rfl | rfl | rfl | rfl <;> simp only [exModel, List.mem_singleton] at hn <;> subst hn
    · intro x hx
      have : x = exVal 1 := by simpa using hx.symm
      subst this
      exact ⟨by decide, by decide⟩
    · refine ⟨?_, fun _ _ => trivial, ?_⟩
      · intro qs hqs q hq
        have : qs = [exQ] := by simpa using hqs.symm
        subst this
        have : q = exQ := by simpa using hq
        rw [this]; exact exQ_ok
      · intro q hq
        have : q = exQ := by simpa using hq.symm
        rw [this]; exact exQ_ok
    · exact exQ_ok
    · simp at hi
  refine ⟨fun b hb => ?_, rfl, by decide +kernel, by decide +kernel⟩
  exact (C91_end_to_end_partial 2 0 [(0, exBatch)] exModel 3 [3] exVal (by simp [exBatch, IsBatch]) hacyc hsol hok (by
    intro t ht
    have : t = 3 := by simpa using ht
    subst this
    exact Or.inr ⟨0, by omega, _, List.mem_singleton.2 rfl, rfl, rfl⟩) b hb).1

/-! ## Further cores -/

/-- Two samples of three positions and one channel. -/
def exSeq : Arr ℚ := ⟨[2, 3, 1], fun idx => if idx.getD 0 0 = 0 then idx.getD 1 0 - 1 / 2 else 5 - 4 * idx.getD 1 0⟩

/-- Windows of two with stride two and padding at the end. -/
def exGeo (p : List ℕ) (j : ℕ) : Option ℕ := if 2 * p.getD 0 0 + j < 3 ∧ j < 2 then some (2 * p.getD 0 0 + j) else none

/-- Average pooling with a window that has padding: the demands are met, and the traced sample 1 is what Keras computes. -/
example : CoreOk (.pool false 1 [2] exGeo) [exSeq] ∧
    (Core.keras (.pool false 1 [2] exGeo) [exSeq]).map (fun a => (a.get [1, 0, 0], a.get [1, 1, 0])) = some (3, -3) ∧
    (Core.replay (.pool false 1 [2] exGeo) [exSeq.sample 1]).map (fun a => (a.get [0, 0], a.get [1, 0])) = some (3, -3) := by
  refine ⟨?_, by decide +kernel, by decide +kernel⟩
  intro x hx
  have : x = exSeq := by simpa using hx
  subst this
  refine ⟨2, [3], 1, rfl, by decide, fun p hp => ⟨⟨0, by omega, 2 * p.getD 0 0, ?_⟩, fun j q h => ?_⟩, by simp⟩
  · match p, hp with
    | [a], hp =>
      have hp' : a < 2 := by simpa [InShape] using hp
      simp only [exGeo, List.getD_cons_zero]
      rw [if_pos (by omega)]; rfl
  · simp only [exGeo] at h
    split at h
    · simp only [Option.some.injEq] at h
      subst h
      rw [show [3].prod = 3 by decide]; omega
    · simp at h

/-- `einsum('bsc,cd->bd')` with bias. -/
example : CoreOk (.einsumDense [0, 1, 2] [2, 3] [0, 3] ⟨[1, 2], fun i => 1 + i.getD 1 0⟩ fun _ => 1 / 2) [exSeq] ∧
    (Core.keras (.einsumDense [0, 1, 2] [2, 3] [0, 3] ⟨[1, 2], fun i => 1 + i.getD 1 0⟩ fun _ => 1 / 2) [exSeq]).map
      (fun a => (a.shape, a.get [0, 0], a.get [1, 1])) = some ([2, 2], 2, 13 / 2) :=
  ⟨⟨0, [1, 2], [3], rfl, rfl, by decide, by decide, by decide⟩, by decide +kernel⟩

/-- `einsum('bsc,bsc->bc')`. -/
example : CoreOk (.einsum [0, 1, 2] [0, 1, 2] [0, 2]) [exSeq, exSeq] ∧
    (Core.keras (.einsum [0, 1, 2] [0, 1, 2] [0, 2]) [exSeq, exSeq]).map (fun a => (a.shape, a.get [1, 0])) = some ([2, 1], 35) :=
  ⟨⟨0, [1, 2], [1, 2], [2], rfl, rfl, rfl, by decide, by decide, by decide⟩, by decide +kernel⟩

/-- Stable softmax over positions, with toy tables. -/
example : CoreOk (.softmax true [true, false] (fun _ d => 1 / (1 + d)) fun _ s => 1 / s) [exSeq] ∧
    (Core.keras (.softmax true [true, false] (fun _ d => 1 / (1 + d)) fun _ s => 1 / s) [exSeq]).map
      (fun a => (List.range 3).map fun j => a.get [0, j, 0]) = some [2 / 11, 3 / 11, 6 / 11] :=
  ⟨trivial, by decide +kernel⟩

/-- Global average pooling with kept axes, PReLU, repetition and moving an axis. -/
example : (Core.keras (.globalPool false true) [exSeq]).map (fun a => (a.shape, a.get [1, 0, 0])) = some ([2, 1, 1], 1) ∧
    ((LLayer.prelu fun idx => 1 + idx.getD 0 0).keras [exSeq]).map (fun a => (a.get [1, 1, 0], a.get [1, 2, 0])) = some (1, -9) ∧
    ((LLayer.repeat 2 1).keras [exSeq]).map (fun a => (a.shape, a.get [1, 3, 0])) = some ([2, 6, 1], 1) ∧
    ((LLayer.moveaxis 1 (-1)).keras [exSeq]).map (fun a => (a.shape, a.get [1, 0, 2])) = some ([2, 1, 3], -3) ∧
    LayerOk (.repeat 2 1) [exSeq] ∧ LayerOk (.moveaxis 1 (-1)) [exSeq] := by
  refine ⟨by decide +kernel, by decide +kernel, by decide +kernel, by decide +kernel, ?_, ?_⟩ <;>
  · intro x hx
    have : x = exSeq := by simpa using hx
    subst this
    decide

end HGQ
