import Verif.Model.BnState
import Mathlib.Tactic

/-!
# C81 (frozen batch norm), C82 (running statistics over a history), C83 (training-mode normalisation)
-/
namespace HGQ
open Finset

namespace Spec

/-- Exponential moving average in closed form: the initial value and the observations `v 0, …, v (n-1)` weighted with powers of
`mu`, most recent last. -/
noncomputable def ema (mu init : ℝ) (v : List ℝ) : ℝ :=
  mu ^ v.length * init + (1 - mu) * ∑ k : Fin v.length, mu ^ (v.length - 1 - k) * v[k]

/-- The outputs of a pure inference pass. -/
noncomputable def inferenceOutputs {X : Type} {n : ℕ} (L : BnLayer X n) (st : Fin n → BnStats) (batch : List X) : List ℝ :=
  batch.map (L.out st)

end Spec
open Spec

/-! ## C81 -/

theorem BnLayer.call_frozen {X : Type} {n : ℕ} (L : BnLayer X n) (hL : L.checksTrainable = true) (st : Fin n → BnStats)
    (e : BnEvent X) (he : e.trainable = false) : L.call st e = (st, inferenceOutputs L st e.batch) := by
  simp [BnLayer.call, hL, he, inferenceOutputs]

theorem BnLayer.run_frozen {X : Type} {n : ℕ} (L : BnLayer X n) (hL : L.checksTrainable = true) (st : Fin n → BnStats)
    (h : List (BnEvent X)) (hh : ∀ e ∈ h, e.trainable = false) : L.run st h = st := by
  induction h with
  | nil => rfl
  | cons e h ih =>
    have he := hh e (by simp)
    simp only [BnLayer.run, List.foldl_cons, L.call_frozen hL st e he]
    exact ih (fun e' h' => hh e' (by simp [h']))

/-- **C81 (partial)**: after any history of calls made while the layer is frozen (`trainable=False`), whatever their `training`
flags and batches, the running statistics are the initial ones and any further frozen call, also with `training=True`, returns the
inference output.  For `QBatchNormDense`, `QEinsumDenseBatchnorm` and the batch norm of table layers.  Missing:
`QBatchNormalization`, for which it is false (`C81_qbn_violated`). -/
theorem C81_frozen_partial {n : ℕ} (kq bq toq : ℝ → ℝ) (scaleOn center : Bool) (gamma : Fin n → ℝ) (g beta eps mu : ℝ)
    (kernel : Fin n → ℝ) (bias : ℝ) :
    (∀ (st : Fin n → BnStats) (h : List (BnEvent (Fin n → ℝ))) (e : BnEvent (Fin n → ℝ)),
        (∀ x ∈ h, x.trainable = false) → e.trainable = false →
        let L := bnDenseLayer kq bq scaleOn gamma eps mu kernel bias
        L.run st h = st ∧ L.call (L.run st h) e = (st, inferenceOutputs L st e.batch)) ∧
    (∀ (st : Fin 1 → BnStats) (h : List (BnEvent (Fin n → ℝ))) (e : BnEvent (Fin n → ℝ)),
        (∀ x ∈ h, x.trainable = false) → e.trainable = false →
        let L := einsumBnLayer kq bq scaleOn g mu kernel bias
        L.run st h = st ∧ L.call (L.run st h) e = (st, inferenceOutputs L st e.batch)) ∧
    (∀ (st : Fin 1 → BnStats) (h : List (BnEvent (Fin n → ℝ))) (e : BnEvent (Fin n → ℝ)),
        (∀ x ∈ h, x.trainable = false) → e.trainable = false →
        let L := tableBnLayer (n := n) toq scaleOn center g beta eps mu
        L.run st h = st ∧ L.call (L.run st h) e = (st, inferenceOutputs L st e.batch)) := by
  refine ⟨fun st h e hh he => ?_, fun st h e hh he => ?_, fun st h e hh he => ?_⟩ <;>
  · intro L
    have hr := L.run_frozen rfl st h hh
    exact ⟨hr, by rw [hr, L.call_frozen rfl st e he]⟩

/-- **C81**, all layers: calls without training (inference, and the calibration calls of `trace_minmax`) never change the running
statistics and return the inference output, frozen or not. -/
theorem C81_inference {X : Type} {n : ℕ} (L : BnLayer X n) (st : Fin n → BnStats) (h : List (BnEvent X)) (e : BnEvent X)
    (hh : ∀ x ∈ h, x.flag = .none ∨ x.flag = .false ∨ x.flag = .tracing) (he : e.flag = .none ∨ e.flag = .false ∨ e.flag = .tracing) :
    L.run st h = st ∧ L.call (L.run st h) e = (st, inferenceOutputs L st e.batch) := by
  have key : ∀ (x : BnEvent X), (x.flag = .none ∨ x.flag = .false ∨ x.flag = .tracing) →
      L.call st x = (st, inferenceOutputs L st x.batch) := by
    intro x hx
    have : x.flag.truthy = false := by rcases hx with h | h | h <;> rw [h] <;> rfl
    simp [BnLayer.call, this, inferenceOutputs]
  have hr : L.run st h = st := by
    induction h with
    | nil => rfl
    | cons x h ih =>
      simp only [BnLayer.run, List.foldl_cons, key x (hh x (by simp))]
      exact ih (fun y hy => hh y (by simp [hy]))
  exact ⟨hr, by rw [hr, key e he]⟩

/-- **C81 violated**, `QBatchNormalization`: freezing the layer does nothing: a frozen training call computes and stores exactly
what an unfrozen one does, so the stored mean moves whenever the batch mean differs from it (and `momentum ≠ 1`). -/
theorem C81_qbn_violated (kq bq : ℝ → ℝ) (scaleOn center : Bool) (gamma beta eps mu : ℝ) (st : Fin 1 → BnStats) (b : List ℝ) :
    let L := qbnLayer kq bq scaleOn center gamma beta eps mu
    L.call st ⟨false, .true, b⟩ = L.call st ⟨true, .true, b⟩ ∧
    (mu ≠ 1 → batchMean b ≠ (st 0).mean → (L.run st [⟨false, .true, b⟩]) ≠ st) := by
  intro L
  refine ⟨by simp [L, BnLayer.call, qbnLayer, Flag.truthy], fun hmu hb heq => ?_⟩
  have h := congrArg BnStats.mean (congrFun heq 0)
  simp only [L, BnLayer.run, List.foldl_cons, List.foldl_nil, BnLayer.call, qbnLayer, Flag.truthy, Bool.not_false, Bool.or_true,
    Bool.and_true, if_true, BnStats.update, BnLayer.moments] at h
  have hfl : (b.flatMap fun x => [x]) = b := by simp
  rw [hfl] at h
  have h2 : (batchMean b - (st 0).mean) * (1 - mu) = 0 := by linarith
  rcases mul_eq_zero.mp h2 with h3 | h3
  · exact hb (by linarith)
  · exact hmu (by linarith)

/-- Concrete case: momentum 1/2, stored mean 0, batch `[1, 3]`: the frozen layer stores mean 1. -/
example : ((qbnLayer id id true true 1 0 1 (1 / 2)).run (fun _ => ⟨0, 1⟩) [⟨false, .true, [1, 3]⟩] 0).mean = 1 := by
  simp [BnLayer.run, BnLayer.call, qbnLayer, Flag.truthy, BnStats.update, BnLayer.moments, batchMean]; norm_num

/-! ## C82 -/

theorem ema_append (mu init : ℝ) (v : List ℝ) (x : ℝ) : ema mu init (v ++ [x]) = ema mu init v * mu + x * (1 - mu) := by
  have e1 : (∑ k : Fin (v ++ [x]).length, mu ^ ((v ++ [x]).length - 1 - k) * (v ++ [x])[k]) =
      ∑ k : Fin (v.length + 1), mu ^ (v.length - k) * (v ++ [x])[(k : ℕ)]'(by simp; omega) := by
    have hl : (v ++ [x]).length = v.length + 1 := by simp
    refine Fintype.sum_equiv (finCongr hl) _ _ (fun k => ?_)
    simp
  unfold ema
  rw [e1, Fin.sum_univ_castSucc]
  simp only [Fin.val_castSucc, Fin.val_last, Nat.sub_self, pow_zero, one_mul, List.length_append, List.length_cons, List.length_nil,
    zero_add]
  have e2 : ∀ k : Fin v.length, mu ^ (v.length - (k : ℕ)) * (v ++ [x])[(k : ℕ)]'(by simp) =
      mu * (mu ^ (v.length - 1 - k) * v[k]) := by
    intro k
    have hk := k.isLt
    rw [List.getElem_append_left hk, ← mul_assoc, ← pow_succ']
    congr 2
    omega
  rw [Finset.sum_congr rfl (fun k _ => e2 k), ← Finset.mul_sum]
  simp
  ring

theorem ema_cons_fold (mu : ℝ) (init : ℝ) (v : List ℝ) : ema mu init v = v.foldl (fun s x => s * mu + x * (1 - mu)) init := by
  induction v using List.reverseRecOn with
  | nil => simp [ema]
  | append_singleton v x ih => rw [ema_append, List.foldl_append, ih]; simp

/-- The training calls of a history. -/
def trainBatches {X : Type} (h : List (BnEvent X)) : List (List X) := (h.filter fun e => e.flag = .true).map (·.batch)

/-- **C82**: after any history of calls (inference, calibration, training, in any order) on an unfrozen layer, the stored mean and
variance of every index are the exponential moving averages, in closed form, of the means and variances of the training batches. -/
theorem C82_ema {X : Type} {n : ℕ} (L : BnLayer X n) (st : Fin n → BnStats) (h : List (BnEvent X)) (hf : ∀ e ∈ h, e.flag ≠ .rawString)
    (ht : ∀ e ∈ h, e.trainable = true) (j : Fin n) :
    (L.run st h j).mean = ema L.momentum (st j).mean ((trainBatches h).map fun b => batchMean (b.flatMap fun x => L.feat x j)) ∧
    (L.run st h j).var = ema L.momentum (st j).var ((trainBatches h).map fun b => batchVar (b.flatMap fun x => L.feat x j)) := by
  rw [ema_cons_fold, ema_cons_fold]
  induction h generalizing st with
  | nil => simp [BnLayer.run, trainBatches]
  | cons e h ih =>
    have hf' : ∀ x ∈ h, x.flag ≠ .rawString := fun x hx => hf x (by simp [hx])
    have ht' : ∀ x ∈ h, x.trainable = true := fun x hx => ht x (by simp [hx])
    have hrun : L.run st (e :: h) = L.run (L.call st e).1 h := rfl
    rw [hrun]
    have hr := hf e (by simp)
    have htr := ht e (by simp)
    have ih' := ih (L.call st e).1 hf' ht'
    by_cases hfl : e.flag = .true
    · have hc : (L.call st e).1 j = (st j).update L.momentum (L.moments e.batch j) := by
        simp [BnLayer.call, hfl, htr, Flag.truthy]
      have htb : trainBatches (e :: h) = e.batch :: trainBatches h := by simp [trainBatches, hfl]
      rw [htb]
      simp only [List.map_cons, List.foldl_cons]
      rw [hc] at ih'
      exact ih'
    · have htb : trainBatches (e :: h) = trainBatches h := by simp [trainBatches, hfl]
      have hc : (L.call st e).1 = st := by
        have : e.flag.truthy = false := by
          cases hx : e.flag <;> simp_all [Flag.truthy]
        simp [BnLayer.call, this]
      rw [htb]
      rw [hc] at ih' ⊢
      exact ih'

/-- **C82**, what is averaged: `QBatchNormalization` averages its (quantized) inputs, `QBatchNormDense` each input feature,
`QEinsumDenseBatchnorm` the outputs of the UNQUANTIZED kernel without bias. -/
theorem C82_statistics {n : ℕ} (kq bq : ℝ → ℝ) (scaleOn center : Bool) (gamma : Fin n → ℝ) (g beta eps mu : ℝ)
    (kernel : Fin n → ℝ) (bias : ℝ) (st1 : Fin 1 → BnStats) (stn : Fin n → BnStats) :
    (∀ h : List (BnEvent ℝ), (∀ e ∈ h, e.flag ≠ .rawString) → (∀ e ∈ h, e.trainable = true) →
      ((qbnLayer kq bq scaleOn center g beta eps mu).run st1 h 0).mean = ema mu (st1 0).mean ((trainBatches h).map batchMean) ∧
      ((qbnLayer kq bq scaleOn center g beta eps mu).run st1 h 0).var = ema mu (st1 0).var ((trainBatches h).map batchVar)) ∧
    (∀ h : List (BnEvent (Fin n → ℝ)), (∀ e ∈ h, e.flag ≠ .rawString) → (∀ e ∈ h, e.trainable = true) → ∀ j,
      ((bnDenseLayer kq bq scaleOn gamma eps mu kernel bias).run stn h j).mean =
        ema mu (stn j).mean ((trainBatches h).map fun b => batchMean (b.map fun x => x j)) ∧
      ((bnDenseLayer kq bq scaleOn gamma eps mu kernel bias).run stn h j).var =
        ema mu (stn j).var ((trainBatches h).map fun b => batchVar (b.map fun x => x j))) ∧
    (∀ h : List (BnEvent (Fin n → ℝ)), (∀ e ∈ h, e.flag ≠ .rawString) → (∀ e ∈ h, e.trainable = true) →
      ((einsumBnLayer kq bq scaleOn g mu kernel bias).run st1 h 0).mean =
        ema mu (st1 0).mean ((trainBatches h).map fun b => batchMean (b.map fun x => ∑ i, x i * kernel i)) ∧
      ((einsumBnLayer kq bq scaleOn g mu kernel bias).run st1 h 0).var =
        ema mu (st1 0).var ((trainBatches h).map fun b => batchVar (b.map fun x => ∑ i, x i * kernel i))) := by
  have hfl : ∀ {X : Type} (f : X → ℝ) (l : List X), (l.flatMap fun x => [f x]) = l.map f := by
    intro X f l; induction l with
    | nil => rfl
    | cons a t ih => simp [ih]
  refine ⟨fun h hf ht => ?_, fun h hf ht j => ?_, fun h hf ht => ?_⟩
  · have := C82_ema (qbnLayer kq bq scaleOn center g beta eps mu) st1 h hf ht 0
    simpa [qbnLayer, hfl] using this
  · have := C82_ema (bnDenseLayer kq bq scaleOn gamma eps mu kernel bias) stn h hf ht j
    simpa only [bnDenseLayer, hfl] using this
  · have := C82_ema (einsumBnLayer kq bq scaleOn g mu kernel bias) st1 h hf ht 0
    simpa only [einsumBnLayer, hfl] using this

theorem ema_mem (mu init lo hi : ℝ) (v : List ℝ) (h0 : 0 ≤ mu) (h1 : mu ≤ 1) (hi' : init ∈ Set.Icc lo hi)
    (hv : ∀ x ∈ v, x ∈ Set.Icc lo hi) : ema mu init v ∈ Set.Icc lo hi := by
  rw [ema_cons_fold]
  induction v generalizing init with
  | nil => simpa using hi'
  | cons x v ih =>
    refine ih _ ?_ (fun y hy => hv y (by simp [hy]))
    have hx := hv x (by simp)
    obtain ⟨a, b⟩ := hi'
    obtain ⟨c, d⟩ := hx
    constructor <;> nlinarith

theorem batchVar_nonneg (b : List ℝ) : 0 ≤ batchVar b := by
  unfold batchVar
  apply div_nonneg
  · apply List.sum_nonneg
    intro x hx
    obtain ⟨y, _, rfl⟩ := List.mem_map.mp hx
    positivity
  · positivity

/-- **C82**: with momentum in [0, 1] and a non-negative initial variance, the variance is non-negative after every history of calls
whatsoever (frozen or not, any flags), so the square root the layer divides by is of a positive number. -/
theorem C82_var_nonneg {X : Type} {n : ℕ} (L : BnLayer X n) (st : Fin n → BnStats) (h : List (BnEvent X)) (eps : ℝ) (heps : 0 < eps)
    (hm : 0 ≤ L.momentum ∧ L.momentum ≤ 1) (h0 : ∀ j, 0 ≤ (st j).var) (j : Fin n) :
    0 ≤ (L.run st h j).var ∧ 0 < Real.sqrt ((L.run st h j).var + eps) := by
  have key : 0 ≤ (L.run st h j).var := by
    induction h generalizing st with
    | nil => exact h0 j
    | cons e h ih =>
      refine ih (L.call st e).1 (fun i => ?_)
      unfold BnLayer.call
      split
      · simp only [BnStats.update, BnLayer.moments]
        have := batchVar_nonneg (e.batch.flatMap fun x => L.feat x i)
        have := h0 i
        have h1 : 0 ≤ 1 - L.momentum := by linarith [hm.2]
        have := hm.1
        positivity
      · exact h0 i
  exact ⟨key, Real.sqrt_pos.mpr (by linarith)⟩

/-- **C82**: the stored mean stays between bounds satisfied by the initial mean and the mean of every training batch. -/
theorem C82_mean_bounds {X : Type} {n : ℕ} (L : BnLayer X n) (st : Fin n → BnStats) (h : List (BnEvent X)) (lo hi : ℝ)
    (hf : ∀ e ∈ h, e.flag ≠ .rawString) (ht : ∀ e ∈ h, e.trainable = true) (hm : 0 ≤ L.momentum ∧ L.momentum ≤ 1) (j : Fin n)
    (h0 : (st j).mean ∈ Set.Icc lo hi) (hb : ∀ b ∈ trainBatches h, batchMean (b.flatMap fun x => L.feat x j) ∈ Set.Icc lo hi) :
    (L.run st h j).mean ∈ Set.Icc lo hi := by
  rw [(C82_ema L st h hf ht j).1]
  refine ema_mem _ _ _ _ _ hm.1 hm.2 h0 (fun x hx => ?_)
  obtain ⟨b, hb', rfl⟩ := List.mem_map.mp hx
  exact hb b hb'

/-- Concrete case: momentum 1/2, training batches with means 2 and 4 around an inference call: 0 → 1 → 5/2. -/
example : ((qbnLayer id id true true 1 0 1 (1 / 2)).run (fun _ => ⟨0, 1⟩)
    [⟨true, .true, [1, 3]⟩, ⟨true, .none, [7]⟩, ⟨true, .true, [4]⟩] 0).mean = 5 / 2 := by
  simp [BnLayer.run, BnLayer.call, qbnLayer, Flag.truthy, BnStats.update, BnLayer.moments, batchMean]; norm_num

/-! ## C83 -/

theorem batchMean_affine (b : List ℝ) (hb : b ≠ []) (a c : ℝ) : batchMean (b.map fun x => x * a + c) = batchMean b * a + c := by
  have hl : (b.length : ℝ) ≠ 0 := by simpa using hb
  have : (b.map fun x => x * a + c).sum = b.sum * a + b.length * c := by
    induction b with
    | nil => simp
    | cons x b ih =>
      by_cases h : b = []
      · subst h; simp
      · simp only [List.map_cons, List.sum_cons, List.length_cons]
        rw [ih h (by simpa using h)]; push_cast; ring
  simp only [batchMean, List.length_map, this]
  field_simp

theorem batchVar_affine (b : List ℝ) (hb : b ≠ []) (a c : ℝ) : batchVar (b.map fun x => x * a + c) = batchVar b * a ^ 2 := by
  have key : ((b.map fun x => x * a + c).map fun y => (y - (batchMean b * a + c)) ^ 2) =
      (b.map fun x => (x - batchMean b) ^ 2).map fun y => y * a ^ 2 := by
    rw [List.map_map, List.map_map]
    refine List.map_congr_left (fun x _ => ?_)
    simp only [Function.comp]
    ring
  unfold batchVar
  have hsum : ∀ l : List ℝ, (l.map fun y => y * a ^ 2).sum = l.sum * a ^ 2 := by
    intro l; induction l with
    | nil => simp
    | cons x l ih => simp only [List.map_cons, List.sum_cons, ih]; ring
  rw [batchMean_affine b hb, key, hsum, List.length_map]
  ring

/-- **C83 (partial)**, `QBatchNormalization` with `center=True`: in a training call with quantizers exact on the scale and offset,
the outputs of every non-empty batch have mean `beta` and variance `gamma² · var/(var + eps)` (`gamma = 1` when `scale=False`),
whatever the running statistics and whether or not the layer is frozen. Missing: `center=False` (`C83_center_violated`). -/
theorem C83_qbn_partial (kq bq : ℝ → ℝ) (scaleOn : Bool) (gamma beta eps mu : ℝ) (st : Fin 1 → BnStats) (tr : Bool) (b : List ℝ)
    (hb : b ≠ []) (heps : 0 < eps)
    (hk : ∀ s, kq s = s) (hbq : ∀ o, bq o = o) :
    let y := ((qbnLayer kq bq scaleOn true gamma beta eps mu).call st ⟨tr, .true, b⟩).2
    batchMean y = beta ∧ batchVar y = (if scaleOn then gamma else 1) ^ 2 * (batchVar b / (batchVar b + eps)) := by
  intro y
  have hfl : (b.flatMap fun x => [x]) = b := by simp
  set s := bnScale scaleOn gamma (batchVar b) eps with hs
  have hy : y = b.map fun x => x * s + (beta - batchMean b * s) := by
    simp [y, BnLayer.call, qbnLayer, Flag.truthy, BnLayer.moments, hfl, bnCall, bnOffset, hk, hbq, hs]
  rw [hy, batchMean_affine b hb, batchVar_affine b hb]
  refine ⟨by ring, ?_⟩
  have hv : 0 < batchVar b + eps := by linarith [batchVar_nonneg b]
  rw [hs, bnScale, div_pow, Real.sq_sqrt hv.le]
  ring

/-- **C83 violated**, `center=False`: the outputs of every batch have mean one instead of zero. -/
theorem C83_center_violated (scaleOn : Bool) (gamma beta eps mu : ℝ) (st : Fin 1 → BnStats) (b : List ℝ) (hb : b ≠ []) :
    batchMean ((qbnLayer id id scaleOn false gamma beta eps mu).call st ⟨true, .true, b⟩).2 = 1 := by
  have hfl : (b.flatMap fun x => [x]) = b := by simp
  have hy : ((qbnLayer id id scaleOn false gamma beta eps mu).call st ⟨true, .true, b⟩).2 =
      b.map fun x => x * bnScale scaleOn gamma (batchVar b) eps + (1 - batchMean b * bnScale scaleOn gamma (batchVar b) eps) := by
    simp [BnLayer.call, qbnLayer, Flag.truthy, BnLayer.moments, hfl, bnCall, bnOffset]
  rw [hy, batchMean_affine b hb]; ring

/-- **C83 (partial)**, `QEinsumDenseBatchnorm` (plain dense equation), trainable, exact quantizers: the outputs of every non-empty
training batch have mean `bias`, and variance `gamma² · var/(var + ε)` with `ε` the backend epsilon, where `var` is the variance of
the unnormalised outputs. -/
theorem C83_einsum_partial {n : ℕ} (kq bq : ℝ → ℝ) (scaleOn : Bool) (gamma mu : ℝ) (kernel : Fin n → ℝ) (bias : ℝ)
    (st : Fin 1 → BnStats) (xs : List (Fin n → ℝ)) (hx : xs ≠ []) (hk : ∀ s, kq s = s) (hbq : ∀ o, bq o = o) :
    let y := ((einsumBnLayer kq bq scaleOn gamma mu kernel bias).call st ⟨true, .true, xs⟩).2
    let pre := xs.map fun x => ∑ i, x i * kernel i
    batchMean y = bias ∧ batchVar y = (if scaleOn then gamma else 1) ^ 2 * (batchVar pre / (batchVar pre + backendEps)) := by
  intro y pre
  have hp : pre ≠ [] := by simpa [pre] using hx
  have hfl : (xs.flatMap fun x => [∑ i, x i * kernel i]) = pre := by
    simp only [pre]
    induction xs with
    | nil => rfl
    | cons a t ih => by_cases h : t = [] <;> simp_all
  set s := bnScale scaleOn gamma (batchVar pre) backendEps with hs
  have hy : y = pre.map fun t => t * s + (bias - batchMean pre * s) := by
    simp only [y, BnLayer.call, einsumBnLayer, Flag.truthy, Bool.true_and, Bool.true_or, if_true, BnLayer.moments, hfl, hk, hbq, pre,
      List.map_map]
    refine List.map_congr_left (fun x _ => ?_)
    simp only [Function.comp]
    rw [← hs]
    rw [Finset.sum_mul]
    have : ∀ i : Fin n, x i * (kernel i * s) = x i * kernel i * s := fun i => by ring
    simp only [this]
    ring
  rw [hy, batchMean_affine pre hp, batchVar_affine pre hp]
  refine ⟨by ring, ?_⟩
  have hv : 0 < batchVar pre + backendEps := by
    have := batchVar_nonneg pre
    have : (0 : ℝ) < backendEps := by unfold backendEps; norm_num
    linarith
  rw [hs, bnScale, div_pow, Real.sq_sqrt hv.le]
  ring

theorem batchMean_sum {n : ℕ} (xs : List (Fin n → ℝ)) (hx : xs ≠ []) (a : Fin n → ℝ) (c : ℝ) :
    batchMean (xs.map fun x => (∑ i, x i * a i) + c) = (∑ i, batchMean (xs.map fun x => x i) * a i) + c := by
  have hl : (xs.length : ℝ) ≠ 0 := by simpa using hx
  have : (xs.map fun x => (∑ i, x i * a i) + c).sum = (∑ i, (xs.map fun x => x i).sum * a i) + xs.length * c := by
    clear hx hl
    induction xs with
    | nil => simp
    | cons x xs ih =>
      simp only [List.map_cons, List.sum_cons, List.length_cons, ih, add_mul, Finset.sum_add_distrib]
      push_cast; ring
  simp only [batchMean, List.length_map, this, add_div]
  rw [Finset.sum_div]
  congr 1
  · exact Finset.sum_congr rfl (fun i _ => by ring)
  · field_simp

/-- **C83 (partial)**, `QBatchNormDense`, exact quantizers: the outputs of a training batch have mean `bias` if and only if the
input means, weighted with the kernel, agree with and without the scale. -/
theorem C83_dense_partial {n : ℕ} (scaleOn : Bool) (gamma : Fin n → ℝ) (eps mu : ℝ) (kernel : Fin n → ℝ) (bias : ℝ)
    (st : Fin n → BnStats) (xs : List (Fin n → ℝ)) (hx : xs ≠ []) :
    let y := ((bnDenseLayer id id scaleOn gamma eps mu kernel bias).call st ⟨true, .true, xs⟩).2
    let mean := fun i => batchMean (xs.map fun x => x i)
    let s := fun i => bnScale scaleOn (gamma i) (batchVar (xs.map fun x => x i)) eps
    batchMean y = bias ↔ ∑ i, mean i * (s i * kernel i) = ∑ i, mean i * kernel i := by
  intro y mean s
  have hfl : ∀ i, (xs.flatMap fun x => [x i]) = xs.map fun x => x i := by
    intro i
    clear y mean s hx
    induction xs with
    | nil => rfl
    | cons a t ih => simp [ih]
  have hy : y = xs.map fun x => (∑ i, x i * (s i * kernel i)) + (bias + -(∑ i, mean i * kernel i)) := by
    simp [y, BnLayer.call, bnDenseLayer, Flag.truthy, BnLayer.moments, hfl, bnDenseCall, mean, s]
  rw [hy, batchMean_sum xs hx]
  constructor <;> intro h <;> linarith

/-- **C83 violated**, `QBatchNormDense`: one input, kernel 1, bias 0, inputs 1 and 1 with `gamma = 2`, `eps = 1`: the mean output is 1
instead of 0. -/
theorem C83_dense_violated : batchMean ((bnDenseLayer (n := 1) id id true (fun _ => 2) 1 0 (fun _ => 1) 0).call (fun _ => ⟨0, 1⟩)
    ⟨true, .true, [fun _ => 1, fun _ => 1]⟩).2 = 1 := by
  simp [BnLayer.call, bnDenseLayer, Flag.truthy, BnLayer.moments, bnDenseCall, bnScale, batchMean, batchVar]; norm_num

/-- Concrete case of `C83_qbn_partial`: batch `[1, 3]`, gamma 2, beta 5, eps 3: outputs 4 and 6. -/
example : ((qbnLayer id id true true 2 5 3 (1 / 2)).call (fun _ => ⟨0, 1⟩) ⟨true, .true, [1, 3]⟩).2 = [4, 6] := by
  have h4 : Real.sqrt 4 = 2 := by rw [show (4 : ℝ) = 2 ^ 2 by norm_num]; exact Real.sqrt_sq (by norm_num)
  simp [BnLayer.call, qbnLayer, Flag.truthy, BnLayer.moments, bnCall, bnScale, bnOffset, batchMean, batchVar]
  norm_num [h4]

end HGQ
