import Verif.Model.Layers
import Mathlib.Tactic

/-!
# C39 (batch normalisation), C40 (softmax)
-/
namespace HGQ
open Finset

/-! ## C39 -/

namespace Spec

/-- Textbook batch normalisation at inference. -/
noncomputable def batchNorm (gamma beta mean var eps x : ℝ) : ℝ := gamma * ((x - mean) / Real.sqrt (var + eps)) + beta

/-- A dense unit applied to batch-normalised inputs. -/
noncomputable def normThenDense {n : ℕ} (gamma mean var : Fin n → ℝ) (eps : ℝ) (kernel : Fin n → ℝ) (bias : ℝ)
    (x : Fin n → ℝ) : ℝ := (∑ i, batchNorm (gamma i) 0 (mean i) (var i) eps (x i) * kernel i) + bias

end Spec
open Spec

/-- **C39 (partial)**, `QBatchNormalization` with `center=True`, when the quantizers represent the folded scale and offset
exactly: the textbook formula, with `gamma = 1` when `scale=False`.  Missing: `center=False`, which is off by one
(`C39_center_violated`). -/
theorem C39_bn_partial (kq bq : ℝ → ℝ) (scaleOn : Bool) (gamma beta mean var eps x : ℝ)
    (hk : kq (bnScale scaleOn gamma var eps) = bnScale scaleOn gamma var eps)
    (hb : bq (beta - mean * bnScale scaleOn gamma var eps) = beta - mean * bnScale scaleOn gamma var eps) :
    bnCall kq bq scaleOn true gamma beta mean var eps x = batchNorm (if scaleOn then gamma else 1) beta mean var eps x := by
  simp only [bnCall, bnOffset, if_true, hk, hb, batchNorm]
  simp only [bnScale]; ring

/-- **C39 violated**, `center=False`: with exact quantizers the output is the textbook value with `beta = 0` plus one, for all
inputs. -/
theorem C39_center_violated (scaleOn : Bool) (gamma beta mean var eps x : ℝ) :
    bnCall id id scaleOn false gamma beta mean var eps x = batchNorm (if scaleOn then gamma else 1) 0 mean var eps x + 1 := by
  simp only [bnCall, bnOffset, batchNorm, id, bnScale, Bool.false_eq_true, if_false]; ring

/-- Concrete case: gamma 3, beta 1, mean 2, var+eps 4 at x = 4. -/
example : bnCall id id true true 3 1 2 3 1 4 = 4 := by
  rw [C39_bn_partial _ _ _ _ _ _ _ _ _ rfl rfl, batchNorm, show (3 : ℝ) + 1 = 2 ^ 2 by norm_num,
    Real.sqrt_sq (by norm_num)]; norm_num

/-- **C39 (partial)**, `QBatchNormDense` with exact quantizers agrees with "batch-normalise the inputs, then dense" exactly when
the weighted sum of `mean_i·(scale_i - 1)` vanishes — e.g. for zero means.  Missing: all other statistics
(`C39_dense_violated`). -/
theorem C39_dense_partial {n : ℕ} (scaleOn : Bool) (gamma mean var : Fin n → ℝ) (eps : ℝ) (kernel : Fin n → ℝ) (bias : ℝ)
    (x : Fin n → ℝ) :
    bnDenseCall id id scaleOn gamma mean var eps kernel bias x =
        normThenDense (fun i => if scaleOn then gamma i else 1) mean var eps kernel bias x ↔
      ∑ i, mean i * (bnScale scaleOn (gamma i) (var i) eps - 1) * kernel i = 0 := by
  have h : normThenDense (fun i => if scaleOn then gamma i else 1) mean var eps kernel bias x -
      bnDenseCall id id scaleOn gamma mean var eps kernel bias x =
      -∑ i, mean i * (bnScale scaleOn (gamma i) (var i) eps - 1) * kernel i := by
    simp only [normThenDense, bnDenseCall, batchNorm, id]
    have e : ∀ a b c d e : ℝ, a + b - (c + (b + -d)) = -e ↔ a - c + d + e = 0 := fun _ _ _ _ _ => by
      constructor <;> intro h <;> linarith
    rw [e, ← sum_sub_distrib, ← sum_add_distrib, ← sum_add_distrib]
    apply sum_eq_zero; intro i _
    simp only [bnScale]; ring
  constructor
  · intro e; rw [e, sub_self] at h; linarith
  · intro e; rw [e] at h; linarith

/-- Zero means: the two agree for every kernel, scale and input. -/
example {n : ℕ} (gamma var : Fin n → ℝ) (eps : ℝ) (kernel : Fin n → ℝ) (bias : ℝ) (x : Fin n → ℝ) :
    bnDenseCall id id true gamma (fun _ => 0) var eps kernel bias x = normThenDense gamma (fun _ => 0) var eps kernel bias x :=
  (C39_dense_partial true gamma _ var eps kernel bias x).2 (by simp)

/-- **C39 violated**, `QBatchNormDense`: one input, kernel 1, mean 1, `gamma = 2`, variance + epsilon 1: for every input and bias
the result is off. -/
theorem C39_dense_violated (bias x : ℝ) :
    bnDenseCall (n := 1) id id true (fun _ => 2) (fun _ => 1) (fun _ => 1 - 1e-3) 1e-3 (fun _ => 1) bias (fun _ => x) =
      normThenDense (n := 1) (fun _ => 2) (fun _ => 1) (fun _ => 1 - 1e-3) 1e-3 (fun _ => 1) bias (fun _ => x) + 1 := by
  have : (1 : ℝ) - 1e-3 + 1e-3 = 1 := by norm_num
  simp only [bnDenseCall, normThenDense, batchNorm, bnScale, this, id, Real.sqrt_one]
  simp; ring

theorem zip_filter_map {L : Type} [DecidableEq L] (norm : List L) (a : L → ℕ) : ∀ l : List L,
    ((l.zip (l.map a)).filter (fun p => p.1 ∈ norm)).map (·.2) = (l.filter (· ∈ norm)).map a
  | [] => rfl
  | c :: l => by
    simp only [List.map_cons, List.zip_cons_cons, List.filter_cons, decide_eq_true_eq]
    split <;> simp [zip_filter_map norm a l]

/-- **C39 (partial)**, `QEinsumDenseBatchnorm` with exact quantizers whose normalised axes appear in the same order in the kernel
and in the output: einsum followed by batch normalisation of its output, with the backend's epsilon instead of the layer's.
Missing: the layer's `epsilon` (`C39_einsum_eps_violated`), other axis orders (`C39_einsum_order_violated`). -/
theorem C39_einsum_partial {L : Type} [Fintype L] [DecidableEq L] (dim : L → ℕ) (inA kerA outA norm : List L) (scaleOn : Bool)
    (gamma mean var kernel bias x : List ℕ → ℝ)
    (horder : kerA.filter (· ∈ norm) = outA.filter (· ∈ norm)) (o : List ℕ) :
    einsumBnCall id id dim inA kerA outA norm scaleOn gamma mean var kernel bias x o =
      batchNorm (if scaleOn then gamma (bnStatIdx norm outA o) else 1) (bias o) (mean (bnStatIdx norm outA o))
        (var (bnStatIdx norm outA o)) backendEps (einsum2 dim inA kerA outA x kernel o) := by
  simp only [einsumBnCall, id]
  have h : einsum2 dim inA kerA outA x (fun k => kernel k * bnScale scaleOn (gamma (bnKernelIdx norm kerA k))
      (var (bnKernelIdx norm kerA k)) backendEps) o =
      einsum2 dim inA kerA outA x kernel o * bnScale scaleOn (gamma (bnStatIdx norm outA o)) (var (bnStatIdx norm outA o)) backendEps := by
    unfold einsum2
    rw [sum_mul]
    refine sum_congr rfl fun a ha => ?_
    have ho := (mem_filter.1 ha).2
    have : bnKernelIdx norm kerA (kerA.map fun l => (a l : ℕ)) = bnStatIdx norm outA o := by
      rw [← ho]; unfold bnKernelIdx bnStatIdx
      rw [zip_filter_map norm (fun l => (a l : ℕ)) kerA, zip_filter_map norm (fun l => (a l : ℕ)) outA, horder]
    simp only [this]; ring
  rw [h]; simp only [batchNorm, bnScale]; ring

/-- The hypothesis is met by the usual `bsi,ihd->bshd` with normalised `hd` (labels 0..4 = b s i h d). -/
example : ([2, 3, 4] : List (Fin 5)).filter (· ∈ [3, 4]) = ([0, 1, 3, 4] : List (Fin 5)).filter (· ∈ [3, 4]) := by decide

/-- **C39 violated**, `QEinsumDenseBatchnorm` ignores its `epsilon` argument: on `a,a->a` with zero variance the output is the
textbook value only when `epsilon` happens to be the backend's `1e-7`. -/
theorem C39_einsum_eps_violated (eps : ℝ) (he : 0 < eps) :
    einsumBnCall (L := Fin 1) id id (fun _ => 1) [0] [0] [0] [0] true (fun _ => 1) (fun _ => 0) (fun _ => 0) (fun _ => 1)
        (fun _ => 0) (fun _ => 1) [0] =
      batchNorm 1 0 0 0 eps (einsum2 (L := Fin 1) (fun _ => 1) [0] [0] [0] (fun _ => 1) (fun _ => 1) [0]) ↔ eps = 1e-7 := by
  have h1 : einsum2 (L := Fin 1) (fun _ => 1) [0] [0] [0] (fun _ => 1) (fun _ => 1) [0] = 1 := by simp [einsum2]
  rw [C39_einsum_partial _ _ _ _ _ _ _ _ _ _ _ _ rfl, h1]
  simp only [batchNorm, if_true, backendEps, zero_add, sub_zero, one_mul, add_zero]
  constructor
  · intro h
    have h2 : Real.sqrt 1e-7 = Real.sqrt eps := by
      have := congrArg (fun t : ℝ => 1 / t) h; simpa using this
    exact ((Real.sqrt_inj (by norm_num) he.le).1 h2).symm
  · rintro rfl; rfl

/-- **C39 violated**, axis order: for `nc,cab->nba` (all extents 2) with normalised axes `ab` the statistics are stored in output
order `(b, a)` but the kernel is scaled with them read as `(a, b)`: gamma of entry `(0,1)` is 2, of entry `(1,0)` is 3, and the
output with `b = 0, a = 1` is scaled by 3. -/
theorem C39_einsum_order_violated :
    let dim : Fin 4 → ℕ := fun _ => 2   -- n c a b
    let gamma : List ℕ → ℝ := fun i => if i = [0, 1] then 2 else if i = [1, 0] then 3 else 1
    einsumBnCall id id dim [0, 1] [1, 2, 3] [0, 3, 2] [2, 3] true gamma (fun _ => 0) (fun _ => 1 - 1e-7) (fun _ => 1) (fun _ => 0)
        (fun _ => 1) [0, 0, 1] = 6 ∧
      batchNorm (gamma (bnStatIdx ([2, 3] : List (Fin 4)) [0, 3, 2] [0, 0, 1])) 0 0 (1 - 1e-7) backendEps
        (einsum2 dim [0, 1] [1, 2, 3] [0, 3, 2] (fun _ => 1) (fun _ => 1) [0, 0, 1]) = 4 := by
  intro dim gamma
  have hs : (univ.filter (fun a : (l : Fin 4) → Fin (dim l) => [0, 3, 2].map (fun l => (a l : ℕ)) = [0, 0, 1])) =
      {(![0, 0, 1, 0] : Fin 4 → Fin 2), (![0, 1, 1, 0] : Fin 4 → Fin 2)} := by decide +kernel
  have hne : (![0, 0, 1, 0] : Fin 4 → Fin 2) ≠ ![0, 1, 1, 0] := by decide
  have hst : bnStatIdx ([2, 3] : List (Fin 4)) [0, 3, 2] [0, 0, 1] = [0, 1] := by decide +kernel
  have hk0 : bnKernelIdx ([2, 3] : List (Fin 4)) [1, 2, 3] [0, 1, 0] = [1, 0] := by decide +kernel
  have hk1 : bnKernelIdx ([2, 3] : List (Fin 4)) [1, 2, 3] [1, 1, 0] = [1, 0] := by decide +kernel
  have e1 : (1 : ℝ) - 1e-7 + 1e-7 = 1 := by norm_num
  constructor
  · simp only [einsumBnCall, einsum2, hs]
    rw [sum_pair hne]
    refine Eq.trans (b := (1 : ℝ) * id (1 * bnScale true (gamma [1, 0]) (1 - 1e-7) backendEps) +
      1 * id (1 * bnScale true (gamma [1, 0]) (1 - 1e-7) backendEps) + id (0 + -0 * bnScale true (gamma [0, 1]) (1 - 1e-7) backendEps)) ?_ ?_
    · exact congrArg₂ (· + ·) (congrArg₂ (· + ·) (by rw [← hk0]; rfl) (by rw [← hk1]; rfl)) (by rw [hst])
    · simp [gamma, bnScale, backendEps]; norm_num
  · simp only [einsum2, hs, hst, gamma, batchNorm, backendEps, e1, Real.sqrt_one]
    rw [sum_pair hne]
    norm_num

/-! ## C40 -/

/-- The stable argument is the distance to the maximum, so never negative, for every input and mask. -/
theorem C40_argument_nonneg {n : ℕ} (mask : Option (Fin (n + 1) → Bool)) (x : Fin (n + 1) → ℝ) (i : Fin (n + 1)) :
    0 ≤ smArg true mask x i := by
  simp only [smArg, if_true]
  exact sub_nonneg.2 (le_sup' _ (mem_univ i))

/-- Masked positions are exactly zero, for all tables, in both modes. -/
theorem C40_masked_zero {n : ℕ} (iq expT invT : ℝ → ℝ) (stable : Bool) (m : Fin (n + 1) → Bool) (x : Fin (n + 1) → ℝ)
    (i : Fin (n + 1)) (hi : m i = false) : softmaxCall iq expT invT stable (some m) x i = 0 := by
  simp [softmaxCall, hi]

/-- Permuting inputs (and mask) along the axis permutes the outputs. -/
theorem C40_permutation {n : ℕ} (iq expT invT : ℝ → ℝ) (stable : Bool) (mask : Option (Fin (n + 1) → Bool))
    (x : Fin (n + 1) → ℝ) (σ : Equiv.Perm (Fin (n + 1))) (i : Fin (n + 1)) :
    softmaxCall iq expT invT stable (mask.map (· ∘ σ)) (x ∘ σ) i = softmaxCall iq expT invT stable mask x (σ i) := by
  have hsup : ∀ f : Fin (n + 1) → ℝ, univ.sup' univ_nonempty (fun j => f (σ j)) = univ.sup' univ_nonempty f := by
    intro f
    apply le_antisymm
    · exact sup'_le _ _ fun j _ => le_sup' f (mem_univ (σ j))
    · refine sup'_le _ _ fun j _ => ?_
      exact (le_of_eq (by simp)).trans (le_sup' (fun j => f (σ j)) (mem_univ (σ.symm j)))
  have hsum : ∀ f : Fin (n + 1) → ℝ, ∑ j, f (σ j) = ∑ j, f j := fun f => Equiv.sum_comp σ f
  have ha : ∀ y : Fin (n + 1) → ℝ, smArg stable (mask.map (· ∘ σ)) (fun j => y (σ j)) = fun j => smArg stable mask y (σ j) := by
    intro y; cases stable
    · simp [smArg]
    · cases mask with
      | none => simp only [smArg, Option.map_none, if_true]; rw [hsup y]
      | some m => simp only [smArg, Option.map_some, if_true, Function.comp]; rw [hsup fun j => smMask (m j) (y j)]
  unfold softmaxCall
  have ha' := ha fun i => iq (x i)
  simp only [Function.comp] at ha' ⊢
  rw [ha']
  cases mask with
  | none => simp only [Option.map_none]; rw [hsum fun j => expT (smArg stable none (fun i => iq (x i)) j)]
  | some m =>
    simp only [Option.map_some, Function.comp]
    rw [hsum fun j => (if m j = true then 1 else 0) * expT (smArg stable (some m) (fun i => iq (x i)) j)]

/-- In stable mode adding a constant to all (quantized) inputs does not change the outputs: without mask always, with a mask when
all positions are masked or the values concerned stay above the `-1e9` that stands for a masked position. -/
theorem C40_shift_invariant {n : ℕ} (expT invT : ℝ → ℝ) (x : Fin (n + 1) → ℝ) (c : ℝ) :
    softmaxCall id expT invT true none (fun i => x i + c) = softmaxCall id expT invT true none x ∧
    ∀ m : Fin (n + 1) → Bool, (∀ j, m j = true → -1e9 ≤ x j ∧ -1e9 ≤ x j + c) →
      softmaxCall id expT invT true (some m) (fun i => x i + c) = softmaxCall id expT invT true (some m) x := by
  constructor
  · have : smArg true none (fun i => x i + c) = smArg true none x := by
      funext i
      simp only [smArg, if_true]
      have : univ.sup' univ_nonempty (fun i => x i + c) = univ.sup' univ_nonempty x + c := by
        apply le_antisymm
        · exact sup'_le _ _ fun j _ => add_le_add_left (le_sup' x (mem_univ j)) c
        · rw [← le_sub_iff_add_le]
          exact sup'_le _ _ fun j _ => le_sub_iff_add_le.2 (le_sup' (fun i => x i + c) (mem_univ j))
      rw [this]; ring
    unfold softmaxCall
    simp only [id, this]
  · intro m hm
    have key : ∀ i, m i = true → smArg true (some m) (fun i => x i + c) i = smArg true (some m) x i := by
      intro i hi
      simp only [smArg, if_true]
      have hmask : ∀ y : Fin (n + 1) → ℝ, ∀ j, smMask (m j) (y j) = if m j then y j else -1e9 := by
        intro y j; unfold smMask; split <;> ring
      have le1 : ∀ j, smMask (m j) (x j) ≤ univ.sup' univ_nonempty (fun j => smMask (m j) (x j)) :=
        fun j => le_sup' (fun j => smMask (m j) (x j)) (mem_univ j)
      have le2 : ∀ j, smMask (m j) (x j + c) ≤ univ.sup' univ_nonempty (fun j => smMask (m j) (x j + c)) :=
        fun j => le_sup' (fun j => smMask (m j) (x j + c)) (mem_univ j)
      have : univ.sup' univ_nonempty (fun j => smMask (m j) (x j + c)) = univ.sup' univ_nonempty (fun j => smMask (m j) (x j)) + c := by
        apply le_antisymm
        · refine sup'_le _ _ fun j _ => ?_
          by_cases hj : m j = true
          · have := le1 j
            rw [hmask x, hj, if_pos rfl] at this
            rw [hmask (fun j => x j + c), hj, if_pos rfl]; linarith
          · have := le1 i
            rw [hmask x, hi, if_pos rfl] at this
            rw [hmask (fun j => x j + c), if_neg hj]
            have h2 := (hm i hi).2
            linarith
        · rw [← le_sub_iff_add_le]
          refine sup'_le _ _ fun j _ => ?_
          by_cases hj : m j = true
          · have := le2 j
            rw [hmask (fun j => x j + c), hj, if_pos rfl] at this
            rw [hmask x, hj, if_pos rfl]; linarith
          · have := le2 i
            rw [hmask (fun j => x j + c), hi, if_pos rfl] at this
            rw [hmask x, if_neg hj]
            have h2 := (hm i hi).1
            linarith
      rw [this, hmask x, hmask (fun j => x j + c), hi]; simp
    have he : ∀ j, (if m j = true then (1 : ℝ) else 0) * expT (smArg true (some m) (fun i => x i + c) j) =
        (if m j = true then 1 else 0) * expT (smArg true (some m) x j) := by
      intro j; by_cases hj : m j = true
      · rw [key j hj]
      · simp [hj]
    unfold softmaxCall
    simp only [id]
    funext i
    rw [he i]; simp only [he]

/-- The hypotheses are met: three positions, the middle one masked, shifted by 5 — with an actual non-zero output. -/
example : let x : Fin 3 → ℝ := ![1, 7, 1]
    let m : Fin 3 → Bool := ![true, false, true]
    (∀ j, m j = true → -1e9 ≤ x j ∧ -1e9 ≤ x j + 5) ∧
      softmaxCall id (fun t => if t = 0 then 1 else 0) (fun s => 1 / s) true (some m) x 0 = 1 / 2 := by
  intro x m
  refine ⟨?_, ?_⟩
  · intro j; fin_cases j <;> simp [x, m] <;> norm_num
  · have hsup : univ.sup' univ_nonempty (fun i => smMask (m i) (x i)) = 1 := by
      apply le_antisymm
      · refine sup'_le _ _ fun j _ => ?_
        fin_cases j <;> simp [smMask, x, m] <;> norm_num
      · exact (le_of_eq (by simp [smMask, x, m])).trans (le_sup' (fun i => smMask (m i) (x i)) (mem_univ (0 : Fin 3)))
    simp only [softmaxCall, smArg, if_true, id, hsup]
    simp [Fin.sum_univ_three, x, m, smMask]; norm_num

end HGQ
