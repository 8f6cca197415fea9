import Verif.Model.Ebops
import Mathlib.Algebra.BigOperators.Ring.Finset
import Mathlib.Algebra.Order.BigOperators.Group.Finset
import Mathlib.Algebra.Order.BigOperators.Ring.Finset
import Mathlib.Data.Finset.Lattice.Fold
import Mathlib.Tactic

/-!
# C59 (convolution), C60 (recurrent), C61 (accumulators and tables), C62 (QDot): EBOPs formulas
-/
namespace HGQ
open Finset

/-! ## C59 -/

namespace Spec

/-- Cost of a convolution by definition: every product summed into an output element, plus one bias addition per output
element. -/
def convCost {m outPos : ℕ} (out : Fin outPos → Fin m → List (ℚ × ℚ)) (bb : Option (Fin m → ℚ)) : ℚ :=
  ∑ t : Fin outPos × Fin m, (((out t.1 t.2).map fun q => q.1 * q.2).sum + match bb with | some b => b t.2 | none => 0)

end Spec
open Spec

theorem conv_bias {m : ℕ} (hm : 0 < m) (v : Fin m → ℚ) (P : ℕ) : meanV v * (P * m : ℕ) = P * ∑ j, v j := by
  have : (m : ℚ) ≠ 0 := by positivity
  unfold meanV; push_cast; field_simp

/-- **C59 (partial).** Without bias, or with bias when the number of input positions equals the number of output positions
(stride 1, padding "same") and the default parallelization factor, the EBOPs of a convolution are the cost of the executed
products and bias additions; without bias they scale with the factor.  Missing: other paddings and strides, and scaling of the
bias term — both false, see `C59_bias_violated`. -/
theorem C59_conv_ebops_partial {m outPos inPos : ℕ} (hm : 0 < m) (hO : 0 < outPos) (out : Fin outPos → Fin m → List (ℚ × ℚ)) :
    convEbops outPos inPos out none (-1) = convCost out none ∧
    (∀ pf, 0 < pf → convEbops outPos inPos out none pf = convCost out none * pf / outPos) ∧
    (∀ bb, inPos = outPos → convEbops outPos inPos out (some bb) (-1) = convCost out (some bb)) := by
  have hO' : (outPos : ℚ) ≠ 0 := by positivity
  refine ⟨?_, fun pf hp => ?_, fun bb h => ?_⟩
  · simp [convEbops, convCost, Fintype.sum_prod_type, div_self hO']
  · simp only [convEbops, convCost, Fintype.sum_prod_type, not_le.2 hp, if_false, add_zero]; ring
  · subst h
    simp only [convEbops, convCost, Fintype.sum_prod_type, show (-1 : ℚ) ≤ 0 by norm_num, if_true, div_self hO', mul_one,
      conv_bias hm, sum_add_distrib, sum_const, card_univ, Fintype.card_fin, nsmul_eq_mul]

/-- **C59 violated.** The bias cost is counted once per *input* position and is not scaled by the parallelization factor: with
bias bits summing to a positive number the reported value is the true cost exactly when input and output positions agree in
number, and doubling the factor does not double the value. -/
theorem C59_bias_violated {m outPos inPos : ℕ} (hm : 0 < m) (hO : 0 < outPos) (out : Fin outPos → Fin m → List (ℚ × ℚ))
    (bb : Fin m → ℚ) (hb : 0 < ∑ j, bb j) :
    (convEbops outPos inPos out (some bb) (-1) = convCost out (some bb) ↔ inPos = outPos) ∧
    (0 < inPos → ∀ pf, 0 < pf → convEbops outPos inPos out (some bb) (2 * pf) ≠ 2 * convEbops outPos inPos out (some bb) pf) := by
  have hO' : (outPos : ℚ) ≠ 0 := by positivity
  constructor
  · simp only [convEbops, convCost, Fintype.sum_prod_type, show (-1 : ℚ) ≤ 0 by norm_num, if_true, div_self hO', mul_one,
      conv_bias hm, sum_add_distrib, sum_const, card_univ, Fintype.card_fin, nsmul_eq_mul, add_right_inj]
    rw [mul_left_inj' hb.ne']; exact_mod_cast Iff.rfl
  · intro hi pf hp h
    simp only [convEbops, not_le.2 hp, not_le.2 (show 0 < 2 * pf by linarith), if_false, conv_bias hm] at h
    have : 0 < (inPos : ℚ) * ∑ j, bb j := mul_pos (by exact_mod_cast hi) hb
    have e : ∀ X : ℚ, X * (2 * pf / outPos) = 2 * (X * (pf / outPos)) := fun X => by ring
    rw [e] at h; linarith

/-- Witness: kernel size 2 on 3 positions (2 outputs), one filter. -/
example : convEbops (m := 1) 2 3 (fun _ _ => [(1, 1), (1, 1)]) (some fun _ => 1) (-1) = 7 ∧
    convCost (m := 1) (outPos := 2) (fun _ _ => [(1, 1), (1, 1)]) (some fun _ => 1) = 6 := by decide +kernel

/-! ## C60 -/

namespace Spec

/-- Cost of one step of a simple recurrent cell: `n·u` input products, `u·u` recurrent products, `u` bias additions. -/
def rnnStepCost {n u : ℕ} (bi : Fin n → ℚ) (bk : Fin n → Fin u → ℚ) (bs : Fin u → ℚ) (br : Fin u → Fin u → ℚ)
    (bb : Option (Fin u → ℚ)) : ℚ :=
  (∑ t : Fin n × Fin u, bi t.1 * bk t.1 t.2) + (∑ t : Fin u × Fin u, bs t.1 * br t.1 t.2) +
    ∑ j, (match bb with | some b => b j | none => 0)

end Spec

/-- What `QSimpleRNN` reports with the default factor on `T` steps. -/
theorem simpleRnn_value {n u : ℕ} (hu : 0 < u) (T : ℕ) (bi : Fin n → ℚ) (bk : Fin n → Fin u → ℚ) (bs : Fin u → ℚ)
    (br : Fin u → Fin u → ℚ) (bb : Fin u → ℚ) :
    simpleRnnEbops T bi bk bs br (some bb) (-1) =
      T * (T * (∑ t : Fin n × Fin u, bi t.1 * bk t.1 t.2) + (∑ t : Fin u × Fin u, bs t.1 * br t.1 t.2) +
        T * n * (∑ j, bb j) / u) := by
  have : (u : ℚ) ≠ 0 := by positivity
  have e1 : ∑ j, ∑ i, bi i * bk i j = ∑ t : Fin n × Fin u, bi t.1 * bk t.1 t.2 := by
    rw [Fintype.sum_prod_type, sum_comm]
  have e2 : ∑ j, ∑ i, bs i * br i j = ∑ t : Fin u × Fin u, bs t.1 * br t.1 t.2 := by
    rw [Fintype.sum_prod_type, sum_comm]
  simp only [simpleRnnEbops, rnnCellEbops, e1, e2, if_true, sum_const, card_univ, Fintype.card_fin, nsmul_eq_mul, meanV]
  push_cast; field_simp

/-- **C60 (partial).** A single step of a `QSimpleRNN` whose number of features equals its number of units (or that has no
bias) reports the cost of the executed operations.  Missing: longer sequences (`C60_sequence_violated`), other widths
(`C60_bias_violated`). -/
theorem C60_single_step_partial {n u : ℕ} (hu : 0 < u) (bi : Fin n → ℚ) (bk : Fin n → Fin u → ℚ) (bs : Fin u → ℚ)
    (br : Fin u → Fin u → ℚ) :
    simpleRnnEbops 1 bi bk bs br none (-1) = rnnStepCost bi bk bs br none ∧
    (n = u → ∀ bb, simpleRnnEbops 1 bi bk bs br (some bb) (-1) = rnnStepCost bi bk bs br (some bb)) ∧
    (∀ m (b0 b1 : Fin (m + 1) → ℚ), gruBiasEbops true b0 b1 = (∑ j, b0 j) + ∑ j, b1 j) := by
  refine ⟨?_, ?_, fun m b0 b1 => by simp [gruBiasEbops]⟩
  · have e1 : ∑ j, ∑ i, bi i * bk i j = ∑ t : Fin n × Fin u, bi t.1 * bk t.1 t.2 := by
      rw [Fintype.sum_prod_type, sum_comm]
    have e2 : ∑ j, ∑ i, bs i * br i j = ∑ t : Fin u × Fin u, bs t.1 * br t.1 t.2 := by
      rw [Fintype.sum_prod_type, sum_comm]
    simp [simpleRnnEbops, rnnCellEbops, rnnStepCost, e1, e2]
  · intro h bb; subst h
    rw [simpleRnn_value hu]
    have : (n : ℚ) ≠ 0 := by positivity
    unfold rnnStepCost; push_cast; field_simp

/-- **C60 violated**, sequence length: with the default factor a `T`-step `QSimpleRNN` executes `T` steps but the input part
is counted `T²` times: the reported value exceeds `T` times the step cost whenever `T ≥ 2` and some input product costs
anything. -/
theorem C60_sequence_violated {n u : ℕ} (T : ℕ) (hT : 2 ≤ T) (bi : Fin n → ℚ) (bk : Fin n → Fin u → ℚ)
    (bs : Fin u → ℚ) (br : Fin u → Fin u → ℚ) (hpos : 0 < ∑ t : Fin n × Fin u, bi t.1 * bk t.1 t.2) :
    T * rnnStepCost bi bk bs br none < simpleRnnEbops T bi bk bs br none (-1) := by
  have e1 : ∑ j, ∑ i, bi i * bk i j = ∑ t : Fin n × Fin u, bi t.1 * bk t.1 t.2 := by
    rw [Fintype.sum_prod_type, sum_comm]
  have e2 : ∑ j, ∑ i, bs i * br i j = ∑ t : Fin u × Fin u, bs t.1 * br t.1 t.2 := by
    rw [Fintype.sum_prod_type, sum_comm]
  have hT' : (2 : ℚ) ≤ T := by exact_mod_cast hT
  simp only [simpleRnnEbops, rnnCellEbops, rnnStepCost, e1, e2, if_true, sum_const, card_univ, Fintype.card_fin,
    nsmul_eq_mul, smul_zero, add_zero]
  nlinarith [mul_pos (show (0 : ℚ) < T by linarith) hpos]

/-- **C60 violated**, bias: the bias of a one-step `QSimpleRNN` with `n` features and `u ≠ n` units is charged `n/u` times,
and the bias of a `QGRU(reset_after=False)` is charged only for its first entry. -/
theorem C60_bias_violated {n u : ℕ} (hu : 0 < u) (hnu : n ≠ u) (bi : Fin n → ℚ) (bk : Fin n → Fin u → ℚ) (bs : Fin u → ℚ)
    (br : Fin u → Fin u → ℚ) (bb : Fin u → ℚ) (hb : 0 < ∑ j, bb j) :
    simpleRnnEbops 1 bi bk bs br (some bb) (-1) ≠ rnnStepCost bi bk bs br (some bb) ∧
    (∀ m (b : Fin (m + 1) → ℚ), gruBiasEbops false b b = ∑ j, b j ↔ ∑ j : Fin m, b j.succ = 0) := by
  constructor
  · rw [simpleRnn_value hu]
    unfold rnnStepCost
    intro h
    have hu' : (u : ℚ) ≠ 0 := by positivity
    have : (n : ℚ) * (∑ j, bb j) / u = ∑ j, bb j := by push_cast at h; simp only [one_mul] at h; linarith
    rw [div_eq_iff hu', mul_comm (∑ j, bb j), mul_left_inj' hb.ne'] at this
    exact hnu (by exact_mod_cast this)
  · intro m b
    rw [Fin.sum_univ_succ]; simp [gruBiasEbops, eq_comm]

/-- Concrete values (hypotheses met): 2 features, 1 unit, one step and three steps. -/
example : simpleRnnEbops (n := 2) (u := 1) 1 (fun _ => 3) (fun _ _ => 4) (fun _ => 5) (fun _ _ => 2) (some fun _ => 6) (-1) = 46 ∧
    rnnStepCost (n := 2) (u := 1) (fun _ => 3) (fun _ _ => 4) (fun _ => 5) (fun _ _ => 2) (some fun _ => 6) = 40 ∧
    simpleRnnEbops (n := 2) (u := 1) 3 (fun _ => 3) (fun _ _ => 4) (fun _ => 5) (fun _ _ => 2) none (-1) = 246 ∧
    3 * rnnStepCost (n := 2) (u := 1) (fun _ => 3) (fun _ _ => 4) (fun _ => 5) (fun _ _ => 2) none = 102 := by decide +kernel

/-! ## C61 -/

/-- **C61.** The EBOPs of the element-wise and accumulating layers (`QAdd`, `QAveragePow2`, `QMaximum`, `QMinimum`, `QSum`,
`QMeanPow2`) are non-negative and monotone in every bit-width, for two operands they are the sum of the larger widths; the
EBOPs of the table layers are non-negative and monotone in the input and output widths of every table. -/
theorem C61_accum_table {E n : ℕ} :
    (∀ b : Fin E → Fin (n + 1) → ℚ, (∀ e i, 0 ≤ b e i) → 0 ≤ mergeEbops b ∧ 0 ≤ sumEbops b) ∧
    (∀ b b' : Fin E → Fin (n + 1) → ℚ, (∀ e i, b e i ≤ b' e i) → mergeEbops b ≤ mergeEbops b' ∧ sumEbops b ≤ sumEbops b') ∧
    (∀ b : Fin E → Fin 2 → ℚ, mergeEbops b = ∑ e, max (b e 0) (b e 1)) ∧
    (∀ (B b : ℕ) (bi bo bi' bo' : Fin E → ℕ) (pf : ℚ) (npar : ℕ), 0 < b → (∀ e, bi e ≤ bi' e) → (∀ e, bo e ≤ bo' e) →
      0 ≤ tableEbops B b bi bo pf npar ∧ tableEbops B b bi bo pf npar ≤ tableEbops B b bi' bo' pf npar) := by
  have hmono : ∀ b b' : Fin E → Fin (n + 1) → ℚ, (∀ e i, b e i ≤ b' e i) → mergeEbops b ≤ mergeEbops b' := by
    intro b b' h
    unfold mergeEbops
    rw [← sum_sub_distrib, ← sum_sub_distrib]
    refine sum_le_sum fun e _ => ?_
    -- at each element: drop the minimum of b'
    obtain ⟨i', _, hi'⟩ := exists_mem_eq_inf' (s := (univ : Finset (Fin (n + 1)))) univ_nonempty (b' e)
    have h1 : univ.inf' univ_nonempty (b e) ≤ b e i' := inf'_le _ (mem_univ i')
    rw [hi', ← add_sum_erase univ (b' e) (mem_univ i')]
    obtain ⟨i, _, hi⟩ := exists_mem_eq_inf' (s := (univ : Finset (Fin (n + 1)))) univ_nonempty (b e)
    rw [hi]
    by_cases hii : i = i'
    · subst hii
      rw [← add_sum_erase univ (b e) (mem_univ i)]
      have := sum_le_sum (s := univ.erase i) fun j _ => h e j
      linarith
    · -- swap: everything but i, with i' compared against i
      rw [← add_sum_erase univ (b e) (mem_univ i), ← add_sum_erase (univ.erase i) (b e) (mem_erase.2 ⟨Ne.symm hii, mem_univ i'⟩),
        ← add_sum_erase (univ.erase i') (b' e) (mem_erase.2 ⟨hii, mem_univ i⟩), erase_right_comm]
      have := sum_le_sum (s := (univ.erase i').erase i) fun j _ => h e j
      have h2 : b e i' ≤ b' e i := by
        have : b' e i' ≤ b' e i := hi' ▸ inf'_le _ (mem_univ i)
        exact (h e i').trans this
      linarith
  have hlut0 : ∀ b x : ℕ, 0 ≤ smallLut b x := by intro b x; unfold smallLut; split <;> positivity
  have hlut : ∀ b x y : ℕ, 0 < b → x ≤ y → smallLut b x ≤ smallLut b y := by
    intro b x y hb hxy
    have hb' : (0 : ℚ) < b := by exact_mod_cast hb
    unfold smallLut
    split_ifs with h1 h2 h2
    · exact pow_le_pow_right₀ (by norm_num) (by omega)
    · omega
    · have : (x : ℚ) / b ≤ 1 := by rw [div_le_one hb']; exact_mod_cast (not_le.1 h1).le
      exact this.trans (one_le_pow₀ (by norm_num))
    · exact div_le_div_of_nonneg_right (by exact_mod_cast hxy) hb'.le
  refine ⟨fun b hb => ?_, fun b b' h => ⟨hmono b b' h, ?_⟩, ?_, ?_⟩
  · have : 0 ≤ mergeEbops b := by
      have := hmono (fun _ _ => 0) b hb
      simpa [mergeEbops] using this
    exact ⟨this, mul_nonneg this (by norm_num)⟩
  · exact mul_le_mul_of_nonneg_right (hmono b b' h) (by norm_num)
  · intro b
    unfold mergeEbops
    rw [← sum_sub_distrib]
    refine sum_congr rfl fun e _ => ?_
    have : univ.inf' univ_nonempty (b e) = min (b e 0) (b e 1) := by
      apply le_antisymm
      · exact le_min (inf'_le _ (mem_univ _)) (inf'_le _ (mem_univ _))
      · apply le_inf'; intro i _; fin_cases i <;> simp
    rw [this, Fin.sum_univ_two]
    have := min_add_max (b e 0) (b e 1); linarith
  · intro B b bi bo bi' bo' pf npar hb h1 h2
    have hpf : 0 ≤ resolvePf pf npar := by
      unfold resolvePf; split
      · positivity
      · linarith
    have t0 : 0 ≤ (∑ e, smallLut b (bi e) * bo e) * (2 : ℚ) ^ ((b : ℤ) - B) + ∑ e, (bo e : ℚ) :=
      add_nonneg (mul_nonneg (sum_nonneg fun e _ => mul_nonneg (hlut0 _ _) (by positivity)) (by positivity))
        (sum_nonneg fun e _ => by positivity)
    have t1 : (∑ e, smallLut b (bi e) * bo e) * (2 : ℚ) ^ ((b : ℤ) - B) + ∑ e, (bo e : ℚ)
        ≤ (∑ e, smallLut b (bi' e) * bo' e) * (2 : ℚ) ^ ((b : ℤ) - B) + ∑ e, (bo' e : ℚ) := by
      refine add_le_add (mul_le_mul_of_nonneg_right (sum_le_sum fun e _ => ?_) (by positivity))
        (sum_le_sum fun e _ => by exact_mod_cast h2 e)
      exact mul_le_mul (hlut _ _ _ hb (h1 e)) (by exact_mod_cast h2 e) (by positivity) (hlut0 _ _)
    unfold tableEbops
    exact ⟨div_nonneg (mul_nonneg t0 hpf) (by positivity),
      div_le_div_of_nonneg_right (mul_le_mul_of_nonneg_right t1 hpf) (by positivity)⟩

/-- Concrete values: three operands with widths 2, 5, 4; one 7-bit to 3-bit table with `(6, 5)` LUTs. -/
example : mergeEbops (E := 1) (fun _ i => ![2, 5, 4] i) = 9 ∧ tableEbops (E := 1) 6 5 (fun _ => 7) (fun _ => 3) (-1) 1 = 9 := by
  decide +kernel

/-! ## C62 -/

/-- **C62 (partial).** For vectors (one row each) the EBOPs of `QDot` are the cost of the executed products. Missing: several
rows, where it is false (`C62_matrix_violated`). -/
theorem C62_dot_partial {d : ℕ} (b0 b1 : Fin 1 → Fin d → ℚ) :
    dotEbops b0 b1 = ∑ t : Fin 1 × Fin 1 × Fin d, b0 t.1 t.2.2 * b1 t.2.1 t.2.2 := by
  simp [dotEbops, Fintype.sum_prod_type]

/-- **C62 violated.** For matrices with `n ≥ 2` rows and positive bit-widths the layer executes a product for every pair of
rows, but only the pairs of equal row number are charged. -/
theorem C62_matrix_violated {n d : ℕ} (hn : 2 ≤ n) (hd : 0 < d) (b0 b1 : Fin n → Fin d → ℚ) (h0 : ∀ r c, 0 < b0 r c)
    (h1 : ∀ r c, 0 < b1 r c) :
    dotEbops b0 b1 < ∑ t : Fin n × Fin n × Fin d, b0 t.1 t.2.2 * b1 t.2.1 t.2.2 := by
  simp only [dotEbops, Fintype.sum_prod_type]
  have hne : (univ : Finset (Fin n)).Nonempty := ⟨⟨0, by omega⟩, mem_univ _⟩
  refine sum_lt_sum_of_nonempty hne fun r _ => ?_
  have hd' : (univ : Finset (Fin d)).Nonempty := ⟨⟨0, hd⟩, mem_univ _⟩
  have pos : ∀ s, 0 < ∑ c, b0 r c * b1 s c := fun s => sum_pos (fun c _ => mul_pos (h0 _ _) (h1 _ _)) hd'
  obtain ⟨s, hs⟩ : ∃ s : Fin n, s ≠ r := by
    by_cases h : r = ⟨0, by omega⟩
    · exact ⟨⟨1, by omega⟩, by rw [h]; simp⟩
    · exact ⟨⟨0, by omega⟩, Ne.symm h⟩
  have h2 := sum_le_sum_of_subset_of_nonneg (f := fun s => ∑ c, b0 r c * b1 s c) (subset_univ ({r, s} : Finset (Fin n)))
    (fun i _ _ => (pos i).le)
  rw [sum_pair hs.symm] at h2
  linarith [pos s]

/-- Two 2×1 matrices of 3-bit and 4-bit numbers: 4 products, 2 charged. -/
example : dotEbops (n := 2) (d := 1) (fun _ _ => 3) (fun _ _ => 4) = 24 ∧
    ∑ t : Fin 2 × Fin 2 × Fin 1, (fun _ _ => 3 : Fin 2 → Fin 1 → ℚ) t.1 t.2.2 * (fun _ _ => 4 : Fin 2 → Fin 1 → ℚ) t.2.1 t.2.2 = 48 := by
  constructor
  · decide +kernel
  · simp [Fintype.sum_prod_type]; norm_num

end HGQ
