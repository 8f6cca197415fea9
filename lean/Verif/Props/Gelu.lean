import Verif.Model.Gelu
import Mathlib.Analysis.SpecialFunctions.Trigonometric.DerivHyp
import Mathlib.MeasureTheory.Integral.IntervalIntegral.FundThmCalculus
import Mathlib.Analysis.Real.Pi.Bounds
import Mathlib.Tactic

/-!
# C76: `gelu`
-/
namespace HGQ
open Real Set

theorem hasDerivAt_tanh' (y : ℝ) : HasDerivAt tanh (1 - tanh y ^ 2) y := by
  have h : HasDerivAt (fun x => sinh x / cosh x) ((cosh y * cosh y - sinh y * sinh y) / cosh y ^ 2) y :=
    (hasDerivAt_sinh y).div (hasDerivAt_cosh y) (cosh_pos y).ne'
  have he : (fun x => sinh x / cosh x) = tanh := by ext x; rw [tanh_eq_sinh_div_cosh]
  rw [he] at h
  convert h using 1
  rw [tanh_eq_sinh_div_cosh]
  have := (cosh_pos y).ne'
  field_simp

theorem hasDerivAt_erf (z : ℝ) : HasDerivAt erf (2 / √π * exp (-z ^ 2)) z := by
  have hc : Continuous fun s : ℝ => exp (-s ^ 2) := by fun_prop
  exact (intervalIntegral.integral_hasDerivAt_right (hc.intervalIntegrable _ _) (hc.stronglyMeasurableAtFilter _ _) hc.continuousAt).const_mul _

theorem erf_neg (z : ℝ) : erf (-z) = -erf z := by
  unfold erf
  have h : ∫ s in (0 : ℝ)..z, exp (-(-s) ^ 2) = ∫ s in (-z)..(-0), exp (-s ^ 2) := intervalIntegral.integral_comp_neg fun s => exp (-s ^ 2)
  simp only [neg_sq, neg_zero] at h
  rw [intervalIntegral.integral_symm, ← h]
  ring

/-- Nonnegative derivative from zero. -/
theorem nonneg_of_deriv {f f' : ℝ → ℝ} (h : ∀ x, HasDerivAt f (f' x) x) (h0 : f 0 = 0) (hp : ∀ x, 0 ≤ x → 0 ≤ f' x) {x : ℝ} (hx : 0 ≤ x) : 0 ≤ f x := by
  have hm : MonotoneOn f (Ici 0) := by
    refine monotoneOn_of_deriv_nonneg (convex_Ici 0) (fun y _ => (h y).continuousAt.continuousWithinAt) (fun y _ => (h y).differentiableAt.differentiableWithinAt) ?_
    intro y hy
    rw [interior_Ici] at hy
    rw [(h y).deriv]
    exact hp y (le_of_lt hy)
  have := hm (mem_Ici.2 le_rfl) hx hx
  rwa [h0] at this

theorem tanh_nonneg' {y : ℝ} (hy : 0 ≤ y) : 0 ≤ tanh y := by
  rw [tanh_eq_sinh_div_cosh]
  exact div_nonneg (sinh_nonneg_iff.2 hy) (cosh_pos y).le

theorem tanh_le_self {y : ℝ} (hy : 0 ≤ y) : tanh y ≤ y := by
  have := nonneg_of_deriv (f := fun y => y - tanh y) (f' := fun y => 1 - (1 - tanh y ^ 2)) (fun x => (hasDerivAt_id x).sub (hasDerivAt_tanh' x)) (by simp)
    (fun x _ => by nlinarith [sq_nonneg (tanh x)]) hy
  linarith

theorem tanh_ge {y : ℝ} (hy : 0 ≤ y) : y - y ^ 3 / 3 ≤ tanh y := by
  have := nonneg_of_deriv (f := fun y => tanh y - (y - y ^ 3 / 3)) (f' := fun y => (1 - tanh y ^ 2) - (1 - 3 * y ^ 2 / 3))
    (fun x => by
      refine (hasDerivAt_tanh' x).sub ((hasDerivAt_id x).sub ?_)
      simpa using (hasDerivAt_pow 3 x).div_const 3) (by simp)
    (fun x hx => by nlinarith [tanh_le_self hx, tanh_nonneg' hx]) hy
  linarith

theorem tanh_mono' {x y : ℝ} (h : x ≤ y) : tanh x ≤ tanh y := by
  have hm : Monotone tanh := by
    refine monotone_of_deriv_nonneg (fun y => (hasDerivAt_tanh' y).differentiableAt) fun y => ?_
    rw [(hasDerivAt_tanh' y).deriv]
    linarith [tanh_sq_lt_one y]
  exact hm h

/-- `√(2/π)`. -/
theorem c_bounds : √(2 / π) ^ 2 = 2 / π ∧ 0.6366 < 2 / π ∧ 2 / π < 0.6367 ∧ 0 < √(2 / π) := by
  have hp := pi_pos
  refine ⟨sq_sqrt (by positivity), ?_, ?_, by positivity⟩
  · rw [lt_div_iff₀ hp]; nlinarith [pi_lt_d4]
  · rw [div_lt_iff₀ hp]; nlinarith [pi_gt_d4]

/-- The difference of the two "sigmoids". -/
noncomputable def geluGap (x : ℝ) : ℝ := erf (x / √2) - tanh (√(2 / π) * (x + 0.044715 * x ^ 3))

theorem geluGap_deriv (x : ℝ) : HasDerivAt geluGap
    (√(2 / π) * (exp (-x ^ 2 / 2) - (1 - tanh (√(2 / π) * (x + 0.044715 * x ^ 3)) ^ 2) * (1 + 3 * 0.044715 * x ^ 2))) x := by
  have h1 : HasDerivAt (fun x => erf (x / √2)) (2 / √π * exp (-(x / √2) ^ 2) * (1 / √2)) x :=
    HasDerivAt.comp x (h₂ := erf) (h := fun x => x / √2) (hasDerivAt_erf (x / √2)) ((hasDerivAt_id x).div_const _)
  have h2 : HasDerivAt (fun x : ℝ => √(2 / π) * (x + 0.044715 * x ^ 3)) (√(2 / π) * (1 + 0.044715 * (3 * x ^ 2))) x := by
    refine HasDerivAt.const_mul _ ((hasDerivAt_id x).add ?_)
    simpa using (hasDerivAt_pow 3 x).const_mul (0.044715 : ℝ)
  have h3 := (hasDerivAt_tanh' _).comp x h2
  refine (h1.sub h3).congr_deriv ?_
  have e1 : (x / √2) ^ 2 = x ^ 2 / 2 := by rw [div_pow, sq_sqrt (by norm_num)]
  have e2 : 2 / √π * (1 / √2) = √(2 / π) := by
    rw [sqrt_div (by norm_num)]
    have : √2 * √2 = 2 := mul_self_sqrt (by norm_num)
    have h2 : √2 ≠ 0 := by positivity
    have h3 : √π ≠ 0 := by have := pi_pos; positivity
    field_simp
    linarith
  rw [e1, ← neg_div, ← e2]
  ring

theorem geluGap_deriv_pos {x : ℝ} (h0 : 0 < x) (h1 : x ≤ 9 / 100) :
    0 < √(2 / π) * (exp (-x ^ 2 / 2) - (1 - tanh (√(2 / π) * (x + 0.044715 * x ^ 3)) ^ 2) * (1 + 3 * 0.044715 * x ^ 2)) := by
  obtain ⟨hc2, hlo, hhi, hc⟩ := c_bounds
  set c := √(2 / π)
  refine mul_pos hc ?_
  have he : 1 - x ^ 2 / 2 ≤ exp (-x ^ 2 / 2) := by have := add_one_le_exp (-x ^ 2 / 2); linarith
  set T := tanh (c * (x + 0.044715 * x ^ 3))
  have hT : c * x - (c * x) ^ 3 / 3 ≤ T := by
    refine (tanh_ge (by positivity)).trans (tanh_mono' ?_)
    have : 0 ≤ x ^ 3 := by positivity
    nlinarith
  have hx2 : x ^ 2 ≤ 0.0081 := by nlinarith
  have hx0 : 0 < x ^ 2 := by positivity
  have hu : (c * x) ^ 2 ≤ 0.0052 := by rw [mul_pow, hc2]; nlinarith
  have hT2 : (c * x) ^ 2 * (1 - 2 * 0.0052 / 3) ≤ T ^ 2 := by
    have hpos : 0 ≤ c * x - (c * x) ^ 3 / 3 := by
      have : 0 < c * x := by positivity
      nlinarith
    have h := pow_le_pow_left₀ hpos hT 2
    refine le_trans ?_ h
    have : (c * x - (c * x) ^ 3 / 3) ^ 2 = (c * x) ^ 2 * (1 - (c * x) ^ 2 / 3) ^ 2 := by ring
    rw [this]
    refine mul_le_mul_of_nonneg_left ?_ (sq_nonneg _)
    nlinarith [sq_nonneg ((c * x) ^ 2 / 3)]
  rw [mul_pow, hc2] at hT2
  have hlow : 0.6343 * x ^ 2 ≤ T ^ 2 := by
    refine le_trans ?_ hT2
    have : 0.6343 ≤ 2 / π * (1 - 2 * 0.0052 / 3) := by nlinarith
    nlinarith
  have hT0 : 0 ≤ T ^ 2 := sq_nonneg T
  nlinarith [mul_nonneg hT0 hx0.le]

theorem geluGap_pos {x : ℝ} (h0 : 0 < x) (h1 : x ≤ 9 / 100) : 0 < geluGap x := by
  have hm : StrictMonoOn geluGap (Icc 0 (9 / 100)) := by
    refine strictMonoOn_of_deriv_pos (convex_Icc _ _) (fun y _ => (geluGap_deriv y).continuousAt.continuousWithinAt) ?_
    intro y hy
    rw [interior_Icc] at hy
    rw [(geluGap_deriv y).deriv]
    exact geluGap_deriv_pos hy.1 hy.2.le
  have h := hm ⟨le_refl _, by norm_num⟩ ⟨h0.le, h1⟩ h0
  have : geluGap 0 = 0 := by simp [geluGap, erf]
  rwa [this] at h

theorem geluGap_neg (x : ℝ) : geluGap (-x) = -geluGap x := by
  unfold geluGap
  rw [neg_div, erf_neg, show √(2 / π) * (-x + 0.044715 * (-x) ^ 3) = -(√(2 / π) * (x + 0.044715 * x ^ 3)) by ring, tanh_neg]
  ring

theorem gelu_gap (x : ℝ) : geluKeras x - geluNumpy x = 1 / 2 * (x * geluGap x) := by
  unfold geluKeras geluNumpy geluGap
  norm_num
  ring

/-- **C76 fails for `gelu`.**  The formula used for the tables is strictly below Keras' `gelu` at every point other than zero of the interval [-0.09, 0.09]. -/
theorem C76_gelu_violated (x : ℝ) (h0 : x ≠ 0) (h1 : |x| ≤ 9 / 100) : geluNumpy x < geluKeras x := by
  have hg := gelu_gap x
  have : 0 < x * geluGap x := by
    rcases lt_or_gt_of_ne h0 with h | h
    · rw [abs_of_neg h] at h1
      have := geluGap_pos (x := -x) (by linarith) h1
      rw [geluGap_neg] at this
      nlinarith
    · rw [abs_of_pos h] at h1
      exact mul_pos h (geluGap_pos h h1)
  linarith

/-- **C76, `gelu` at zero** and symmetry of the difference: the two agree at 0 and differ by the same amount at `x` and `-x`. -/
theorem C76_gelu_partial : geluNumpy 0 = geluKeras 0 ∧ ∀ x, geluKeras (-x) - geluNumpy (-x) = geluKeras x - geluNumpy x := by
  refine ⟨by simp [geluNumpy, geluKeras], fun x => ?_⟩
  rw [gelu_gap, gelu_gap, geluGap_neg]
  ring

end HGQ
