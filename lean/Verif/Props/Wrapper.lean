import Verif.Model.Wrapper
import Verif.Props.FixedPoint

/-! # C17–C19: `Quantizer` wrapper, hardware replay of a quantizer, hard tanh / hard sigmoid -/
namespace HGQ
open Spec

namespace Spec
/-- Scale as the user means it: absent = 1. -/
def scaleOf (s : Option ℚ) : ℚ := s.getD 1
/-- Affine pair as the user means it: absent = identity. -/
def affOf (a : Option (ℚ × ℚ)) : ℚ × ℚ := a.getD (1, 0)
end Spec

/-- **C17** (inference) Outside training `Quantizer(scaler=s, affine=(a,b))` computes `a * (s * q(x/s)) + b`,
whatever the noise factor. -/
theorem C17_inference (s : Option ℚ) (aff : Option (ℚ × ℚ)) (r : Option ℚ) (fl : Flag) (hfl : fl.truthy = false)
    (qf : ℚ → ℚ) (x : ℚ) :
    quantizerCall s aff r fl qf x = (affOf aff).1 * (scaleOf s * qf (x / scaleOf s)) + (affOf aff).2 := by
  cases s <;> cases aff <;> cases r <;> simp [quantizerCall, hfl, affOf, scaleOf] <;> ring

/-- **C17** (noise, partial: no scaler) In training with `qnoise_factor = r` the result is the affine image of
`(1-r) x + r q(x)`: the input for `r = 0`, the full quantization for `r = 1` or no factor.  Missing: a scaler, where the
claim is false, `C17_noise_with_scaler_violated`. -/
theorem C17_noise_partial (aff : Option (ℚ × ℚ)) (qf : ℚ → ℚ) (x : ℚ) :
    (∀ r, quantizerCall none aff (some r) .true qf x = (affOf aff).1 * ((1 - r) * x + r * qf x) + (affOf aff).2) ∧
    quantizerCall none aff none .true qf x = (affOf aff).1 * qf x + (affOf aff).2 := by
  constructor
  · intro r
    cases aff <;> simp [quantizerCall, affOf, Flag.truthy] <;> ring
  · cases aff <;> simp [quantizerCall, affOf]; ring

/-- **C17** With a scaler the interpolation starts from `x / s` instead of `x`: for `r = 0` (no quantization at all) the
layer returns `x / s`, for every internal quantizer; so every scaler other than 1 violates the property. -/
theorem C17_noise_with_scaler_violated (s : ℚ) (hs : s ≠ 0) (hs1 : s ≠ 1) (qf : ℚ → ℚ) (x : ℚ) (hx : x ≠ 0) :
    quantizerCall (some s) none (some 0) .true qf x = x / s ∧
    quantizerCall (some s) none (some 0) .true qf x ≠ x := by
  have h : quantizerCall (some s) none (some 0) .true qf x = x / s := by simp [quantizerCall, Flag.truthy]
  refine ⟨h, ?_⟩
  rw [h]
  intro h'
  rw [div_eq_iff hs] at h'
  exact hs1 (by have := mul_left_cancel₀ hx (h'.symm.trans (mul_one x).symm); exact this)

example : quantizerCall (some 2) (some (3, 1)) none .false (quantize .RND .SAT true 2 1) (7 / 3) = 3 * (2 * 1) + 1 := by
  decide +kernel

/-- **C18** (partial: `scaler` absent or 1, widths in the int8 range) Replaying a quantizer gives the number the Keras
layer gives at inference, for every input.  Missing: any other scaler, where it is false (`C18_scaler_violated`). -/
theorem C18_replay_partial (s : Option ℚ) (hs : s = none ∨ s = some 1) (aff : Option (ℚ × ℚ)) (r : Option ℚ)
    (rm : RoundMode) (om : OverflowMode) (k : Bool) (i f : ℤ) (hi : -128 ≤ i ∧ i ≤ 127) (hf : -128 ≤ f ∧ f ≤ 127) (x : ℚ) :
    mirrorQuantizer s aff rm om k i f x = quantizerCall s aff r .false (quantize rm om k i f) x := by
  have hi' : int8 i = i := by unfold int8; omega
  have hf' : int8 f = f := by unfold int8; omega
  rcases hs with rfl | rfl <;> cases aff <;> cases r <;>
    simp [mirrorQuantizer, quantizerCall, hi', hf', Flag.truthy]

/-- **C18** is false with a scaler: the replay never multiplies back.  Whatever the widths, whenever the quantized value
is non-zero and the scaler is not 1 the two disagree. -/
theorem C18_scaler_violated (s : ℚ) (hs1 : s ≠ 1) (rm : RoundMode) (om : OverflowMode) (k : Bool) (i f : ℤ)
    (hi : -128 ≤ i ∧ i ≤ 127) (hf : -128 ≤ f ∧ f ≤ 127) (x : ℚ) (hq : quantize rm om k i f (x / s) ≠ 0) :
    mirrorQuantizer (some s) none rm om k i f x ≠ quantizerCall (some s) none none .false (quantize rm om k i f) x := by
  have hi' : int8 i = i := by unfold int8; omega
  have hf' : int8 f = f := by unfold int8; omega
  simp only [mirrorQuantizer, quantizerCall, hi', hf']
  rw [show x * (1 / s) = x / s by ring]
  intro h
  exact hs1 (mul_left_cancel₀ hq (by rw [mul_one]; exact h.symm))

example : quantize .RND .SAT true 2 1 (3 / 2) ≠ 0 ∧
    mirrorQuantizer (some 2) none .RND .SAT true 2 1 3 = 3 / 2 ∧
    quantizerCall (some 2) none none .false (quantize .RND .SAT true 2 1) 3 = 3 := by decide +kernel

/-- **C19** (hard tanh) For every input and every `f ≥ 0` (total width positive) the output of a HardTanhConfig quantizer
is a multiple of `2^-f` in `[-1, 1 - 2^-f]`, in `[-(1-2^-f), 1-2^-f]` if symmetric; it is monotone; and inputs beyond the
range give the end of the range. -/
theorem C19_hard_tanh (sym : Bool) (rm : RoundMode) (f : ℤ) (hf : 0 ≤ f) :
    (∀ x, OnGrid f (hardTanhQ sym rm f x) ∧ -1 ≤ hardTanhQ sym rm f x ∧ hardTanhQ sym rm f x ≤ 1 - 2 ^ (-f) ∧
      (sym = true → -(1 - 2 ^ (-f)) ≤ hardTanhQ sym rm f x)) ∧
    (∀ x y, x ≤ y → hardTanhQ sym rm f x ≤ hardTanhQ sym rm f y) ∧
    (∀ x, 1 - 2 ^ (-f) ≤ x → hardTanhQ sym rm f x = 1 - 2 ^ (-f)) ∧
    (∀ x, x ≤ -1 → hardTanhQ sym rm f x = if sym then -(1 - 2 ^ (-f)) else -1) := by
  have hw : 0 < width true 0 f := by simp [width]; omega
  have e : ∀ x, hardTanhQ sym rm f x = quantize rm (if sym then .SAT_SYM else .SAT) true 0 f x := fun x => by
    simp [hardTanhQ, quantizerCall]
  have hp : (2 : ℚ) ^ (-f) ≤ 1 := zpow_le_one_of_nonpos₀ (by norm_num) (by omega)
  have hsat := C04_saturation rm (if sym then .SAT_SYM else .SAT) (by cases sym <;> simp) true 0 f hw
  refine ⟨?_, ?_, ?_, ?_⟩
  · intro x
    rw [e]
    have h := C01_output_representable rm (if sym then .SAT_SYM else .SAT) true 0 f x hw
    obtain ⟨⟨h1, h2, h3⟩, e1, e2⟩ := h
    rw [e1] at h2; rw [e2] at h3
    refine ⟨h1, ?_, ?_, ?_⟩
    · cases sym
      · simpa [low, lowTC] using h2
      · have h2' : -(1 - (2 : ℚ) ^ (-f)) ≤ quantize rm .SAT_SYM true 0 f x := by simpa [low, lowSym] using h2
        have := two_zpow_pos (-f)
        simp only [if_true]
        linarith
    · simpa [high] using h3
    · rintro rfl
      simpa [low, lowSym] using h2
  · intro x y hxy
    rw [e, e]
    exact hsat.2.2 x y hxy
  · intro x hx
    rw [e, hsat.1 x (by simpa [high] using hx)]; simp [high]
  · intro x hx
    rw [e, hsat.2.1 x (by
      have := two_zpow_pos (-f)
      cases sym
      · simpa [low, lowTC] using hx
      · simp only [low, lowSym, if_true, zpow_zero]; linarith)]
    cases sym <;> simp [low, lowTC, lowSym]

/-- **C19** (hard sigmoid) For every input and `f ≥ -1` the output lies in `[0, 1)`, is monotone, and is a multiple of
`2^-(f+2)` shifted by 1/2. -/
theorem C19_hard_sigmoid (rm : RoundMode) (f : ℤ) (hf : -1 ≤ f) :
    (∀ x, 0 ≤ hardSigmoidQ rm f x ∧ hardSigmoidQ rm f x < 1 ∧ OnGrid (f + 2) (hardSigmoidQ rm f x - 1 / 2)) ∧
    (∀ x y, x ≤ y → hardSigmoidQ rm f x ≤ hardSigmoidQ rm f y) := by
  have hw : 0 < width true 1 f := by simp [width]; omega
  have e : ∀ x, hardSigmoidQ rm f x = quantize rm .SAT true 1 f x * (1 / 4) + 1 / 2 := fun x => by
    simp [hardSigmoidQ, quantizerCall]
  constructor
  · intro x
    rw [e]
    obtain ⟨⟨⟨n, h1⟩, h2, h3⟩, e1, e2⟩ := C01_output_representable rm .SAT true 1 f x hw
    rw [e1] at h2; rw [e2] at h3
    have h2' : -2 ≤ quantize rm .SAT true 1 f x := by simpa [low, lowTC] using h2
    have h3' : quantize rm .SAT true 1 f x ≤ 2 - 2 ^ (-f) := by simpa [high] using h3
    have := two_zpow_pos (-f)
    refine ⟨by linarith, by linarith, n, ?_⟩
    rw [h1, show -(f + 2) = -f + (-2) by ring, zpow_add₀ (by norm_num)]
    norm_num
    ring
  · intro x y hxy
    rw [e, e]
    have := (C04_saturation rm .SAT (by simp) true 1 f hw).2.2 x y hxy
    linarith

example : hardTanhQ true .RND 3 (-5) = -7 / 8 ∧ hardTanhQ false .RND 3 (-5) = -1 ∧ hardSigmoidQ .RND 3 0 = 1 / 2 ∧
    hardSigmoidQ .RND 3 9 = 31 / 32 := by decide +kernel

end HGQ
