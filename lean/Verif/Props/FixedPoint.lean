import Verif.Lemmas.FixedPoint
import Mathlib.Order.Interval.Finset.Basic
import Mathlib.Data.Int.Interval
import Mathlib.Data.Set.Card
import Mathlib.Data.Set.Finite.Basic

/-!
# Properties C01–C07: the numeric contract of a fixed-point quantizer at inference
-/
namespace HGQ
open Spec

/-- The lower end of the range promised to the user for each overflow mode (specification side). -/
def Spec.low (om : OverflowMode) (k : Bool) (i f : ℤ) : ℚ :=
  match om with
  | .SAT_SYM => lowSym k i f
  | _ => lowTC k i

/-- The rounding relation promised for each rounding mode (specification side). -/
def Spec.IsRounded (rm : RoundMode) (f : ℤ) (x v : ℚ) : Prop :=
  match rm with
  | .RND => IsNearestTiesUp f x v
  | .RND_CONV => IsNearestTiesEven f x v
  | .TRN => IsFloor f x v

theorem width_eq (k : Bool) (i f : ℤ) : width k i f = kz k + i + f := rfl

theorem qmin_eq_low (om : OverflowMode) (k : Bool) (i f : ℤ) : qmin om k i f = low om k i f := by
  cases om <;> cases k <;> simp [qmin, low, lowTC, lowSym, kq]

/-- **C01.** The inference output is a multiple of `2^-f` inside the reported `[min, max]`, and that interval is the
documented one of the overflow mode. -/
theorem C01_output_representable (rm : RoundMode) (om : OverflowMode) (k : Bool) (i f : ℤ) (x : ℚ)
    (h : 0 < width k i f) :
    Representable f (qmin om k i f) (qmax i f) (quantize rm om k i f x) ∧
    qmin om k i f = low om k i f ∧ qmax i f = high i f := by
  rw [width_eq] at h
  have h0 := sum_nonneg_of_width h
  refine ⟨⟨⟨_, quantize_mant h⟩, ?_, ?_⟩, qmin_eq_low .., rfl⟩
  · rw [quantize_mant h, qmin_grid h0, grid_le_iff]; exact (ovMant_bounds h _).1
  · rw [quantize_mant h, qmax_grid h0, grid_le_iff]; exact (ovMant_bounds h _).2

example : (0 : ℤ) < width true 2 3 ∧ quantize .RND .WRAP true 2 3 (100/7) ≠ 0 := by
  decide +kernel

/-- **C02.** Quantizing an inference output again changes nothing, for every format (also of non-positive width). -/
theorem C02_idempotent (rm : RoundMode) (om : OverflowMode) (k : Bool) (i f : ℤ) (x : ℚ) :
    quantize rm om k i f (quantize rm om k i f x) = quantize rm om k i f x := by
  by_cases h : 0 < kz k + i + f
  · obtain ⟨h1, h2⟩ := ovMant_bounds (om := om) h (roundMant rm (x * 2 ^ f))
    rw [quantize_mant (x := quantize rm om k i f x) h, quantize_mant (x := x) h, mul_assoc, zpow_neg_mul, mul_one,
      roundMant_int, ovMant_id h1 h2]
  · unfold quantize baseCall
    simp [h]

/-- The rounding step used by every mode is the documented one. -/
theorem roundAt_isRounded (rm : RoundMode) (f : ℤ) (x : ℚ) : IsRounded rm f x (roundAt rm f x) := by
  have hP := two_zpow_pos (-f)
  have hx : x = (x * 2 ^ f) * 2 ^ (-f) := by rw [mul_assoc, zpow_mul_neg, mul_one]
  generalize hy : x * 2 ^ f = y at hx
  have e : ∀ r c : ℚ, r * 2 ^ (-f) - x = (r - y) * 2 ^ (-f) := by intro r c; rw [hx]; ring
  cases rm with
  | RND =>
      refine ⟨⟨_, rfl⟩, ?_, ?_⟩
      · have h1 := Int.lt_floor_add_one (y + 1/2)
        have : (0:ℚ) < ((⌊y + 1/2⌋ : ℚ) - (y - 1/2)) * 2 ^ (-f) := mul_pos (by linarith) hP
        simp only [roundAt, roundMant, hy]
        nlinarith [e (⌊y + 1/2⌋ : ℚ) 0]
      · have h1 := Int.floor_le (y + 1/2)
        have : (0:ℚ) ≤ ((y + 1/2) - (⌊y + 1/2⌋ : ℚ)) * 2 ^ (-f) := mul_nonneg (by linarith) hP.le
        simp only [roundAt, roundMant, hy]
        nlinarith [e (⌊y + 1/2⌋ : ℚ) 0]
  | TRN =>
      refine ⟨⟨_, rfl⟩, ?_, ?_⟩
      · have h1 := Int.floor_le y
        have : (0:ℚ) ≤ (y - (⌊y⌋ : ℚ)) * 2 ^ (-f) := mul_nonneg (by linarith) hP.le
        simp only [roundAt, roundMant, hy]
        nlinarith [e (⌊y⌋ : ℚ) 0]
      · have h1 := Int.lt_floor_add_one y
        have : (0:ℚ) < ((⌊y⌋ : ℚ) + 1 - y) * 2 ^ (-f) := mul_pos (by linarith) hP
        simp only [roundAt, roundMant, hy]
        nlinarith [e (⌊y⌋ : ℚ) 0]
  | RND_CONV =>
      obtain ⟨h1, h2, h3, h4⟩ := roundHalfEven_spec y
      refine ⟨roundHalfEven y, by simp [roundAt, roundMant, hy], ?_, ?_⟩
      · simp only [roundAt, roundMant, hy, e _ 0]
        rw [abs_mul, abs_of_pos hP, div_eq_inv_mul]
        refine mul_le_mul_of_nonneg_right ?_ hP.le
        rw [abs_le]; constructor <;> linarith
      · simp only [roundAt, roundMant, hy, e _ 0]
        rw [abs_mul, abs_of_pos hP, div_eq_inv_mul]
        intro h
        have h := mul_right_cancel₀ hP.ne' h
        rcases abs_eq (by norm_num : (0:ℚ) ≤ 2⁻¹) |>.1 h with h | h
        · exact h4 (by linarith)
        · exact h3 (by linarith)

/-- **C03.** If the rounded input fits the range, inference returns it: the output is the correctly rounded input
(nearest ties-up / nearest ties-even / floor), hence within `ε/2` of the input for the nearest modes and in `(x-ε, x]`
for truncation. -/
theorem C03_rounding_in_range (rm : RoundMode) (om : OverflowMode) (k : Bool) (i f : ℤ) (x v : ℚ)
    (h : 0 < width k i f) (hv : IsRounded rm f x v) (h1 : low om k i f ≤ v) (h2 : v ≤ high i f) :
    quantize rm om k i f x = v ∧
    (rm ≠ .TRN → |quantize rm om k i f x - x| ≤ 2 ^ (-f) / 2) ∧
    (rm = .TRN → x - 2 ^ (-f) < quantize rm om k i f x ∧ quantize rm om k i f x ≤ x) := by
  have hP := two_zpow_pos (-f)
  -- rounding relation is functional
  have huniq : v = roundAt rm f x := by
    have hr := roundAt_isRounded rm f x
    have close : ∀ a b : ℤ, |(a:ℚ) * 2 ^ (-f) - b * 2 ^ (-f)| < 2 ^ (-f) → a = b := by
      intro a b hab
      rw [← sub_mul, abs_mul, abs_of_pos hP] at hab
      have : |(a:ℚ) - b| < 1 := by
        by_contra hc; push Not at hc
        nlinarith
      have : |a - b| < 1 := by exact_mod_cast this
      have := Int.abs_lt_one_iff.1 this
      omega
    cases rm with
    | RND =>
        obtain ⟨⟨a, rfl⟩, a1, a2⟩ := hv
        obtain ⟨⟨b, hb⟩, b1, b2⟩ := hr
        rw [hb] at b1 b2 ⊢
        rw [close a b (by rw [abs_lt]; constructor <;> linarith)]
    | TRN =>
        obtain ⟨⟨a, rfl⟩, a1, a2⟩ := hv
        obtain ⟨⟨b, hb⟩, b1, b2⟩ := hr
        rw [hb] at b1 b2 ⊢
        rw [close a b (by rw [abs_lt]; constructor <;> linarith)]
    | RND_CONV =>
        obtain ⟨a, rfl, a1, a2⟩ := hv
        obtain ⟨b, hb, b1, b2⟩ := hr
        rw [hb] at b1 b2 ⊢
        congr 2
        have a1' := abs_le.1 a1
        have b1' := abs_le.1 b1
        by_contra hne
        have hge : ¬ |(a:ℚ) * 2 ^ (-f) - b * 2 ^ (-f)| < 2 ^ (-f) := fun hc => hne (close a b hc)
        push Not at hge
        have key : (a:ℚ) * 2 ^ (-f) - b * 2 ^ (-f) = 2 ^ (-f) ∨ (a:ℚ) * 2 ^ (-f) - b * 2 ^ (-f) = - 2 ^ (-f) := by
          rcases le_abs.1 hge with hc | hc
          · left; linarith
          · right; linarith
        have ea : |(a:ℚ) * 2 ^ (-f) - x| = 2 ^ (-f) / 2 := by
          rcases key with hc | hc
          · rw [abs_of_nonneg (by linarith)]; linarith
          · rw [abs_of_nonpos (by linarith)]; linarith
        have eb : |(b:ℚ) * 2 ^ (-f) - x| = 2 ^ (-f) / 2 := by
          rcases key with hc | hc
          · rw [abs_of_nonpos (by linarith)]; linarith
          · rw [abs_of_nonneg (by linarith)]; linarith
        have pa := a2 ea
        have pb := b2 eb
        have : ((a - b : ℤ) : ℚ) = 1 ∨ ((a - b : ℤ) : ℚ) = -1 := by
          push_cast
          rcases key with hc | hc
          · left; rw [← sub_mul] at hc; exact mul_right_cancel₀ hP.ne' (by rw [hc, one_mul])
          · right; rw [← sub_mul] at hc; exact mul_right_cancel₀ hP.ne' (by rw [hc]; ring)
        have : a - b = 1 ∨ a - b = -1 := by exact_mod_cast this
        omega
  rw [width_eq] at h
  have h0 := sum_nonneg_of_width h
  have hq : quantize rm om k i f x = v := by
    rw [quantize_mant h, huniq, roundAt, ovMant_id]
    · rw [← grid_le_iff (f := f), ← qmin_grid h0, qmin_eq_low]; rw [huniq] at h1; exact h1
    · rw [← grid_le_iff (f := f), ← qmax_grid h0]; rw [huniq] at h2; exact h2
  refine ⟨hq, fun hr => ?_, fun hr => ?_⟩
  · rw [hq]
    cases rm with
    | RND => obtain ⟨_, a1, a2⟩ := hv; rw [abs_le]; constructor <;> linarith
    | TRN => exact absurd rfl hr
    | RND_CONV => obtain ⟨a, _, a1, _⟩ := hv; exact a1
  · subst hr; rw [hq]; obtain ⟨_, a1, a2⟩ := hv; constructor <;> linarith

/-- Every input has a rounded value, so C03 is not vacuous for any input (totality of the rounding relation). -/
theorem C03_rounded_exists (rm : RoundMode) (f : ℤ) (x : ℚ) : ∃ v, IsRounded rm f x v :=
  ⟨_, roundAt_isRounded rm f x⟩

example : IsRounded .RND_CONV 1 (5/4) 1 ∧ low .SAT true 2 1 ≤ 1 ∧ (1:ℚ) ≤ high 2 1 := by
  refine ⟨⟨2, ?_, ?_, ?_⟩, ?_, ?_⟩ <;> norm_num [low, lowTC, high, abs_le]

/-- **C04.** SAT / SAT_SYM: inputs above the range give `max`, below give `min`, and the map is monotone. -/
theorem C04_saturation (rm : RoundMode) (om : OverflowMode) (hom : om ≠ .WRAP) (k : Bool) (i f : ℤ)
    (h : 0 < width k i f) :
    (∀ x, high i f ≤ x → quantize rm om k i f x = high i f) ∧
    (∀ x, x ≤ low om k i f → quantize rm om k i f x = low om k i f) ∧
    (∀ x y, x ≤ y → quantize rm om k i f x ≤ quantize rm om k i f y) := by
  rw [width_eq] at h
  have h0 := sum_nonneg_of_width h
  have hP := two_zpow_pos (-f)
  have hmono : ∀ m n : ℤ, m ≤ n → ovMant om k (steps i f) m ≤ ovMant om k (steps i f) n := by
    intro m n hmn
    cases om
    · exact absurd rfl hom
    · exact min_le_min_right _ (max_le_max_right _ hmn)
    · exact min_le_min_right _ (max_le_max_right _ hmn)
  have hq : ∀ x y, x ≤ y → quantize rm om k i f x ≤ quantize rm om k i f y := by
    intro x y hxy
    rw [quantize_mant h, quantize_mant h, grid_le_iff]
    exact hmono _ _ (roundMant_mono rm (mul_le_mul_of_nonneg_right hxy (two_zpow_pos f).le))
  have hhi : quantize rm om k i f (high i f) = high i f := by
    have : high i f = ((steps i f - 1 : ℤ) : ℚ) * 2 ^ (-f) := qmax_grid h0
    rw [quantize_mant h, this, mul_assoc, zpow_neg_mul, mul_one, roundMant_int, ovMant_id]
    · exact (ovMant_bounds (om := om) h 0).1.trans (ovMant_bounds (om := om) h 0).2
    · exact le_rfl
  have hlo : quantize rm om k i f (low om k i f) = low om k i f := by
    have : low om k i f = (loMant om k (steps i f) : ℚ) * 2 ^ (-f) := by rw [← qmin_eq_low, qmin_grid h0]
    rw [quantize_mant h, this, mul_assoc, zpow_neg_mul, mul_one, roundMant_int, ovMant_id]
    · exact le_rfl
    · exact (ovMant_bounds (om := om) h 0).1.trans (ovMant_bounds (om := om) h 0).2
  refine ⟨fun x hx => ?_, fun x hx => ?_, hq⟩
  · apply le_antisymm
    · exact (C01_output_representable rm om k i f x h).1.2.2
    · calc high i f = quantize rm om k i f (high i f) := hhi.symm
        _ ≤ _ := hq _ _ hx
  · apply le_antisymm
    · calc quantize rm om k i f x ≤ quantize rm om k i f (low om k i f) := hq _ _ hx
        _ = _ := hlo
    · rw [← qmin_eq_low]; exact (C01_output_representable rm om k i f x h).1.2.1

example : (0:ℤ) < width true 2 3 ∧ OverflowMode.SAT ≠ .WRAP := by decide

/-- Monotonicity genuinely needs saturation: WRAP is not monotone. -/
theorem C04_wrap_not_monotone :
    ∃ x y : ℚ, x ≤ y ∧ quantize .RND .WRAP true 0 0 y < quantize .RND .WRAP true 0 0 x := by
  refine ⟨0, 1, by norm_num, ?_⟩
  rw [quantize_mant (by decide), quantize_mant (by decide)]
  norm_num [ovMant, roundMant, steps, kz]

/-- **C05.** WRAP: the output is congruent to the rounded input modulo `2^(k+i)` and equals it iff it is in range. -/
theorem C05_wrap_modular (rm : RoundMode) (k : Bool) (i f : ℤ) (x : ℚ) (h : 0 < width k i f) :
    CongrMod (2 ^ ((if k then 1 else 0) + i)) (quantize rm .WRAP k i f x) (roundAt rm f x) ∧
    IsRounded rm f x (roundAt rm f x) ∧
    (quantize rm .WRAP k i f x = roundAt rm f x ↔
      lowTC k i ≤ roundAt rm f x ∧ roundAt rm f x ≤ high i f) := by
  rw [width_eq] at h
  have h0 := sum_nonneg_of_width h
  refine ⟨?_, roundAt_isRounded .., ?_, ?_⟩
  · obtain ⟨n, hn⟩ := ovMant_wrap_congr k (steps i f) (roundMant rm (x * 2 ^ f))
    refine ⟨n, ?_⟩
    rw [quantize_mant h, hn, roundAt]
    have : ((if k then 1 else 0 : ℤ) + i) = kz k + i := rfl
    rw [this, zpow_add₀ (by norm_num), two_zpow_kz, zpow_eq_steps h0]
    push_cast; ring
  · intro he
    have := (C01_output_representable rm .WRAP k i f x h).1
    rw [he] at this
    exact ⟨le_of_eq_of_le (qmin_eq_low .WRAP k i f).symm this.2.1, this.2.2⟩
  · rintro ⟨a, b⟩
    exact (C03_rounding_in_range rm .WRAP k i f x _ h (roundAt_isRounded ..) a b).1

example : (0:ℤ) < width false 3 (-1) := by decide

/-- **C06 (reachable set).** The values that can be output are exactly the grid points of the reported range. -/
theorem C06_reachable_iff (rm : RoundMode) (om : OverflowMode) (k : Bool) (i f : ℤ) (h : 0 < width k i f) (v : ℚ) :
    (∃ x, quantize rm om k i f x = v) ↔ Representable f (qmin om k i f) (qmax i f) v := by
  constructor
  · rintro ⟨x, rfl⟩; exact (C01_output_representable rm om k i f x h).1
  · rintro ⟨⟨n, rfl⟩, h1, h2⟩
    rw [width_eq] at h
    have h0 := sum_nonneg_of_width h
    refine ⟨(n:ℚ) * 2 ^ (-f), ?_⟩
    rw [quantize_mant h (x := (n:ℚ) * 2 ^ (-f)), mul_assoc, zpow_neg_mul, mul_one, roundMant_int, ovMant_id]
    · rwa [qmin_grid h0, grid_le_iff] at h1
    · rwa [qmax_grid h0, grid_le_iff] at h2

/-- **C06 (count).** The number of distinct outputs is `2^(k+i+f)` for SAT and WRAP and `2^(k+i+f) - k` for SAT_SYM. -/
theorem C06_reachable_count (rm : RoundMode) (om : OverflowMode) (k : Bool) (i f : ℤ) (h : 0 < width k i f) :
    ((Set.range (quantize rm om k i f)).ncard : ℤ) =
      2 ^ (width k i f).toNat - (if om = .SAT_SYM ∧ k = true then 1 else 0) := by
  have hset : Set.range (quantize rm om k i f) =
      (fun n : ℤ => (n:ℚ) * 2 ^ (-f)) '' (Finset.Icc (loMant om k (steps i f)) (steps i f - 1) : Finset ℤ) := by
    have h0 := sum_nonneg_of_width (k := k) (i := i) (f := f) h
    ext v
    rw [Set.mem_range, C06_reachable_iff rm om k i f h]
    simp only [Set.mem_image, Finset.coe_Icc, Set.mem_Icc]
    constructor
    · rintro ⟨⟨n, rfl⟩, h1, h2⟩
      rw [qmin_grid h0, grid_le_iff] at h1
      rw [qmax_grid h0, grid_le_iff] at h2
      exact ⟨n, ⟨h1, h2⟩, rfl⟩
    · rintro ⟨n, ⟨h1, h2⟩, rfl⟩
      refine ⟨⟨n, rfl⟩, ?_, ?_⟩
      · rw [qmin_grid h0, grid_le_iff]; exact h1
      · rw [qmax_grid h0, grid_le_iff]; exact h2
  have hinj : Function.Injective (fun n : ℤ => (n:ℚ) * 2 ^ (-f)) := by
    intro a b hab
    have := mul_right_cancel₀ (two_zpow_ne (-f)) hab
    exact_mod_cast this
  rw [hset, Set.ncard_image_of_injective _ hinj, Set.ncard_coe_finset, Int.card_Icc]
  have hb := ovMant_bounds (om := om) (k := k) (i := i) (f := f) h 0
  rw [Int.toNat_of_nonneg (by omega)]
  rw [width_eq] at *
  have h0 := sum_nonneg_of_width h
  have hpow : (2:ℤ) ^ (kz k + i + f).toNat = (1 + kz k) * steps i f := by
    unfold steps
    cases k
    · simp [kz]
    · have : (kz true + i + f).toNat = (i + f).toNat + 1 := by simp only [kz] at *; simp; omega
      rw [this, pow_succ]; simp [kz]; ring
  rw [hpow]
  cases om <;> cases k <;> simp [loMant, kz] <;> ring

/-- **C06 (reported full bit-width).** For saturating modes and for WRAP formats with `i + f > 0` the number of outputs is
at most `2^fbits`.  `_partial`: missing WRAP with `k = 1, i + f = 0`, where it is false
(`C06_fbits_wrap_counterexample`). -/
theorem C06_fbits_partial (rm : RoundMode) (om : OverflowMode) (k : Bool) (i f : ℤ) (h : 0 < width k i f)
    (hw : om = .WRAP → 0 < i + f) :
    ((Set.range (quantize rm om k i f)).ncard : ℤ) ≤ 2 ^ (fbitsOf om k (kifB i f)).toNat := by
  rw [C06_reachable_count rm om k i f h]
  rw [width_eq] at *
  have h0 := sum_nonneg_of_width h
  have e : fbitsOf om k (kifB i f) = kz k + i + f := by
    unfold fbitsOf kifB
    cases om
    · have := hw rfl
      simp only [max_eq_left h0, gt_iff_lt, this, if_true]; ring
    · simp only [max_eq_left h0]; ring
    · simp only [max_eq_left h0]; ring
  rw [e]
  split_ifs <;> omega

example : (0:ℤ) < width true 0 4 ∧ (OverflowMode.WRAP = .WRAP → (0:ℤ) < 0 + 4) := by decide

/-- **C06, negative part.** A signed WRAP format with `i + f = 0` has two outputs but reports `fbits = bits = 0`. -/
theorem C06_fbits_wrap_counterexample (rm : RoundMode) (i : ℤ) :
    (Set.range (quantize rm .WRAP true i (-i))).ncard = 2 ∧
    fbitsOf .WRAP true (kifB i (-i)) = 0 ∧ bitsOf .WRAP true (kifB i (-i)) = 0 := by
  have h : (0:ℤ) < width true i (-i) := by simp [width]
  refine ⟨?_, by simp [fbitsOf, kifB], by simp [bitsOf, kifB]⟩
  have := C06_reachable_count rm .WRAP true i (-i) h
  have hw : (width true i (-i)).toNat = 1 := by simp [width]
  rw [hw] at this
  simp at this
  exact_mod_cast this

/-- **C07.** A channel of non-positive total width outputs 0 at inference, in every mode. -/
theorem C07_zero_width (rm : RoundMode) (om : OverflowMode) (k : Bool) (i f : ℤ) (x : ℚ) (h : width k i f ≤ 0) :
    quantize rm om k i f x = 0 := by
  rw [width_eq] at h
  unfold quantize baseCall
  simp [not_lt.2 h]

/-- C07 is not true because the underlying stateless quantizer is zero there: without the mask the value is non-zero. -/
example : width false 0 0 ≤ 0 ∧ stateless .RND .SAT false false 0 (-1) 5 ≠ 0 := by
  refine ⟨by decide, ?_⟩
  norm_num [stateless, roundAt, roundMant, clip, qmin, qmax, kq]

end HGQ
