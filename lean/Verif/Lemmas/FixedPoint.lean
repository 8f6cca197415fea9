import Verif.Model.FixedPoint
import Verif.Spec.Grid
import Mathlib.Tactic.Linarith
import Mathlib.Tactic.Ring
import Mathlib.Tactic.FieldSimp
import Mathlib.Tactic.Positivity
import Mathlib.Tactic.NormNum
import Mathlib.Tactic.Zify
import Mathlib.Tactic.Push

/-! # Helper lemmas on the fixed-point model (integer mantissa view) -/
namespace HGQ

theorem two_zpow_pos (n : ℤ) : (0 : ℚ) < 2 ^ n := zpow_pos (by norm_num) n
theorem two_zpow_ne (n : ℤ) : (2 : ℚ) ^ n ≠ 0 := (two_zpow_pos n).ne'

theorem zpow_mul_neg (f : ℤ) : (2 : ℚ) ^ f * 2 ^ (-f) = 1 := by
  rw [zpow_neg]; exact mul_inv_cancel₀ (two_zpow_ne f)

theorem zpow_neg_mul (f : ℤ) : (2 : ℚ) ^ (-f) * 2 ^ f = 1 := by
  rw [mul_comm]; exact zpow_mul_neg f

/-! ## Rounding of mantissas -/

theorem roundHalfEven_int (n : ℤ) : roundHalfEven (n : ℚ) = n := by
  simp [roundHalfEven]

theorem roundMant_int (m : RoundMode) (n : ℤ) : roundMant m (n : ℚ) = n := by
  cases m with
  | RND =>
      simp only [roundMant]
      rw [Int.floor_eq_iff]; constructor <;> linarith
  | TRN => simp [roundMant]
  | RND_CONV => simp [roundMant, roundHalfEven_int]

theorem roundHalfEven_spec (y : ℚ) :
    y - 1/2 ≤ roundHalfEven y ∧ (roundHalfEven y : ℚ) ≤ y + 1/2 ∧
    ((roundHalfEven y : ℚ) = y - 1/2 → roundHalfEven y % 2 = 0) ∧
    ((roundHalfEven y : ℚ) = y + 1/2 → roundHalfEven y % 2 = 0) := by
  have h1 := Int.floor_le y
  have h2 := Int.lt_floor_add_one y
  simp only [roundHalfEven]
  split_ifs with a b c
  · refine ⟨by linarith, by linarith, fun h => ?_, fun h => ?_⟩ <;> exfalso <;> linarith
  · push_cast
    refine ⟨by linarith, by linarith, fun h => ?_, fun h => ?_⟩ <;> exfalso <;> linarith
  · refine ⟨by linarith, by linarith, fun _ => c, fun _ => c⟩
  · push_cast
    refine ⟨by linarith, by linarith, fun h => ?_, fun h => ?_⟩ <;> omega

theorem roundMant_lower (m : RoundMode) (y : ℚ) : y - 1 < roundMant m y := by
  cases m with
  | RND => simp only [roundMant]; have := Int.lt_floor_add_one (y + 1/2); linarith
  | TRN => simp only [roundMant]; have := Int.lt_floor_add_one y; linarith
  | RND_CONV => have := (roundHalfEven_spec y).1; simp only [roundMant]; linarith

theorem roundMant_upper (m : RoundMode) (y : ℚ) : (roundMant m y : ℚ) ≤ y + 1/2 := by
  cases m with
  | RND => simp only [roundMant]; exact Int.floor_le (y + 1/2)
  | TRN => simp only [roundMant]; have := Int.floor_le y; linarith
  | RND_CONV => simp only [roundMant]; exact (roundHalfEven_spec y).2.1

theorem roundHalfEven_mono {y z : ℚ} (h : y ≤ z) : roundHalfEven y ≤ roundHalfEven z := by
  by_contra hc
  push Not at hc
  have a := roundHalfEven_spec y
  have b := roundHalfEven_spec z
  have hc' : (roundHalfEven z : ℚ) + 1 ≤ roundHalfEven y := by exact_mod_cast hc
  -- then z - 1/2 + 1 ≤ rz + 1 ≤ ry ≤ y + 1/2 ≤ z + 1/2
  have e1 : (roundHalfEven z : ℚ) = z - 1/2 := by linarith [a.2.1, b.1]
  have e2 : (roundHalfEven y : ℚ) = y + 1/2 := by linarith [a.2.1, b.1]
  have p1 := b.2.2.1 e1
  have p2 := a.2.2.2 e2
  have e3 : (roundHalfEven y : ℚ) = ((roundHalfEven z + 1 : ℤ) : ℚ) := by push_cast; linarith
  have e4 : roundHalfEven y = roundHalfEven z + 1 := by exact_mod_cast e3
  omega

theorem roundMant_mono (m : RoundMode) {y z : ℚ} (h : y ≤ z) : roundMant m y ≤ roundMant m z := by
  cases m with
  | RND => exact Int.floor_mono (by linarith)
  | TRN => exact Int.floor_mono h
  | RND_CONV => exact roundHalfEven_mono h

/-- Rounding is idempotent: a grid value is returned unchanged. -/
theorem roundAt_grid (m : RoundMode) (f : ℤ) (n : ℤ) :
    roundAt m f ((n : ℚ) * 2 ^ (-f)) = n * 2 ^ (-f) := by
  unfold roundAt
  rw [mul_assoc, zpow_neg_mul, mul_one, roundMant_int]

theorem roundAt_mono (m : RoundMode) (f : ℤ) {x y : ℚ} (h : x ≤ y) : roundAt m f x ≤ roundAt m f y := by
  unfold roundAt
  have := roundMant_mono m (mul_le_mul_of_nonneg_right h (two_zpow_pos f).le)
  have : (roundMant m (x * 2 ^ f) : ℚ) ≤ roundMant m (y * 2 ^ f) := by exact_mod_cast this
  exact mul_le_mul_of_nonneg_right this (two_zpow_pos _).le

/-! ## Overflow on mantissas -/

/-- Number of steps of size `2^-f` in `2^i`. -/
def steps (i f : ℤ) : ℤ := 2 ^ (i + f).toNat

theorem steps_pos (i f : ℤ) : 0 < steps i f := by unfold steps; positivity

theorem zpow_eq_steps {i f : ℤ} (h : 0 ≤ i + f) : (2 : ℚ) ^ i = steps i f * 2 ^ (-f) := by
  unfold steps
  push_cast
  rw [← zpow_natCast, Int.toNat_of_nonneg h, ← zpow_add₀ (by norm_num)]
  congr 1; ring

/-- overflow handling on integer mantissas -/
def ovMant (om : OverflowMode) (k : Bool) (N m : ℤ) : ℤ :=
  match om with
  | .WRAP => (m + kz k * N) % ((1 + kz k) * N) - kz k * N
  | .SAT => min (max m (-(kz k) * N)) (N - 1)
  | .SAT_SYM => min (max m (-(kz k) * (N - 1))) (N - 1)

theorem kq_eq (k : Bool) : kq k = (kz k : ℚ) := by cases k <;> simp [kq, kz]

theorem kz_nonneg (k : Bool) : 0 ≤ kz k := by cases k <;> simp [kz]
theorem kz_le_one (k : Bool) : kz k ≤ 1 := by cases k <;> simp [kz]

theorem sum_nonneg_of_width {k : Bool} {i f : ℤ} (h : 0 < kz k + i + f) : 0 ≤ i + f := by
  have := kz_le_one k; omega

theorem two_zpow_kz (k : Bool) : (2 : ℚ) ^ (kz k) = 1 + kz k := by
  cases k <;> norm_num [kz]

theorem wrap_grid {k : Bool} {i f : ℤ} (h : 0 ≤ i + f) (m : ℤ) :
    wrap k i ((m : ℚ) * 2 ^ (-f)) = ovMant .WRAP k (steps i f) m * 2 ^ (-f) := by
  have hN := steps_pos i f
  have hM : (2 : ℚ) ^ (kz k + i) = (((1 + kz k) * steps i f : ℤ) : ℚ) * 2 ^ (-f) := by
    rw [zpow_add₀ (by norm_num), two_zpow_kz, zpow_eq_steps h]; push_cast; ring
  have hD : (0 : ℤ) < (1 + kz k) * steps i f := by
    have := kz_nonneg k; positivity
  have hP := two_zpow_pos (-f)
  unfold wrap ovMant
  simp only
  rw [hM, kq_eq, zpow_eq_steps h]
  have hs : ((m : ℚ) * 2 ^ (-f) + (kz k : ℚ) * ((steps i f : ℚ) * 2 ^ (-f)))
      = ((m + kz k * steps i f : ℤ) : ℚ) * 2 ^ (-f) := by push_cast; ring
  rw [hs]
  rw [mul_div_mul_right _ _ hP.ne']
  rw [Int.floor_div_cast_of_nonneg hD.le, Int.floor_intCast]
  rw [Int.emod_def]
  push_cast
  ring

theorem clip_grid (f a b m : ℤ) :
    clip ((a : ℚ) * 2 ^ (-f)) (b * 2 ^ (-f)) (m * 2 ^ (-f)) = ((min (max m a) b : ℤ) : ℚ) * 2 ^ (-f) := by
  have hP := (two_zpow_pos (-f)).le
  unfold clip
  rw [← max_mul_of_nonneg _ _ hP, ← min_mul_of_nonneg _ _ hP]
  push_cast
  rfl

theorem qmax_grid {i f : ℤ} (h : 0 ≤ i + f) : qmax i f = ((steps i f - 1 : ℤ) : ℚ) * 2 ^ (-f) := by
  unfold qmax; rw [zpow_eq_steps h]; push_cast; ring

/-- lower mantissa of each mode -/
def loMant (om : OverflowMode) (k : Bool) (N : ℤ) : ℤ :=
  match om with
  | .SAT_SYM => -(kz k) * (N - 1)
  | _ => -(kz k) * N

theorem qmin_grid {om : OverflowMode} {k : Bool} {i f : ℤ} (h : 0 ≤ i + f) :
    qmin om k i f = (loMant om k (steps i f) : ℚ) * 2 ^ (-f) := by
  cases om <;> simp only [qmin, loMant, kq_eq] <;> rw [zpow_eq_steps h] <;> push_cast <;> ring

/-- Inference of a non-empty format, in terms of integer mantissas. -/
theorem quantize_mant {rm : RoundMode} {om : OverflowMode} {k : Bool} {i f : ℤ} {x : ℚ}
    (h : 0 < kz k + i + f) :
    quantize rm om k i f x = (ovMant om k (steps i f) (roundMant rm (x * 2 ^ f)) : ℚ) * 2 ^ (-f) := by
  have h0 := sum_nonneg_of_width h
  unfold quantize baseCall
  simp only [Bool.false_eq_true, if_false, if_pos h]
  cases om
  · simp only [stateless, Bool.false_eq_true, if_false, roundAt, wrap_grid h0]
  · simp only [stateless, roundAt, qmin_grid h0, qmax_grid h0, clip_grid, loMant, ovMant]
  · simp only [stateless, roundAt, qmin_grid h0, qmax_grid h0, clip_grid, loMant, ovMant]

theorem ovMant_bounds {om : OverflowMode} {k : Bool} {i f : ℤ} (_h : 0 < kz k + i + f) (m : ℤ) :
    loMant om k (steps i f) ≤ ovMant om k (steps i f) m ∧ ovMant om k (steps i f) m ≤ steps i f - 1 := by
  have hN := steps_pos i f
  have hk := kz_nonneg k
  cases om
  · simp only [loMant, ovMant]
    have hD : (0 : ℤ) < (1 + kz k) * steps i f := by positivity
    have h1 := Int.emod_nonneg (m + kz k * steps i f) hD.ne'
    have h2 := Int.emod_lt_of_pos (m + kz k * steps i f) hD
    constructor <;> linarith
  · simp only [loMant, ovMant]
    have : -(kz k) * steps i f ≤ steps i f - 1 := by
      have : 0 ≤ kz k * steps i f := by positivity
      linarith
    constructor
    · exact le_min (le_max_right _ _) this
    · exact min_le_right _ _
  · simp only [loMant, ovMant]
    have : -(kz k) * (steps i f - 1) ≤ steps i f - 1 := by
      have : 0 ≤ kz k * (steps i f - 1) := mul_nonneg hk (by omega)
      linarith
    constructor
    · exact le_min (le_max_right _ _) this
    · exact min_le_right _ _

/-- A mantissa in range is unchanged by overflow handling. -/
theorem ovMant_id {om : OverflowMode} {k : Bool} {N m : ℤ}
    (h1 : loMant om k N ≤ m) (h2 : m ≤ N - 1) : ovMant om k N m = m := by
  cases om
  · simp only [loMant, ovMant] at *
    rw [Int.emod_eq_of_lt (by linarith) (by linarith)]; ring
  · simp only [loMant, ovMant] at *
    rw [max_eq_left h1, min_eq_left h2]
  · simp only [loMant, ovMant] at *
    rw [max_eq_left h1, min_eq_left h2]

theorem ovMant_wrap_congr (k : Bool) (N m : ℤ) :
    ∃ n : ℤ, ovMant .WRAP k N m = m + n * ((1 + kz k) * N) := by
  refine ⟨-((m + kz k * N) / ((1 + kz k) * N)), ?_⟩
  simp only [ovMant, Int.emod_def]; ring

theorem grid_le_iff {f a b : ℤ} : (a : ℚ) * 2 ^ (-f) ≤ b * 2 ^ (-f) ↔ a ≤ b := by
  rw [mul_le_mul_iff_left₀ (two_zpow_pos (-f))]; exact Int.cast_le

end HGQ
