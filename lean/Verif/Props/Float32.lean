import Verif.Model.Float32
import Verif.Spec.Grid
import Verif.Props.FixedPoint
import Mathlib.Tactic

/-! # C89: the float32 forward pass is exact -/
namespace HGQ

namespace Spec
/-- `x` is a (finite) IEEE binary32 number. -/
def IsF32 (x : ℚ) : Prop := (∃ m e : ℤ, |m| < 2 ^ 24 ∧ -149 ≤ e ∧ x = m * 2 ^ e) ∧ |x| < 2 ^ (128 : ℤ)

/-- A backend adds up exactly the products it is given, in whatever order. -/
def ValidOrder (S : SumOrder) : Prop := ∀ o l, l ≠ [] → (S o l).terms.Perm l

/-- A float32 input for which the input (or weight) quantizer is exact: scaling by `2^f` does not underflow, the scaled value is below
`2^22`, and it is not the largest float32 below one half if rounding is `RND`; the format has at most 23 bits besides the sign. -/
structure RawOk (q : QSpec) (x : ℚ) : Prop where
  isF32 : IsF32 x
  scaled : IsF32 (x * 2 ^ q.f)
  small : |x * 2 ^ q.f| ≤ 2 ^ 22
  tie : q.rm = .RND → x * 2 ^ q.f ≠ 1 / 2 - 2 ^ (-25 : ℤ)
  range : -103 ≤ q.f ∧ q.f ≤ 149
  bits : q.i + q.f ≤ 23

/-- A quantizer format that is exact on all multiples of `2^-g` of size at most `B`. -/
structure GridOk (q : QSpec) (g : ℤ) (B : ℚ) : Prop where
  size : (B * 2 ^ q.f + 1 / 2) * 2 ^ (max (g - q.f) 1) ≤ 2 ^ 24
  range : -103 ≤ q.f ∧ q.f ≤ 149
  scaled : -103 ≤ g - q.f ∧ g - q.f ≤ 149
  bits : q.i + q.f ≤ 23

/-- Largest possible output of unit `o` given the formats of the inputs and the quantized weights. -/
def unitBound (L : DenseF) (o : ℕ) : ℚ :=
  (∑ j ∈ Finset.range L.nIn, 2 ^ (L.iq j).i * |(L.kq o j).exact (L.kernel o j)|) + |(L.bq o).exact (L.bias o)|

/-- The accumulator of every unit fits into 24 bits: `F o` is its number of fractional bits.  (Weights that are quantized to zero do not
count.)  Weights and biases are float32 numbers their quantizers are exact on. -/
structure AccOk (L : DenseF) (F : ℕ → ℤ) : Prop where
  nonempty : 0 < L.nIn
  data : ∀ j < L.nIn, (L.iq j).roundOnly = false
  weight : ∀ o < L.nOut, ∀ j < L.nIn, RawOk (L.kq o j) (L.kernel o j)
  bias : ∀ o < L.nOut, RawOk (L.bq o) (L.bias o)
  frac : ∀ o < L.nOut, ∀ j < L.nIn, (L.kq o j).exact (L.kernel o j) ≠ 0 → (L.iq j).f + (L.kq o j).f ≤ F o
  fracBias : ∀ o < L.nOut, (L.bq o).exact (L.bias o) ≠ 0 → (L.bq o).f ≤ F o
  range : ∀ o < L.nOut, -103 ≤ F o ∧ F o ≤ 149
  size : ∀ o < L.nOut, unitBound L o ≤ 2 ^ (24 - F o)

/-- Consecutive layers fit: sizes agree, accumulators fit, and every input quantizer is exact on what the previous layer can produce. -/
def ChainOk : List (DenseF × (ℕ → ℤ)) → Prop
  | [] => True
  | [(L, F)] => AccOk L F
  | (L, F) :: (L', F') :: Ls =>
    AccOk L F ∧ L'.nIn = L.nOut ∧ (∀ o < L.nOut, GridOk (L'.iq o) (F o) (unitBound L o)) ∧ ChainOk ((L', F') :: Ls)
end Spec
open Spec

/-! ## float32 rounding -/

theorem zpow2_pos (n : ℤ) : (0 : ℚ) < 2 ^ n := by positivity

theorem roundF32_of_int (x : ℚ) (n : ℤ) (h : x * 2 ^ (-ulpExp x) = n) : roundF32 x = x := by
  unfold roundF32
  rw [h, roundHalfEven_int, ← h, mul_assoc, ← zpow_add₀ (by norm_num)]
  simp

theorem onGrid_int {g e : ℤ} (h : e ≤ -g) {x : ℚ} (hx : OnGrid g x) : ∃ n : ℤ, x * 2 ^ (-e) = n := by
  obtain ⟨m, rfl⟩ := hx
  obtain ⟨k, hk⟩ := Int.eq_ofNat_of_zero_le (show 0 ≤ -g + -e by omega)
  refine ⟨m * 2 ^ k, ?_⟩
  rw [mul_assoc, ← zpow_add₀ (by norm_num), hk]
  push_cast
  simp

theorem log_lt {x : ℚ} {n : ℤ} (h : |x| < 2 ^ n) (hx : x ≠ 0) : Int.log 2 |x| < n := by
  have := (Int.lt_zpow_iff_log_lt (b := 2) (by norm_num) (abs_pos.2 hx) (x := n)).1 (by exact_mod_cast h)
  exact this

theorem le_log {x : ℚ} {n : ℤ} (h : 2 ^ n ≤ |x|) (hx : x ≠ 0) : n ≤ Int.log 2 |x| :=
  (Int.zpow_le_iff_le_log (b := 2) (by norm_num) (abs_pos.2 hx)).1 (by exact_mod_cast h)

/-- A multiple of `2^-g` of size at most `2^(24-g)` is not changed by rounding. -/
theorem roundF32_grid {g : ℤ} {x : ℚ} (hx : OnGrid g x) (hb : |x| ≤ 2 ^ (24 - g)) (hg : g ≤ 149) : roundF32 x = x := by
  by_cases h0 : x = 0
  · subst h0
    exact roundF32_of_int 0 0 (by simp)
  rcases hb.lt_or_eq with hb | hb
  · have hl := log_lt hb h0
    obtain ⟨n, hn⟩ := onGrid_int (e := ulpExp x) (by unfold ulpExp; omega) hx
    exact roundF32_of_int x n hn
  · have hl := le_log (n := 24 - g) hb.ge h0
    have hl' := log_lt (n := 25 - g) (by
      rw [hb]; exact zpow_lt_zpow_right₀ (by norm_num) (by omega)) h0
    have : ulpExp x = 1 - g := by unfold ulpExp; omega
    have habs : x = 2 ^ (24 - g) ∨ x = -(2 ^ (24 - g)) := by
      rcases abs_choice x with h | h
      · left; rw [← h, hb]
      · right; rw [← hb, h]; simp
    rcases habs with h | h
    · refine roundF32_of_int x (2 ^ 23) ?_
      rw [this, h, ← zpow_add₀ (by norm_num)]
      ring_nf; norm_num
    · refine roundF32_of_int x (-2 ^ 23) ?_
      rw [this, h, neg_mul, ← zpow_add₀ (by norm_num)]
      ring_nf; norm_num

/-- One float32 operation whose exact result is a multiple of `2^-g` of size at most `2^(24-g)` is exact. -/
theorem fl_grid {g : ℤ} {x : ℚ} (hx : OnGrid g x) (hb : |x| ≤ 2 ^ (24 - g)) (hg : -103 ≤ g ∧ g ≤ 149) : fl x = some x := by
  have h := roundF32_grid hx hb hg.2
  unfold fl
  rw [h, if_pos]
  exact hb.trans_lt (zpow_lt_zpow_right₀ (by norm_num) (by omega))

theorem isF32_onGrid {x : ℚ} (h : IsF32 x) : OnGrid (-ulpExp x) x := by
  obtain ⟨⟨m, e, hm, he, hx⟩, -⟩ := h
  by_cases h0 : x = 0
  · exact ⟨0, by simp [h0]⟩
  have hlog : Int.log 2 |x| < 24 + e := by
    refine log_lt ?_ h0
    rw [hx, abs_mul, abs_of_pos (zpow2_pos e), zpow_add₀ (by norm_num)]
    refine mul_lt_mul_of_pos_right ?_ (zpow2_pos e)
    exact_mod_cast hm
  have : ulpExp x ≤ e := by unfold ulpExp; omega
  obtain ⟨n, hn⟩ := onGrid_int (g := -e) (e := ulpExp x) (by omega) (x := x) ⟨m, by rw [hx]; simp⟩
  refine ⟨n, ?_⟩
  rw [← hn, mul_assoc, ← zpow_add₀ (by norm_num)]
  simp

theorem fl_isF32 {x : ℚ} (h : IsF32 x) : fl x = some x := by
  obtain ⟨n, hn⟩ := onGrid_int le_rfl (isF32_onGrid h)
  have : roundF32 x = x := roundF32_of_int x n (by simpa using hn)
  unfold fl
  rw [this, if_pos h.2]

theorem roundHalfEven_bounds (y : ℚ) (n : ℤ) : (n : ℚ) ≤ y → n ≤ roundHalfEven y := by
  intro h
  have h1 : n ≤ ⌊y⌋ := Int.le_floor.2 h
  unfold roundHalfEven
  simp only
  split_ifs <;> omega

theorem roundHalfEven_lt (y : ℚ) (n : ℤ) (h : y < n - 1 / 2) : roundHalfEven y < n := by
  have h1 : ((⌊y⌋ : ℤ) : ℚ) ≤ y := Int.floor_le y
  have h2 : (⌊y⌋ : ℚ) < n := by linarith
  have h3 : ⌊y⌋ < n := by exact_mod_cast h2
  by_cases hd : y - ⌊y⌋ < 1 / 2
  · simp only [roundHalfEven, hd, if_true]; exact h3
  · have : (⌊y⌋ : ℚ) + 1 < n + 0 := by push Not at hd; linarith
    have h4 : ⌊y⌋ + 1 < n := by exact_mod_cast (by linarith : (⌊y⌋ : ℚ) + 1 < n)
    unfold roundHalfEven
    simp only
    split_ifs <;> omega

theorem roundHalfEven_err (y : ℚ) : |(roundHalfEven y : ℚ) - y| ≤ 1 / 2 := by
  have h1 : ((⌊y⌋ : ℤ) : ℚ) ≤ y := Int.floor_le y
  have h2 : y < ⌊y⌋ + 1 := Int.lt_floor_add_one y
  unfold roundHalfEven
  simp only
  split_ifs with a b c <;> rw [abs_le] <;> push_cast <;> constructor <;> linarith

/-- `roundF32` is what IEEE asks for: a float32 (up to overflow), and no other float32 is closer. -/
theorem C89_rounding_is_ieee (x : ℚ) :
    (∃ m e : ℤ, |m| ≤ 2 ^ 24 ∧ -149 ≤ e ∧ roundF32 x = m * 2 ^ e) ∧ ∀ z, IsF32 z → |roundF32 x - x| ≤ |z - x| := by
  have hp := zpow2_pos (ulpExp x)
  have hpn := zpow2_pos (-ulpExp x)
  have hmul : x = (x * 2 ^ (-ulpExp x)) * 2 ^ ulpExp x := by
    rw [mul_assoc, ← zpow_add₀ (by norm_num)]; simp
  have herr : ∀ n : ℤ, |(n : ℚ) * 2 ^ ulpExp x - x| = |(n : ℚ) - x * 2 ^ (-ulpExp x)| * 2 ^ ulpExp x := by
    intro n
    rw [← abs_of_pos hp, ← abs_mul, sub_mul, abs_of_pos hp, ← hmul]
  have hbest : ∀ n : ℤ, |roundF32 x - x| ≤ |(n : ℚ) * 2 ^ ulpExp x - x| := by
    intro n
    unfold roundF32
    rw [herr, herr]
    refine mul_le_mul_of_nonneg_right ?_ hp.le
    have h1 := roundHalfEven_err (x * 2 ^ (-ulpExp x))
    by_cases h : n = roundHalfEven (x * 2 ^ (-ulpExp x))
    · rw [h]
    · have h2 : (1 : ℚ) ≤ |(n : ℚ) - roundHalfEven (x * 2 ^ (-ulpExp x))| := by
        have : (1 : ℤ) ≤ |n - roundHalfEven (x * 2 ^ (-ulpExp x))| := Int.one_le_abs (sub_ne_zero.2 h)
        exact_mod_cast this
      have h3 := abs_sub_le (n : ℚ) (x * 2 ^ (-ulpExp x)) (roundHalfEven (x * 2 ^ (-ulpExp x)))
      rw [abs_sub_comm (x * 2 ^ (-ulpExp x))] at h3
      linarith
  constructor
  · refine ⟨_, ulpExp x, ?_, by unfold ulpExp; omega, rfl⟩
    by_cases h0 : x = 0
    · subst h0; simp [roundHalfEven]
    have h1 : |x| < 2 ^ (24 + ulpExp x) := by
      have := Int.lt_zpow_succ_log_self (b := 2) (by norm_num) |x|
      push_cast at this
      exact this.trans_le (zpow_le_zpow_right₀ (by norm_num) (by unfold ulpExp; omega))
    have h2 : |x * 2 ^ (-ulpExp x)| < 2 ^ 24 := by
      rw [abs_mul, abs_of_pos hpn]
      have := mul_lt_mul_of_pos_right h1 hpn
      rwa [← zpow_add₀ (by norm_num), show (24 : ℤ) + ulpExp x + -ulpExp x = 24 by ring] at this
    have h3 := roundHalfEven_err (x * 2 ^ (-ulpExp x))
    have h4 : |(roundHalfEven (x * 2 ^ (-ulpExp x)) : ℚ)| < 2 ^ 24 + 1 := by
      have := abs_sub_abs_le_abs_sub (roundHalfEven (x * 2 ^ (-ulpExp x)) : ℚ) (x * 2 ^ (-ulpExp x))
      linarith
    have h5 : |roundHalfEven (x * 2 ^ (-ulpExp x))| < 2 ^ 24 + 1 := by exact_mod_cast h4
    omega
  · intro z hz
    obtain ⟨⟨m, e, hm, he, rfl⟩, -⟩ := hz
    by_cases hee : ulpExp x ≤ e
    · obtain ⟨k, hk⟩ := Int.eq_ofNat_of_zero_le (show 0 ≤ e - ulpExp x by omega)
      have : (m : ℚ) * 2 ^ e = ((m * 2 ^ k : ℤ) : ℚ) * 2 ^ ulpExp x := by
        rw [show e = (k : ℤ) + ulpExp x by omega, zpow_add₀ (by norm_num)]
        push_cast
        rw [zpow_natCast]; ring
      rw [this]; exact hbest _
    · push Not at hee
      have hU : ulpExp x = Int.log 2 |x| - 23 := by unfold ulpExp at *; omega
      by_cases h0 : x = 0
      · have := hbest 0
        rw [h0] at this ⊢
        simp only [Int.cast_zero, zero_mul, sub_zero, abs_zero] at this ⊢
        exact this.trans (abs_nonneg _)
      have hz : |(m : ℚ) * 2 ^ e| ≤ 2 ^ (23 + ulpExp x) := by
        rw [abs_mul, abs_of_pos (zpow2_pos e)]
        have h1 : |(m : ℚ)| ≤ 2 ^ (24 : ℤ) := by
          have : |(m : ℚ)| < 2 ^ 24 := by exact_mod_cast hm
          exact_mod_cast this.le
        refine (mul_le_mul_of_nonneg_right h1 (zpow2_pos e).le).trans ?_
        rw [← zpow_add₀ (by norm_num)]
        exact zpow_le_zpow_right₀ (by norm_num) (by omega)
      have hx : (2 : ℚ) ^ (23 + ulpExp x) ≤ |x| := by
        have := Int.zpow_log_le_self (b := 2) (by norm_num) (abs_pos.2 h0)
        push_cast at this
        rwa [show 23 + ulpExp x = Int.log 2 |x| by omega]
      have hsplit : (2 : ℚ) ^ (23 + ulpExp x) = 8388608 * 2 ^ ulpExp x := by
        rw [zpow_add₀ (by norm_num)]; norm_num
      have h4 := abs_sub_abs_le_abs_sub x ((m : ℚ) * 2 ^ e)
      rw [abs_sub_comm] at h4
      rcases le_total 0 x with hs | hs
      · have h3 := hbest (2 ^ 23)
        push_cast at h3
        rw [← hsplit, abs_of_nonpos (a := 2 ^ (23 + ulpExp x) - x) (by rw [abs_of_nonneg hs] at hx; linarith)] at h3
        rw [abs_of_nonneg hs] at h4 hx
        linarith
      · have h3 := hbest (-2 ^ 23)
        push_cast at h3
        rw [neg_mul, ← hsplit, abs_of_nonneg (a := -2 ^ (23 + ulpExp x) - x) (by rw [abs_of_nonpos hs] at hx; linarith)] at h3
        rw [abs_of_nonpos hs] at h4 hx
        linarith

/-! ## Rounding to an integer -/

theorem isF32_half_gap {y : ℚ} (hy : IsF32 y) {n : ℤ} {e : ℤ} (he : e ≤ -1) (heu : e ≤ ulpExp y) (h : y + 1 / 2 < n + 1) :
    y + 1 / 2 ≤ n + 1 - 2 ^ e := by
  obtain ⟨a, ha⟩ := onGrid_int (e := e) (by simpa using heu) (isF32_onGrid hy)
  obtain ⟨b, hb⟩ := onGrid_int (e := e) (g := 1) (by omega) (x := (n : ℚ) + 1 / 2) ⟨2 * n + 1, by push_cast; norm_num; ring⟩
  have hp := zpow2_pos (-e)
  have h1 : y * 2 ^ (-e) < ((n : ℚ) + 1 / 2) * 2 ^ (-e) := mul_lt_mul_of_pos_right (by linarith) hp
  rw [ha, hb] at h1
  have h2 : a + 1 ≤ b := by exact_mod_cast h1
  have h3 : (a : ℚ) + 1 ≤ b := by exact_mod_cast h2
  have hq := zpow2_pos e
  have hinv : (2 : ℚ) ^ (-e) * 2 ^ e = 1 := by rw [← zpow_add₀ (by norm_num)]; simp
  have h4 := mul_le_mul_of_nonneg_right h3 hq.le
  rw [add_mul, ← ha, ← hb, mul_assoc, mul_assoc, hinv] at h4
  linarith

/-- `floor(y + 0.5)` in float32 is exact for all float32 numbers up to `2^22` but one. -/
theorem floor_half_f32 {y : ℚ} (hy : IsF32 y) (hs : |y| ≤ 2 ^ 22) (ht : y ≠ 1 / 2 - 2 ^ (-25 : ℤ)) :
    roundMantF32 .RND y = some ⌊y + 1 / 2⌋ := by
  set s := y + 1 / 2 with hsdef
  set n := ⌊s⌋ with hn
  have hn1 : (n : ℚ) ≤ s := Int.floor_le s
  have hn2 : s < n + 1 := Int.lt_floor_add_one s
  have hsabs : |s| ≤ 2 ^ 22 + 1 / 2 := (abs_add_le y (1 / 2)).trans (by norm_num at hs ⊢; linarith)
  by_cases hs0 : s = 0
  · have hn0 : n = 0 := by rw [hn, hs0]; simp
    have hf0 : fl s = some 0 := by rw [hs0]; exact fl_grid (g := 0) ⟨0, by simp⟩ (by simp) (by norm_num)
    simp only [roundMantF32, ← hsdef, hf0, hn0, Option.map_some, Int.floor_zero]
  have hlog : Int.log 2 |s| < 23 := log_lt (hsabs.trans_lt (by norm_num)) hs0
  have he : ulpExp s ≤ -1 := by unfold ulpExp; omega
  have hgap : s < n + 1 - 2 ^ ulpExp s / 2 := by
    have hp := zpow2_pos (ulpExp s)
    by_cases hu : ulpExp s ≤ ulpExp y
    · have := isF32_half_gap hy he hu (n := n) hn2
      linarith
    push Not at hu
    have hy4 : |y| < |s| := by
      by_contra hc
      push Not at hc
      have : Int.log 2 |s| ≤ Int.log 2 |y| := Int.log_mono_right (abs_pos.2 hs0) hc
      unfold ulpExp at hu; omega
    have hypos : -1 / 4 < y := by
      by_contra hc
      push Not at hc
      rw [abs_of_nonpos (show y ≤ 0 by linarith)] at hy4
      have : |s| ≤ -y := by rw [abs_le]; constructor <;> linarith
      linarith
    have hspos : 1 / 4 < s := by linarith
    rw [abs_of_pos (show 0 < s by linarith)] at hlog
    have hlow : -2 ≤ Int.log 2 s := by
      have := le_log (x := s) (n := -2) (by rw [abs_of_pos (by linarith)]; norm_num; linarith) hs0
      rwa [abs_of_pos (show 0 < s by linarith)] at this
    have hU : ulpExp s = Int.log 2 s - 23 := by
      unfold ulpExp; rw [abs_of_pos (show 0 < s by linarith)]; omega
    have hhalf : (2 : ℚ) ^ ulpExp s ≤ 2 ^ (-1 : ℤ) := zpow_le_zpow_right₀ (by norm_num) he
    rcases lt_or_ge y (1 / 2) with hlt | hge
    · -- n = 0
      have hn0 : n = 0 := by rw [hn, Int.floor_eq_zero_iff]; exact ⟨by linarith, by linarith⟩
      have hL : Int.log 2 s < 0 := by
        have := log_lt (x := s) (n := 0) (by rw [abs_of_pos (by linarith)]; norm_num; linarith) hs0
        rwa [abs_of_pos (show 0 < s by linarith)] at this
      have h24 : (2 : ℚ) ^ ulpExp s ≤ 2 ^ (-24 : ℤ) := zpow_le_zpow_right₀ (by norm_num) (by omega)
      by_contra hc
      push Not at hc
      rw [hn0] at hc
      have hylow : 1 / 2 - 2 ^ (-25 : ℤ) ≤ y := by
        have e24 : (2 : ℚ) ^ (-24 : ℤ) = 1 / 16777216 := by norm_num
        have e25 : (2 : ℚ) ^ (-25 : ℤ) = 1 / 33554432 := by norm_num
        rw [e24] at h24
        rw [e25]
        push_cast at hc
        linarith
      have hyu : ulpExp y = -25 := by
        have hyp : 0 < y := lt_of_lt_of_le (by norm_num) hylow
        have a1 := le_log (x := y) (n := -2) (by rw [abs_of_pos hyp]; refine le_trans ?_ hylow; norm_num) hyp.ne'
        have a2 := log_lt (x := y) (n := -1) (by rw [abs_of_pos hyp]; norm_num; linarith) hyp.ne'
        unfold ulpExp; omega
      obtain ⟨a, ha⟩ := isF32_onGrid hy
      rw [hyu] at ha
      have e25 : (2 : ℚ) ^ (-(- -25 : ℤ)) = 1 / 33554432 := by norm_num
      rw [e25] at ha
      have e25' : (2 : ℚ) ^ (-25 : ℤ) = 1 / 33554432 := by norm_num
      rw [e25'] at hylow ht
      have h1 : (16777215 : ℚ) ≤ a := by rw [ha] at hylow; linarith
      have h2 : (a : ℚ) < 16777216 := by rw [ha] at hlt; linarith
      have h3 : (16777215 : ℤ) ≤ a := by exact_mod_cast h1
      have h4 : a < 16777216 := by exact_mod_cast h2
      obtain rfl : a = 16777215 := by omega
      exact ht (by rw [ha]; norm_num)
    · -- the step grows only where s has just passed a power of two
      have hyp : 0 < y := by linarith
      have hlogy : Int.log 2 y < Int.log 2 s := by
        unfold ulpExp at hu
        rw [abs_of_pos hyp, abs_of_pos (show 0 < s by linarith)] at hu
        omega
      have hpow : (2 : ℚ) ^ Int.log 2 s ≤ s := by
        have := Int.zpow_log_le_self (b := 2) (by norm_num) (show 0 < s by linarith)
        exact_mod_cast this
      have hpowy : y < 2 ^ Int.log 2 s := by
        have := (Int.lt_zpow_iff_log_lt (b := 2) (by norm_num) hyp (x := Int.log 2 s)).2 hlogy
        exact_mod_cast this
      have hL0 : 0 ≤ Int.log 2 s := by
        by_contra hc
        push Not at hc
        have : (2 : ℚ) ^ Int.log 2 s ≤ 2 ^ (-1 : ℤ) := zpow_le_zpow_right₀ (by norm_num) (by omega)
        norm_num at this
        linarith
      obtain ⟨k, hk⟩ := Int.eq_ofNat_of_zero_le hL0
      have hnk : n = 2 ^ k := by
        rw [hn, Int.floor_eq_iff]
        push_cast
        rw [hk, zpow_natCast] at hpow hpowy
        constructor <;> linarith
      have hnq : (n : ℚ) = 2 ^ Int.log 2 s := by rw [hnk, hk, zpow_natCast]; push_cast; rfl
      rw [hnq]
      have : (2 : ℚ) ^ (-1 : ℤ) = 1 / 2 := by norm_num
      rw [this] at hhalf
      rw [← hnq] at hpowy ⊢
      linarith
  -- rounding stays between n and n + 1
  have hp := zpow2_pos (ulpExp s)
  have hpn := zpow2_pos (-ulpExp s)
  have hinv : (2 : ℚ) ^ (-ulpExp s) * 2 ^ ulpExp s = 1 := by rw [← zpow_add₀ (by norm_num)]; simp
  obtain ⟨A, hA⟩ := onGrid_int (e := ulpExp s) (g := 0) (by omega) (x := (n : ℚ)) ⟨n, by simp⟩
  obtain ⟨B, hB⟩ := onGrid_int (e := ulpExp s) (g := 0) (by omega) (x := (n : ℚ) + 1) ⟨n + 1, by push_cast; simp⟩
  have hlo : (n : ℚ) ≤ roundF32 s := by
    have h1 : A ≤ roundHalfEven (s * 2 ^ (-ulpExp s)) := by
      refine roundHalfEven_bounds _ _ ?_
      rw [← hA]; exact mul_le_mul_of_nonneg_right hn1 hpn.le
    have h2 : (A : ℚ) ≤ roundHalfEven (s * 2 ^ (-ulpExp s)) := by exact_mod_cast h1
    have h3 := mul_le_mul_of_nonneg_right h2 hp.le
    rw [← hA, mul_assoc, hinv, mul_one] at h3
    exact h3
  have hhi : roundF32 s < (n : ℚ) + 1 := by
    have h1 : roundHalfEven (s * 2 ^ (-ulpExp s)) < B := by
      refine roundHalfEven_lt _ _ ?_
      have := mul_lt_mul_of_pos_right hgap hpn
      rw [sub_mul, hB] at this
      have h2 : (2 : ℚ) ^ ulpExp s / 2 * 2 ^ (-ulpExp s) = 1 / 2 := by rw [div_mul_eq_mul_div, mul_comm, hinv]
      linarith
    have h2 : (roundHalfEven (s * 2 ^ (-ulpExp s)) : ℚ) < B := by exact_mod_cast h1
    have h3 := mul_lt_mul_of_pos_right h2 hp
    rw [← hB, mul_assoc, hinv, mul_one] at h3
    exact h3
  have hfl : fl s = some (roundF32 s) := by
    unfold fl
    rw [if_pos]
    have : |(n : ℚ)| ≤ 2 ^ 22 + 2 := by rw [abs_le] at hsabs ⊢; constructor <;> linarith
    have h2 : |roundF32 s| ≤ 2 ^ 22 + 3 := by rw [abs_le] at this ⊢; constructor <;> linarith
    exact h2.trans_lt (by norm_num)
  simp only [roundMantF32, ← hsdef, hfl, Option.map_some]
  congr 1
  exact Int.floor_eq_iff.2 ⟨hlo, hhi⟩

/-! ## Quantizers -/

theorem onGrid_add {g : ℤ} {a b : ℚ} (ha : OnGrid g a) (hb : OnGrid g b) : OnGrid g (a + b) := by
  obtain ⟨m, rfl⟩ := ha; obtain ⟨n, rfl⟩ := hb
  exact ⟨m + n, by push_cast; ring⟩

theorem onGrid_neg {g : ℤ} {a : ℚ} (ha : OnGrid g a) : OnGrid g (-a) := by
  obtain ⟨m, rfl⟩ := ha
  exact ⟨-m, by push_cast; ring⟩

theorem onGrid_mono {g h : ℤ} (hgh : g ≤ h) {a : ℚ} (ha : OnGrid g a) : OnGrid h a := by
  obtain ⟨n, hn⟩ := onGrid_int (e := -h) (by omega) ha
  refine ⟨n, ?_⟩
  rw [← hn, mul_assoc, ← zpow_add₀ (by norm_num)]; simp

theorem onGrid_pow {g e : ℤ} (h : -g ≤ e) : OnGrid g (2 ^ e) := by
  have : OnGrid (-e) ((2 : ℚ) ^ e) := ⟨1, by simp⟩
  exact onGrid_mono (by omega) this

theorem onGrid_mul_int {g : ℤ} {a : ℚ} (n : ℤ) (ha : OnGrid g a) : OnGrid g (n * a) := by
  obtain ⟨m, rfl⟩ := ha
  exact ⟨n * m, by push_cast; ring⟩

theorem onGrid_mul {g h : ℤ} {a b : ℚ} (ha : OnGrid g a) (hb : OnGrid h b) : OnGrid (g + h) (a * b) := by
  obtain ⟨m, rfl⟩ := ha; obtain ⟨n, rfl⟩ := hb
  refine ⟨m * n, ?_⟩
  rw [show -(g + h) = -g + -h by ring, zpow_add₀ (by norm_num)]
  push_cast; ring

theorem roundMant_abs (rm : RoundMode) (y : ℚ) (h : |y| ≤ 2 ^ 23 - 1 / 2) : |roundMant rm y| ≤ 2 ^ 23 := by
  have key : |(roundMant rm y : ℚ) - y| < 1 := by
    cases rm with
    | RND =>
      have h1 := Int.floor_le (y + 1 / 2)
      have h2 := Int.lt_floor_add_one (y + 1 / 2)
      simp only [roundMant]; rw [abs_lt]; constructor <;> linarith
    | TRN =>
      have h1 := Int.floor_le y
      have h2 := Int.lt_floor_add_one y
      simp only [roundMant]; rw [abs_lt]; constructor <;> linarith
    | RND_CONV => exact (roundHalfEven_err y).trans_lt (by norm_num)
  have h3 : |(roundMant rm y : ℚ)| < 2 ^ 23 + 1 := by
    have := abs_sub_abs_le_abs_sub (roundMant rm y : ℚ) y
    norm_num at h ⊢
    linarith
  have h4 : |roundMant rm y| < 2 ^ 23 + 1 := by exact_mod_cast h3
  omega

/-- Rounding part: exact once the scaled value and its rounding are. -/
theorem roundAtF32_core {rm : RoundMode} {f : ℤ} {x : ℚ} (h1 : fl (x * 2 ^ f) = some (x * 2 ^ f))
    (h2 : roundMantF32 rm (x * 2 ^ f) = some (roundMant rm (x * 2 ^ f))) (h3 : |x * 2 ^ f| ≤ 2 ^ 23 - 1 / 2)
    (hf : -103 ≤ f ∧ f ≤ 149) :
    roundAtF32 rm f x = some (roundAt rm f x) ∧ OnGrid f (roundAt rm f x) ∧ |roundAt rm f x| ≤ 2 ^ (23 - f) := by
  have hn := roundMant_abs rm _ h3
  have hnq : |(roundMant rm (x * 2 ^ f) : ℚ)| ≤ 2 ^ (23 : ℤ) := by exact_mod_cast hn
  have hg : OnGrid f (roundAt rm f x) := ⟨_, rfl⟩
  have hb : |roundAt rm f x| ≤ 2 ^ (23 - f) := by
    unfold roundAt
    rw [abs_mul, abs_of_pos (zpow2_pos _), sub_eq_add_neg, zpow_add₀ (by norm_num)]
    exact mul_le_mul_of_nonneg_right hnq (zpow2_pos _).le
  have hfn : fl (roundMant rm (x * 2 ^ f) : ℚ) = some (roundMant rm (x * 2 ^ f) : ℚ) :=
    fl_grid (g := 0) ⟨_, by simp; rfl⟩ (hnq.trans (zpow_le_zpow_right₀ (by norm_num) (by norm_num))) (by norm_num)
  have hfv : fl (roundAt rm f x) = some (roundAt rm f x) :=
    fl_grid hg (hb.trans (zpow_le_zpow_right₀ (by norm_num) (by omega))) hf
  refine ⟨?_, hg, hb⟩
  unfold roundAtF32
  rw [h1]
  simp only [Option.bind_eq_bind, Option.bind_some, h2, hfn]
  exact hfv

/-- Overflow part: exact for formats of at most 23 bits besides the sign. -/
theorem overflowF32_exact {rm : RoundMode} {om : OverflowMode} {k : Bool} {i f : ℤ} {x : ℚ} (hw : 0 < kz k + i + f) (hi : i + f ≤ 23)
    (hf : -103 ≤ f ∧ f ≤ 149) (hg : OnGrid f (roundAt rm f x)) (hb : |roundAt rm f x| ≤ 2 ^ (23 - f)) :
    overflowF32 om k i f (roundAt rm f x) = some (stateless rm om false k i f x) := by
  have hk : 0 ≤ i + f := by cases k <;> simp [kz] at hw <;> omega
  have h2i : (2 : ℚ) ^ i ≤ 2 ^ (23 - f) := zpow_le_zpow_right₀ (by norm_num) (by omega)
  have hsplit : (2 : ℚ) ^ (24 - f) = 2 ^ (23 - f) + 2 ^ (23 - f) := by
    rw [show 24 - f = 1 + (23 - f) by ring, zpow_add₀ (by norm_num)]; norm_num; ring
  have hgi : OnGrid f ((2 : ℚ) ^ i) := onGrid_pow (by omega)
  have hkq : kq k * (2 : ℚ) ^ i = ((kz k : ℤ) : ℚ) * 2 ^ i := by cases k <;> simp [kq, kz]
  have hgk : OnGrid f (kq k * (2 : ℚ) ^ i) := by rw [hkq]; exact onGrid_mul_int _ hgi
  have hk0 : 0 ≤ kq k * (2 : ℚ) ^ i := by cases k <;> simp [kq, (zpow2_pos i).le]
  have hk1 : kq k * (2 : ℚ) ^ i ≤ 2 ^ i := by cases k <;> simp [kq, (zpow2_pos i).le]
  have hpf := zpow2_pos (-f)
  have hpi := zpow2_pos i
  have hle : (2 : ℚ) ^ (-f) ≤ 2 ^ i := zpow_le_zpow_right₀ (by norm_num) (by omega)
  have hgm : OnGrid f ((2 : ℚ) ^ i - 2 ^ (-f)) := by
    rw [sub_eq_add_neg]; exact onGrid_add hgi (onGrid_neg (onGrid_pow le_rfl))
  have hmax : fl ((2 : ℚ) ^ i - 2 ^ (-f)) = some (2 ^ i - 2 ^ (-f)) :=
    fl_grid hgm (by rw [abs_of_nonneg (by linarith)]; linarith) hf
  have hkk : kq k = ((kz k : ℤ) : ℚ) := by cases k <;> simp [kq, kz]
  cases om with
  | WRAP =>
    set s := roundAt rm f x + kq k * 2 ^ i with hs
    have hgs : OnGrid f s := onGrid_add hg hgk
    have hfs : fl s = some s := fl_grid hgs (by
      refine (abs_add_le _ _).trans ?_
      rw [abs_of_nonneg hk0]; linarith) hf
    have hpM := zpow2_pos (kz k + i)
    have hM : OnGrid f ((2 : ℚ) ^ (kz k + i)) := onGrid_pow (by omega)
    have hMle : (2 : ℚ) ^ (kz k + i) ≤ 2 ^ (24 - f) := zpow_le_zpow_right₀ (by norm_num) (by cases k <;> simp [kz] <;> omega)
    have hr0 : 0 ≤ s - 2 ^ (kz k + i) * ⌊s / 2 ^ (kz k + i)⌋ := by
      have := Int.floor_le (s / 2 ^ (kz k + i))
      rw [le_div_iff₀ hpM] at this
      linarith
    have hr1 : s - 2 ^ (kz k + i) * ⌊s / 2 ^ (kz k + i)⌋ < 2 ^ (kz k + i) := by
      have := Int.lt_floor_add_one (s / 2 ^ (kz k + i))
      rw [div_lt_iff₀ hpM] at this
      linarith
    have hgr : OnGrid f ((s - 2 ^ (kz k + i) * ⌊s / 2 ^ (kz k + i)⌋) - kq k * 2 ^ i) := by
      rw [sub_eq_add_neg, sub_eq_add_neg, mul_comm]
      exact onGrid_add (onGrid_add hgs (onGrid_neg (onGrid_mul_int _ hM))) (onGrid_neg hgk)
    have hfr := fl_grid hgr (by rw [abs_le]; constructor <;> linarith) hf
    simp only [overflowF32, stateless, wrap, ← hs, hfs, Option.bind_eq_bind, Option.bind_some, Bool.false_eq_true, if_false]
    exact hfr
  | SAT =>
    have hlo : fl (-(kq k) * 2 ^ i) = some (-(kq k) * 2 ^ i) := by
      rw [neg_mul]
      exact fl_grid (onGrid_neg hgk) (by rw [abs_neg, abs_of_nonneg hk0]; linarith) hf
    simp only [overflowF32, hmax, hlo, Option.bind_eq_bind, Option.bind_some]
    rfl
  | SAT_SYM =>
    have hlo : fl (-(kq k) * (2 ^ i - 2 ^ (-f))) = some (-(kq k) * (2 ^ i - 2 ^ (-f))) := by
      rw [neg_mul]
      refine fl_grid (onGrid_neg (by rw [hkk]; exact onGrid_mul_int _ hgm)) ?_ hf
      have hnn : 0 ≤ kq k * ((2 : ℚ) ^ i - 2 ^ (-f)) := mul_nonneg (by cases k <;> simp [kq]) (by linarith)
      rw [abs_neg, abs_of_nonneg hnn]
      cases k
      · simp [kq, (zpow2_pos _).le]
      · simp only [kq, if_true, one_mul]; linarith
    simp only [overflowF32, hmax, hlo, Option.bind_eq_bind, Option.bind_some]
    rfl

theorem f32_core {q : QSpec} {x : ℚ} (h1 : fl (x * 2 ^ q.f) = some (x * 2 ^ q.f))
    (h2 : roundMantF32 q.rm (x * 2 ^ q.f) = some (roundMant q.rm (x * 2 ^ q.f))) (h3 : |x * 2 ^ q.f| ≤ 2 ^ 23 - 1 / 2)
    (hf : -103 ≤ q.f ∧ q.f ≤ 149) (hi : q.i + q.f ≤ 23) : q.f32 x = some (q.exact x) := by
  obtain ⟨hr, hg, hb⟩ := roundAtF32_core h1 h2 h3 hf
  unfold QSpec.f32 QSpec.exact
  by_cases hro : q.roundOnly = true
  · simp only [hro, if_true, hr]
  · simp only [hro, if_false, Bool.false_eq_true, quantizeF32, quantize, baseCall]
    by_cases hw : kz q.k + q.i + q.f > 0
    · simp only [hw, if_true, hr, Option.bind_eq_bind, Option.bind_some]
      exact overflowF32_exact hw hi hf hg hb
    · simp only [hw, if_false]

/-- **C89**, inputs and weights: on every float32 number that does not underflow and is not the single exception of `RND`, quantizing in
float32 gives exactly the value of the quantizer. -/
theorem C89_quantizer_raw_partial (q : QSpec) (x : ℚ) (h : RawOk q x) : q.f32 x = some (q.exact x) := by
  have hs := h.small
  refine f32_core (fl_isF32 h.scaled) ?_ (hs.trans (by norm_num)) h.range h.bits
  cases hrm : q.rm with
  | RND => exact floor_half_f32 h.scaled hs (h.tie hrm)
  | TRN => rfl
  | RND_CONV => rfl

/-- **C89**, between layers: on every multiple of `2^-g` within `[-B, B]`. -/
theorem C89_quantizer_grid_partial (q : QSpec) (g : ℤ) (B x : ℚ) (h : GridOk q g B) (hx : OnGrid g x) (hB : |x| ≤ B) :
    q.f32 x = some (q.exact x) := by
  have hp := zpow2_pos q.f
  have hgy : OnGrid (g - q.f) (x * 2 ^ q.f) := by
    have := onGrid_mul hx (show OnGrid (-q.f) ((2 : ℚ) ^ q.f) from ⟨1, by simp⟩)
    rwa [← sub_eq_add_neg] at this
  set y := x * 2 ^ q.f with hy
  set G := max (g - q.f) 1 with hG
  have hpG := zpow2_pos G
  have hyB : |y| ≤ B * 2 ^ q.f := by
    rw [hy, abs_mul, abs_of_pos hp]; exact mul_le_mul_of_nonneg_right hB hp.le
  have hsz : |y| + 1 / 2 ≤ 2 ^ (24 - G) := by
    have h1 := h.size
    rw [← hG] at h1
    have h2 : (2 : ℚ) ^ (24 - G) * 2 ^ G = 2 ^ 24 := by rw [← zpow_add₀ (by norm_num)]; simp
    rw [← h2] at h1
    have := le_of_mul_le_mul_right h1 hpG
    linarith
  have hG1 : (1 : ℤ) ≤ G := le_max_right _ _
  have hGg : g - q.f ≤ G := le_max_left _ _
  have h23 : (2 : ℚ) ^ (24 - G) ≤ 2 ^ (23 : ℤ) := zpow_le_zpow_right₀ (by norm_num) (by omega)
  have h23' : (2 : ℚ) ^ (23 : ℤ) = 2 ^ 23 := by norm_cast
  refine f32_core ?_ ?_ (by rw [← hy]; rw [h23'] at h23; linarith) h.range h.bits
  · refine fl_grid hgy ?_ h.scaled
    have : (2 : ℚ) ^ (24 - G) ≤ 2 ^ (24 - (g - q.f)) := zpow_le_zpow_right₀ (by norm_num) (by omega)
    rw [← hy]; linarith
  · rw [← hy]
    cases q.rm with
    | TRN => rfl
    | RND_CONV => rfl
    | RND =>
      have hgs : OnGrid G (y + 1 / 2) := by
        refine onGrid_add (onGrid_mono hGg hgy) ?_
        have := onGrid_pow (g := G) (e := -1) (by omega)
        norm_num at this ⊢; exact this
      have hfs : fl (y + 1 / 2) = some (y + 1 / 2) := by
        refine fl_grid hgs ((abs_add_le _ _).trans ?_) ⟨by omega, by have := h.scaled; omega⟩
        norm_num at hsz ⊢; exact hsz
      simp only [roundMantF32, hfs, Option.map_some, roundMant]

/-! ## Sums of products -/

/-- The exact value of a sum of products. -/
def sumProd (l : List (ℚ × ℚ)) : ℚ := (l.map fun p => p.1 * p.2).sum

/-- Sum of the absolute values. -/
def sumAbs (l : List (ℚ × ℚ)) : ℚ := (l.map fun p => |p.1 * p.2|).sum

theorem sumAbs_nonneg (l : List (ℚ × ℚ)) : 0 ≤ sumAbs l := List.sum_nonneg (by simp only [List.mem_map]; rintro _ ⟨p, _, rfl⟩; exact abs_nonneg _)

theorem sumProd_le (l : List (ℚ × ℚ)) : |sumProd l| ≤ sumAbs l := by
  induction l with
  | nil => simp [sumProd, sumAbs]
  | cons p l ih =>
    simp only [sumProd, sumAbs, List.map_cons, List.sum_cons] at *
    exact (abs_add_le _ _).trans (by linarith)

theorem sumProd_grid {F : ℤ} (l : List (ℚ × ℚ)) (h : ∀ p ∈ l, OnGrid F (p.1 * p.2)) : OnGrid F (sumProd l) := by
  induction l with
  | nil => exact ⟨0, by simp [sumProd]⟩
  | cons p l ih =>
    simp only [sumProd, List.map_cons, List.sum_cons] at *
    exact onGrid_add (h p (by simp)) (ih fun q hq => h q (by simp [hq]))

/-- **C89**, sums of products: if all products are multiples of `2^-F` and their absolute values add up to at most `2^(24-F)`, every way of
adding them in float32 — any order, any association, fused or not — gives the exact sum. -/
theorem C89_sum_partial (F : ℤ) (hF : -103 ≤ F ∧ F ≤ 149) (t : SumTree) (hg : ∀ p ∈ t.terms, OnGrid F (p.1 * p.2))
    (hb : ((t.terms.map fun p => |p.1 * p.2|).sum) ≤ 2 ^ (24 - F)) : t.eval = some ((t.terms.map fun p => p.1 * p.2).sum) := by
  change sumAbs t.terms ≤ _ at hb
  change _ = some (sumProd t.terms)
  induction t with
  | prod x w =>
    simp only [SumTree.eval, SumTree.terms, sumProd, List.map_cons, List.map_nil, List.sum_cons, List.sum_nil, add_zero]
    simp only [SumTree.terms, sumAbs, List.map_cons, List.map_nil, List.sum_cons, List.sum_nil, add_zero] at hb
    exact fl_grid (hg (x, w) (by simp [SumTree.terms])) hb hF
  | add l r ihl ihr =>
    have e1 : sumAbs (SumTree.add l r).terms = sumAbs l.terms + sumAbs r.terms := by simp [sumAbs, SumTree.terms]
    have e2 : sumProd (SumTree.add l r).terms = sumProd l.terms + sumProd r.terms := by simp [sumProd, SumTree.terms]
    have hl := sumAbs_nonneg l.terms
    have hr := sumAbs_nonneg r.terms
    have gl : ∀ p ∈ l.terms, OnGrid F (p.1 * p.2) := fun p hp => hg p (by simp [SumTree.terms, hp])
    have gr : ∀ p ∈ r.terms, OnGrid F (p.1 * p.2) := fun p hp => hg p (by simp [SumTree.terms, hp])
    rw [e1] at hb
    simp only [SumTree.eval, ihl gl (by linarith), ihr gr (by linarith), Option.bind_eq_bind, Option.bind_some]
    rw [e2]
    refine fl_grid (onGrid_add (sumProd_grid _ gl) (sumProd_grid _ gr)) ((abs_add_le _ _).trans ?_) hF
    linarith [sumProd_le l.terms, sumProd_le r.terms]
  | fma x w acc ih =>
    have e1 : sumAbs (SumTree.fma x w acc).terms = |x * w| + sumAbs acc.terms := by simp [sumAbs, SumTree.terms]
    have e2 : sumProd (SumTree.fma x w acc).terms = x * w + sumProd acc.terms := by simp [sumProd, SumTree.terms]
    have gl : ∀ p ∈ acc.terms, OnGrid F (p.1 * p.2) := fun p hp => hg p (by simp [SumTree.terms, hp])
    rw [e1] at hb
    have ha := abs_nonneg (x * w)
    simp only [SumTree.eval, ih gl (by linarith), Option.bind_eq_bind, Option.bind_some]
    rw [e2]
    refine fl_grid (onGrid_add (hg (x, w) (by simp [SumTree.terms])) (sumProd_grid _ gl)) ((abs_add_le _ _).trans ?_) hF
    linarith [sumProd_le acc.terms]

/-! ## Layers and models -/

theorem stateless_bounds (q : QSpec) (x : ℚ) (hr : q.roundOnly = false) : OnGrid q.f (q.exact x) ∧ |q.exact x| ≤ 2 ^ q.i := by
  have hpi := zpow2_pos q.i
  have hpf := zpow2_pos (-q.f)
  by_cases hw : 0 < width q.k q.i q.f
  · obtain ⟨⟨hg, h1, h2⟩, -⟩ := C01_output_representable q.rm q.om q.k q.i q.f x hw
    simp only [QSpec.exact, hr, Bool.false_eq_true, if_false]
    refine ⟨hg, abs_le.2 ⟨?_, ?_⟩⟩
    · refine le_trans ?_ h1
      cases q.om <;> cases q.k <;> simp only [qmin, kq, if_true, if_false, Bool.false_eq_true] <;> linarith
    · refine h2.trans ?_
      simp only [qmax]; linarith
  · have : q.exact x = 0 := by
      simp only [QSpec.exact, hr, Bool.false_eq_true, if_false]
      exact C07_zero_width q.rm q.om q.k q.i q.f x (by omega)
    rw [this]
    exact ⟨⟨0, by simp⟩, by simp [hpi.le]⟩

theorem exact_onGrid (q : QSpec) (x : ℚ) : OnGrid q.f (q.exact x) := by
  cases hr : q.roundOnly
  · exact (stateless_bounds q x hr).1
  · simp only [QSpec.exact, hr, if_true]; exact ⟨_, rfl⟩

/-- The products of a unit, in order. -/
def unitTerms (L : DenseF) (x : ℕ → ℚ) (o : ℕ) : List (ℚ × ℚ) :=
  (List.range L.nIn).map fun j => ((L.iq j).exact (x j), (L.kq o j).exact (L.kernel o j))

theorem list_range_sum (n : ℕ) (g : ℕ → ℚ) : ((List.range n).map g).sum = ∑ j ∈ Finset.range n, g j := by
  induction n with
  | zero => simp
  | succ n ih => rw [List.range_succ, Finset.sum_range_succ]; simp [ih]

theorem unit_facts (L : DenseF) (F : ℕ → ℤ) (h : AccOk L F) (x : ℕ → ℚ) (o : ℕ) (ho : o < L.nOut) :
    (∀ p ∈ unitTerms L x o, OnGrid (F o) (p.1 * p.2)) ∧
    sumAbs (unitTerms L x o) + |(L.bq o).exact (L.bias o)| ≤ unitBound L o ∧
    OnGrid (F o) ((L.bq o).exact (L.bias o)) ∧
    sumProd (unitTerms L x o) = ∑ j ∈ Finset.range L.nIn, (L.iq j).exact (x j) * (L.kq o j).exact (L.kernel o j) := by
  refine ⟨?_, ?_, ?_, ?_⟩
  · intro p hp
    simp only [unitTerms, List.mem_map, List.mem_range] at hp
    obtain ⟨j, hj, rfl⟩ := hp
    by_cases h0 : (L.kq o j).exact (L.kernel o j) = 0
    · exact ⟨0, by simp [h0]⟩
    · exact onGrid_mono (h.frac o ho j hj h0) (onGrid_mul (exact_onGrid _ _) (exact_onGrid _ _))
  · unfold sumAbs unitBound unitTerms
    rw [List.map_map, list_range_sum]
    simp only [add_le_add_iff_right]
    refine Finset.sum_le_sum fun j hj => ?_
    simp only [Function.comp, abs_mul]
    exact mul_le_mul_of_nonneg_right (stateless_bounds (L.iq j) (x j) (h.data j (Finset.mem_range.1 hj))).2 (abs_nonneg _)
  · by_cases h0 : (L.bq o).exact (L.bias o) = 0
    · exact ⟨0, by simp [h0]⟩
    · exact onGrid_mono (h.fracBias o ho h0) (exact_onGrid _ _)
  · unfold sumProd unitTerms
    rw [List.map_map, list_range_sum]
    rfl

theorem f32_mapM_some {α β : Type} (l : List α) (f : α → Option β) (g : α → β) (h : ∀ a ∈ l, f a = some (g a)) :
    l.mapM f = some (l.map g) := by
  induction l with
  | nil => rfl
  | cons a l ih =>
    rw [List.mapM_cons, h a (by simp), ih fun b hb => h b (by simp [hb])]
    rfl

/-- **C89**, layers: if the accumulators fit and the input quantizers are exact on the inputs, the layer computes in float32, with any order
of summation, exactly what it computes in exact arithmetic; the outputs are multiples of `2^-F` within the bound. -/
theorem C89_dense_partial (L : DenseF) (F : ℕ → ℤ) (h : AccOk L F) (S : SumOrder) (hS : ValidOrder S) (x : ℕ → ℚ)
    (hx : ∀ j < L.nIn, (L.iq j).f32 (x j) = some ((L.iq j).exact (x j))) (o : ℕ) (ho : o < L.nOut) :
    L.f32 S (fun j => some (x j)) o = some (L.exact x o) ∧ OnGrid (F o) (L.exact x o) ∧ |L.exact x o| ≤ unitBound L o := by
  obtain ⟨hg, hb, hgb, hsum⟩ := unit_facts L F h x o ho
  have hR := h.range o ho
  have hsz := h.size o ho
  set b := (L.bq o).exact (L.bias o) with hbdef
  have hterms : (List.range L.nIn).mapM (fun j => do
      let xq ← (L.iq j).f32 (← (fun j => some (x j)) j)
      let wq ← (L.kq o j).f32 (L.kernel o j)
      pure (xq, wq)) = some (unitTerms L x o) := by
    refine f32_mapM_some _ _ _ fun j hj => ?_
    have hj' := List.mem_range.1 hj
    simp only [Option.bind_eq_bind, Option.bind_some, hx j hj', C89_quantizer_raw_partial _ _ (h.weight o ho j hj')]
    rfl
  have hne : unitTerms L x o ≠ [] := by
    have := h.nonempty
    intro he
    have := congrArg List.length he
    simp [unitTerms] at this
    omega
  have hperm := hS o (unitTerms L x o) hne
  have hev : (S o (unitTerms L x o)).eval = some (sumProd (unitTerms L x o)) := by
    have hp1 : sumAbs (S o (unitTerms L x o)).terms = sumAbs (unitTerms L x o) := (hperm.map _).sum_eq
    have hp2 : sumProd (S o (unitTerms L x o)).terms = sumProd (unitTerms L x o) := (hperm.map _).sum_eq
    have := C89_sum_partial (F o) hR (S o (unitTerms L x o)) (fun p hp => hg p (hperm.mem_iff.1 hp)) (by
      change sumAbs _ ≤ _
      rw [hp1]
      linarith [abs_nonneg b])
    rw [this]
    exact congrArg some hp2
  have hgr : OnGrid (F o) (sumProd (unitTerms L x o) + b) := onGrid_add (sumProd_grid _ hg) hgb
  have hbr : |sumProd (unitTerms L x o) + b| ≤ unitBound L o :=
    (abs_add_le _ _).trans (by linarith [sumProd_le (unitTerms L x o)])
  have hfl := fl_grid hgr (hbr.trans hsz) hR
  have hex : L.exact x o = L.act (sumProd (unitTerms L x o) + b) := by rw [DenseF.exact, hsum]
  refine ⟨?_, ?_, ?_⟩
  · unfold DenseF.f32
    rw [hterms]
    simp only [Option.bind_eq_bind, Option.bind_some, hev, C89_quantizer_raw_partial _ _ (h.bias o ho), ← hbdef, hfl]
    rw [hex]; rfl
  · rw [hex]
    unfold DenseF.act
    split_ifs
    · rcases max_choice (sumProd (unitTerms L x o) + b) 0 with e | e <;> rw [e]
      · exact hgr
      · exact ⟨0, by simp⟩
    · exact hgr
  · rw [hex]
    unfold DenseF.act
    split_ifs
    · rcases max_choice (sumProd (unitTerms L x o) + b) 0 with e | e <;> rw [e]
      · exact hbr
      · simpa using (abs_nonneg _).trans hbr
    · exact hbr

theorem f32_congr (L : DenseF) (S : SumOrder) (x y : ℕ → Option ℚ) (h : ∀ j < L.nIn, x j = y j) (o : ℕ) : L.f32 S x o = L.f32 S y o := by
  unfold DenseF.f32
  have : (List.range L.nIn).mapM (fun j => do
      let xq ← (L.iq j).f32 (← x j)
      let wq ← (L.kq o j).f32 (L.kernel o j)
      pure (xq, wq)) = (List.range L.nIn).mapM (fun j => do
      let xq ← (L.iq j).f32 (← y j)
      let wq ← (L.kq o j).f32 (L.kernel o j)
      pure (xq, wq)) := by
    have hc : ∀ l : List ℕ, (∀ j ∈ l, x j = y j) → l.mapM (fun j => do
        let xq ← (L.iq j).f32 (← x j)
        let wq ← (L.kq o j).f32 (L.kernel o j)
        pure (xq, wq)) = l.mapM (fun j => do
        let xq ← (L.iq j).f32 (← y j)
        let wq ← (L.kq o j).f32 (L.kernel o j)
        pure (xq, wq)) := by
      intro l
      induction l with
      | nil => intro _; rfl
      | cons a l ih =>
        intro hl
        rw [List.mapM_cons, List.mapM_cons, hl a (by simp), ih fun j hj => hl j (by simp [hj])]
    exact hc _ fun j hj => h j (List.mem_range.1 hj)
  rw [this]

theorem exact_congr (L : DenseF) (x y : ℕ → ℚ) (h : ∀ j < L.nIn, x j = y j) (o : ℕ) : L.exact x o = L.exact y o := by
  unfold DenseF.exact
  congr 2
  exact Finset.sum_congr rfl fun j hj => by rw [h j (Finset.mem_range.1 hj)]

/-- **C89**, models: a model of dense layers whose formats fit, on float32 inputs the first quantizer is exact on, computes in float32
exactly the values of exact arithmetic, whatever the order of the sums in each layer.  The conditions concern the formats and the weights,
not the data. -/
theorem C89_model_partial (Ls : List (DenseF × SumOrder)) (Fs : List (ℕ → ℤ)) (hlen : Fs.length = Ls.length)
    (hS : ∀ p ∈ Ls, ValidOrder p.2) (hc : ChainOk (List.zip (Ls.map Prod.fst) Fs)) (x : ℕ → ℚ) (L0 : DenseF)
    (hL0 : (Ls.map Prod.fst).head? = some L0) (hx : ∀ j < L0.nIn, RawOk (L0.iq j) (x j)) (Ln : DenseF)
    (hLn : (Ls.map Prod.fst).getLast? = some Ln) (o : ℕ) (ho : o < Ln.nOut) :
    runF32 Ls (fun j => some (x j)) o = some (runExact (Ls.map Prod.fst) x o) := by
  -- generalise: the inputs are known only below the width of the layer
  have key : ∀ (Ls : List (DenseF × SumOrder)) (Fs : List (ℕ → ℤ)), Fs.length = Ls.length → (∀ p ∈ Ls, ValidOrder p.2) →
      ChainOk (List.zip (Ls.map Prod.fst) Fs) → ∀ (x : ℕ → ℚ) (z : ℕ → Option ℚ) (L0 : DenseF), (Ls.map Prod.fst).head? = some L0 →
      (∀ j < L0.nIn, z j = some (x j)) → (∀ j < L0.nIn, (L0.iq j).f32 (x j) = some ((L0.iq j).exact (x j))) →
      ∀ Ln, (Ls.map Prod.fst).getLast? = some Ln → ∀ o < Ln.nOut, runF32 Ls z o = some (runExact (Ls.map Prod.fst) x o) := by
    intro Ls
    induction Ls with
    | nil => intro Fs _ _ _ x z L0 h; simp at h
    | cons p Ls ih =>
      obtain ⟨L, S⟩ := p
      intro Fs hlen hS hc x z L0 hL0 hz hq Ln hLn o ho
      obtain _ | ⟨F, Fs⟩ := Fs
      · simp at hlen
      simp only [List.map_cons, List.head?_cons, Option.some.injEq] at hL0
      subst hL0
      have hacc : AccOk L F := by
        cases Ls with
        | nil => cases Fs <;> simpa [ChainOk] using hc
        | cons p' Ls =>
          obtain _ | ⟨F', Fs⟩ := Fs
          · simp at hlen
          exact hc.1
      have hlayer : ∀ o < L.nOut, L.f32 S z o = some (L.exact x o) ∧ OnGrid (F o) (L.exact x o) ∧ |L.exact x o| ≤ unitBound L o := by
        intro o ho
        have := C89_dense_partial L F hacc S (hS (L, S) (by simp)) x hq o ho
        rw [f32_congr L S z (fun j => some (x j)) hz]
        exact this
      cases Ls with
      | nil =>
        simp only [List.map_cons, List.map_nil, List.getLast?_singleton, Option.some.injEq] at hLn
        subst hLn
        exact (hlayer o ho).1
      | cons p' Ls =>
        obtain _ | ⟨F', Fs⟩ := Fs
        · simp at hlen
        obtain ⟨-, hn, hgo, hrest⟩ := hc
        have := ih (F' :: Fs) (by simpa using hlen) (fun q hq' => hS q (by simp [hq'])) hrest (L.exact x) (L.f32 S z) p'.1 (by simp)
          (fun j hj => (hlayer j (hn ▸ hj)).1)
          (fun j hj => C89_quantizer_grid_partial _ _ _ _ (hgo j (hn ▸ hj)) (hlayer j (hn ▸ hj)).2.1 (hlayer j (hn ▸ hj)).2.2)
          Ln (by simpa using hLn) o ho
        exact this
  exact key Ls Fs hlen hS hc x _ L0 hL0 (fun j _ => rfl) (fun j hj => C89_quantizer_raw_partial _ _ (hx j hj)) Ln hLn o ho

/-! ## Where it fails, and a concrete case -/

/-- **C89 violated**, order: beyond 24 bits the result depends on the order in which the backend adds. -/
theorem C89_order_violated :
    let a : SumTree := .add (.add (.prod (2 ^ 24) 1) (.prod 1 1)) (.prod (-2 ^ 24) 1)
    let b : SumTree := .add (.add (.prod (2 ^ 24) 1) (.prod (-2 ^ 24) 1)) (.prod 1 1)
    a.terms.Perm b.terms ∧ a.eval = some 0 ∧ b.eval = some 1 := by
  refine ⟨?_, ?_, ?_⟩
  · decide +kernel
  · decide +kernel
  · decide +kernel

/-- **C89 violated**, rounding: the largest scaled value below one half is rounded up by `RND` in float32 (`floor(y + 0.5)`), for every format
with at least one and at most 23 bits besides the sign. -/
theorem C89_rnd_violated (om : OverflowMode) (k : Bool) (i f : ℤ) (hb : 1 ≤ i + f) (hb' : i + f ≤ 23) (hf : -103 ≤ f ∧ f ≤ 124) :
    let q : QSpec := ⟨.RND, om, k, i, f, false⟩
    let x : ℚ := (1 / 2 - 2 ^ (-25 : ℤ)) * 2 ^ (-f)
    IsF32 x ∧ q.exact x = 0 ∧ q.f32 x = some (2 ^ (-f)) := by
  intro q x
  have hp := zpow2_pos (-f)
  have hw : 0 < width k i f := by unfold width; cases k <;> simp <;> omega
  have hw' : kz k + i + f > 0 := by cases k <;> simp [kz] <;> omega
  have e25 : (2 : ℚ) ^ (-25 : ℤ) = 1 / 33554432 := by norm_num
  have hxy : x * 2 ^ f = 16777215 / 33554432 := by
    simp only [x]
    rw [mul_assoc, ← zpow_add₀ (by norm_num), e25]; norm_num
  have hle : (2 : ℚ) ^ (-f) ≤ 2 ^ (103 : ℤ) := zpow_le_zpow_right₀ (by norm_num) (by omega)
  have hxF : IsF32 x := by
    refine ⟨⟨16777215, -25 - f, by norm_num, by omega, ?_⟩, ?_⟩
    · simp only [x]
      rw [show (-25 - f : ℤ) = -25 + -f by ring, zpow_add₀ (by norm_num), e25]; push_cast; ring
    · have : |x| ≤ 2 ^ (-f) := by
        simp only [x]
        rw [e25, abs_of_nonneg (by positivity)]
        linarith
      exact (this.trans hle).trans_lt (zpow_lt_zpow_right₀ (by norm_num) (by norm_num))
  have hround : roundAt .RND f x = 0 := by
    unfold roundAt roundMant
    rw [hxy]; norm_num
  have hlow : low om k i f ≤ 0 := by
    have h1 : (2 : ℚ) ^ (-f) ≤ 2 ^ i := zpow_le_zpow_right₀ (by norm_num) (by omega)
    rw [← qmin_eq_low]
    cases om <;> cases k <;> simp only [qmin, kq, if_true, if_false, Bool.false_eq_true] <;> linarith [zpow2_pos i]
  have hhigh : (2 : ℚ) ^ (-f) ≤ high i f := by
    have h1 : (2 : ℚ) ^ (1 + -f) ≤ 2 ^ i := zpow_le_zpow_right₀ (by norm_num) (by omega)
    rw [zpow_add₀ (by norm_num)] at h1
    simp only [high]; norm_num at h1 ⊢; linarith
  have hone : roundAt .RND f (2 ^ (-f)) = 2 ^ (-f) := by
    unfold roundAt roundMant
    rw [← zpow_add₀ (by norm_num)]
    norm_num
  refine ⟨hxF, ?_, ?_⟩
  · have := (C03_rounding_in_range .RND om k i f x 0 hw (by
      have := roundAt_isRounded .RND f x
      rwa [hround] at this) hlow (hp.le.trans hhigh)).1
    exact this
  · have hq := (C03_rounding_in_range .RND om k i f (2 ^ (-f)) (2 ^ (-f)) hw (by
      have := roundAt_isRounded .RND f (2 ^ (-f))
      rwa [hone] at this) (hlow.trans hp.le) hhigh).1
    have hst : stateless .RND om false k i f (2 ^ (-f)) = 2 ^ (-f) := by
      simpa only [quantize, baseCall, Bool.false_eq_true, if_false, hw', if_true] using hq
    have hov := overflowF32_exact (rm := .RND) (om := om) (x := 2 ^ (-f)) hw' hb' ⟨hf.1, by omega⟩ (by rw [hone]; exact ⟨1, by simp⟩) (by
      rw [hone, abs_of_pos hp]
      exact zpow_le_zpow_right₀ (by norm_num) (by omega))
    rw [hone, hst] at hov
    have h1 : fl (16777215 / 33554432) = some (16777215 / 33554432) := by decide +kernel
    have h2 : roundMantF32 .RND (16777215 / 33554432) = some 1 := by decide +kernel
    have h3 : fl ((1 : ℤ) : ℚ) = some 1 := by decide +kernel
    have h4 : fl ((2 : ℚ) ^ (-f)) = some (2 ^ (-f)) := fl_grid (g := f) ⟨1, by simp⟩ (by
      rw [abs_of_pos hp]; exact zpow_le_zpow_right₀ (by norm_num) (by omega)) ⟨hf.1, by omega⟩
    have hr : roundAtF32 .RND f x = some (2 ^ (-f)) := by
      unfold roundAtF32
      rw [hxy, h1]
      simp only [Option.bind_eq_bind, Option.bind_some, h2, h3, one_mul, h4]
    simp only [q, QSpec.f32, Bool.false_eq_true, if_false, quantizeF32, hw', if_true, hr, Option.bind_eq_bind, Option.bind_some]
    exact hov

/-- Example cells. -/
def f32Data : QSpec := ⟨.RND, .SAT, true, 2, 3, false⟩
/-- Example weight cell. -/
def f32Weight : QSpec := ⟨.RND, .WRAP, true, 1, 2, true⟩
/-- Example layer: 3 inputs (or 1), weights 3/4, bias -1/4, ReLU. -/
def f32Layer (n m : ℕ) : DenseF := ⟨n, m, fun _ => f32Data, fun _ _ => f32Weight, fun _ => f32Weight, fun _ _ => 3 / 4, fun _ => -1 / 4, true⟩

theorem f32_weight_ok : RawOk f32Weight (3 / 4) ∧ RawOk f32Weight (-1 / 4) := by
  constructor
  · exact ⟨⟨⟨3, -2, by norm_num, by norm_num, by norm_num⟩, by norm_num [abs_of_pos]⟩,
      ⟨⟨3, 0, by norm_num, by norm_num, by norm_num [f32Weight]⟩, by norm_num [f32Weight, abs_of_pos]⟩, by norm_num [f32Weight, abs_of_pos],
      by norm_num [f32Weight], by norm_num [f32Weight], by norm_num [f32Weight]⟩
  · exact ⟨⟨⟨-1, -2, by norm_num, by norm_num, by norm_num⟩, by norm_num [abs_div]⟩,
      ⟨⟨-1, 0, by norm_num, by norm_num, by norm_num [f32Weight]⟩, by norm_num [f32Weight]⟩, by norm_num [f32Weight],
      by norm_num [f32Weight], by norm_num [f32Weight], by norm_num [f32Weight]⟩

theorem f32_exact_weight : f32Weight.exact (3 / 4) = 3 / 4 ∧ f32Weight.exact (-1 / 4) = -1 / 4 := by
  constructor <;> decide +kernel

/-- Concrete case of the model theorem: 3 → 2 → 1 with 6-bit data and 4-bit weights. -/
example : ChainOk [(f32Layer 3 2, fun _ => 5), (f32Layer 2 1, fun _ => 5)] := by
  have hb : ∀ n m o, unitBound (f32Layer n m) o = 3 * n + 1 / 4 := by
    intro n m o
    simp only [unitBound, f32Layer, f32_exact_weight.1, f32_exact_weight.2, Finset.sum_const, Finset.card_range]
    norm_num [f32Data, abs_of_pos, abs_div]; ring
  have hacc : ∀ n m, 0 < n → n ≤ 3 → AccOk (f32Layer n m) (fun _ => 5) := by
    intro n m hn hn3
    refine ⟨hn, fun _ _ => rfl, fun _ _ _ _ => f32_weight_ok.1, fun _ _ => f32_weight_ok.2, ?_, ?_, by norm_num, ?_⟩
    · intro _ _ _ _ _; norm_num [f32Layer, f32Data, f32Weight]
    · intro _ _ _; norm_num [f32Layer, f32Weight]
    · intro o _
      rw [hb]
      have : (n : ℚ) ≤ 3 := by exact_mod_cast hn3
      norm_num; linarith
  refine ⟨hacc 3 2 (by norm_num) le_rfl, rfl, ?_, hacc 2 1 (by norm_num) (by norm_num)⟩
  intro o _
  rw [hb]
  exact ⟨by norm_num [f32Layer, f32Data], by norm_num [f32Layer, f32Data], by norm_num [f32Layer, f32Data], by norm_num [f32Layer, f32Data]⟩

/-- An input the first quantizer is exact on. -/
example : RawOk f32Data (13421773 / 134217728) :=
  ⟨⟨⟨13421773, -27, by norm_num, by norm_num, by norm_num⟩, by norm_num [abs_of_pos]⟩,
    ⟨⟨13421773, -24, by norm_num, by norm_num, by norm_num [f32Data]⟩, by norm_num [f32Data, abs_of_pos]⟩, by norm_num [f32Data, abs_of_pos],
    by norm_num [f32Data], by norm_num [f32Data], by norm_num [f32Data]⟩

end HGQ
