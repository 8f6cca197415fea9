import Verif.Model.FloatQ
import Verif.Lemmas.FixedPoint
import Mathlib.NumberTheory.Real.Irrational
import Mathlib.Data.Set.Card
import Mathlib.Order.Interval.Finset.Nat
import Mathlib.Data.Int.Interval

/-!
# C93: the minifloat quantizer reports its own format

The specification is the documented format: a sign bit, `e` exponent bits holding a signed exponent to which the offset
`e0` is added, `m` mantissa bits, IEEE 754 with subnormal numbers and without infinities and NaNs.
-/
namespace HGQ

namespace Spec

/-- The exponent of code `E` of an `e`-bit exponent field: the codes are the signed numbers from `-2^(e-1)` up, plus the
offset; code 0 is that of the subnormal numbers, which use the exponent of code 1. -/
def miniExp (e : ℕ) (e0 : ℤ) (E : ℕ) : ℤ := -2 ^ (e - 1) + (if E = 0 then 1 else (E : ℤ)) + e0

/-- The number with sign bit `s`, exponent code `E` and mantissa code `M` (IEEE 754: a leading one unless subnormal). -/
noncomputable def miniVal (m e : ℕ) (e0 : ℤ) (s : Bool) (E M : ℕ) : ℝ :=
  (if s then -1 else 1) * ((if E = 0 then 0 else 1) + (M : ℝ) / 2 ^ m) * 2 ^ miniExp e e0 E

/-- All numbers of the format: every code of `1 + e + m` bits. -/
def miniSet (m e : ℕ) (e0 : ℤ) : Set ℝ :=
  {v | ∃ (s : Bool) (E M : ℕ), E < 2 ^ e ∧ M < 2 ^ m ∧ v = miniVal m e e0 s E M}

/-- `y` is a nearest element of `S` to `x`. -/
def IsNearestIn (S : Set ℝ) (x y : ℝ) : Prop := y ∈ S ∧ ∀ z ∈ S, |y - x| ≤ |z - x|

end Spec
open Spec

/-! ### The magnitudes in increasing order -/

noncomputable def miniMag (m e : ℕ) (e0 : ℤ) (N : ℕ) : ℝ := miniVal m e e0 false (N / 2 ^ m) (N % 2 ^ m)

theorem miniMag_zero (m e : ℕ) (e0 : ℤ) : miniMag m e e0 0 = 0 := by
  simp [miniMag, miniVal]

theorem miniMag_strictMono (m e : ℕ) (e0 : ℤ) : StrictMono (miniMag m e e0) := by
  refine strictMono_nat_of_lt_succ fun N => ?_
  have hP : 0 < 2 ^ m := by positivity
  have hP' : (0 : ℝ) < 2 ^ m := by positivity
  have hM := Nat.mod_lt N hP
  have hN := Nat.div_add_mod N (2 ^ m)
  set E := N / 2 ^ m with hE
  set M := N % 2 ^ m with hMd
  have hz : ∀ n : ℤ, (0 : ℝ) < 2 ^ n := fun n => by positivity
  simp only [miniMag, miniVal, ← hE, ← hMd]
  by_cases h : M + 1 < 2 ^ m
  · have h1 : (N + 1) / 2 ^ m = E := by
      rw [← hN]; rw [show 2 ^ m * E + M + 1 = (M + 1) + 2 ^ m * E by ring, Nat.add_mul_div_left _ _ hP,
        Nat.div_eq_of_lt h, zero_add]
    have h2 : (N + 1) % 2 ^ m = M + 1 := by
      rw [← hN]; rw [show 2 ^ m * E + M + 1 = (M + 1) + 2 ^ m * E by ring, Nat.add_mul_mod_self_left,
        Nat.mod_eq_of_lt h]
    rw [h1, h2]
    refine mul_lt_mul_of_pos_right ?_ (hz _)
    have : (M : ℝ) / 2 ^ m < ((M + 1 : ℕ) : ℝ) / 2 ^ m := by
      refine div_lt_div_of_pos_right ?_ hP'
      push_cast; linarith
    simp only [Bool.false_eq_true, if_false, one_mul]
    linarith
  · have hM1 : M + 1 = 2 ^ m := by omega
    have h0 : N + 1 = 2 ^ m * (E + 1) := by rw [← hN, mul_add, mul_one]; omega
    have h1 : (N + 1) / 2 ^ m = E + 1 := by rw [h0, Nat.mul_div_cancel_left _ hP]
    have h2 : (N + 1) % 2 ^ m = 0 := by rw [h0, Nat.mul_mod_right]
    rw [h1, h2]
    have hMr : (M : ℝ) / 2 ^ m < 1 := by
      rw [div_lt_one hP']
      have : ((M : ℕ) : ℝ) < ((2 ^ m : ℕ) : ℝ) := by exact_mod_cast hM
      simpa using this
    simp only [Bool.false_eq_true, if_false, one_mul, Nat.cast_zero, zero_div, add_zero, Nat.succ_ne_zero]
    by_cases hE0 : E = 0
    · simp only [hE0, if_true, zero_add, miniExp]
      simp only [Nat.succ_ne_zero, one_ne_zero, if_false]
      push_cast
      have := hz (-2 ^ (e - 1) + 1 + e0)
      nlinarith
    · simp only [hE0, if_false, miniExp, Nat.succ_ne_zero]
      have hs : (2 : ℝ) ^ (-2 ^ (e - 1) + ((E + 1 : ℕ) : ℤ) + e0) = 2 * 2 ^ (-2 ^ (e - 1) + (E : ℤ) + e0) := by
        rw [show (-2 ^ (e - 1) + ((E + 1 : ℕ) : ℤ) + e0) = 1 + (-2 ^ (e - 1) + (E : ℤ) + e0) by push_cast; ring,
          zpow_add₀ (by norm_num), zpow_one]
      rw [hs]
      have := hz (-2 ^ (e - 1) + (E : ℤ) + e0)
      nlinarith

theorem miniMag_nonneg (m e : ℕ) (e0 : ℤ) (N : ℕ) : 0 ≤ miniMag m e e0 N := by
  rw [← miniMag_zero m e e0]; exact (miniMag_strictMono m e e0).monotone (Nat.zero_le _)

theorem miniVal_eq_mag (m e : ℕ) (e0 : ℤ) (s : Bool) (E M : ℕ) (hM : M < 2 ^ m) :
    miniVal m e e0 s E M = (if s then -1 else 1) * miniMag m e e0 (E * 2 ^ m + M) := by
  have hP : 0 < 2 ^ m := by positivity
  have h1 : (E * 2 ^ m + M) / 2 ^ m = E := by
    rw [show E * 2 ^ m + M = M + 2 ^ m * E by ring, Nat.add_mul_div_left _ _ hP, Nat.div_eq_of_lt hM, zero_add]
  have h2 : (E * 2 ^ m + M) % 2 ^ m = M := by
    rw [show E * 2 ^ m + M = M + 2 ^ m * E by ring, Nat.add_mul_mod_self_left, Nat.mod_eq_of_lt hM]
  simp only [miniMag, h1, h2, miniVal]
  cases s <;> simp only [Bool.false_eq_true, if_false, if_true] <;> ring

theorem mem_miniSet_iff (m e : ℕ) (e0 : ℤ) (v : ℝ) :
    v ∈ miniSet m e e0 ↔ ∃ N < 2 ^ (e + m), v = miniMag m e e0 N ∨ v = - miniMag m e e0 N := by
  have hP : 0 < 2 ^ m := by positivity
  constructor
  · rintro ⟨s, E, M, hE, hM, rfl⟩
    refine ⟨E * 2 ^ m + M, ?_, ?_⟩
    · calc E * 2 ^ m + M < E * 2 ^ m + 2 ^ m := by omega
        _ = (E + 1) * 2 ^ m := by ring
        _ ≤ 2 ^ e * 2 ^ m := Nat.mul_le_mul_right _ hE
        _ = 2 ^ (e + m) := by rw [pow_add]
    · rw [miniVal_eq_mag m e e0 s E M hM]
      cases s <;> simp
  · rintro ⟨N, hN, h⟩
    have hE : N / 2 ^ m < 2 ^ e := by
      rw [Nat.div_lt_iff_lt_mul hP, ← pow_add]; exact hN
    rcases h with rfl | rfl
    · exact ⟨false, _, _, hE, Nat.mod_lt _ hP, rfl⟩
    · refine ⟨true, N / 2 ^ m, N % 2 ^ m, hE, Nat.mod_lt _ hP, ?_⟩
      simp only [miniMag, miniVal, Bool.false_eq_true, if_false, if_true]; ring

/-- Real powers with the exponents of the code are integer powers when `e ≥ 1`. -/
theorem rpow_half (e : ℕ) (he : 1 ≤ e) : (2 : ℝ) ^ ((e : ℝ) - 1) = ((2 ^ (e - 1) : ℤ) : ℝ) := by
  rw [show (e : ℝ) - 1 = ((e - 1 : ℕ) : ℝ) by push_cast [Nat.cast_sub he]; ring, Real.rpow_natCast]
  push_cast; rfl

theorem floatMax_eq (s : FloatState) (m e : ℕ) (hm : s.m = m) (he : s.e = e) (he1 : 1 ≤ e) :
    s.max = (2 : ℝ) ^ (2 ^ (e - 1) + s.e0 - 1) * (2 - 1 / 2 ^ m) := by
  unfold FloatState.max
  rw [hm, he]
  rw [show (((e : ℤ) : ℝ)) = (e : ℝ) by norm_cast, rpow_half e he1]
  rw [show (((2 ^ (e - 1) : ℤ) : ℝ) + (s.e0 : ℝ) - 1) = ((2 ^ (e - 1) + s.e0 - 1 : ℤ) : ℝ) by push_cast; ring,
    Real.rpow_intCast]
  rw [show (((m : ℤ) : ℝ)) = (m : ℝ) by norm_cast, Real.rpow_neg (by norm_num), Real.rpow_natCast, one_div]

theorem floatEps_eq (s : FloatState) (m e : ℕ) (hm : s.m = m) (he : s.e = e) (he1 : 1 ≤ e) :
    s.epsilon = (2 : ℝ) ^ (-2 ^ (e - 1) + 1 + s.e0) * (1 / 2 ^ m) := by
  unfold FloatState.epsilon
  rw [hm, he]
  rw [show (((e : ℤ) : ℝ)) = (e : ℝ) by norm_cast, rpow_half e he1]
  rw [show (-((2 ^ (e - 1) : ℤ) : ℝ) + (s.e0 : ℝ) + 1) = ((-2 ^ (e - 1) + 1 + s.e0 : ℤ) : ℝ) by push_cast; ring,
    Real.rpow_intCast]
  rw [show (((m : ℤ) : ℝ)) = (m : ℝ) by norm_cast, Real.rpow_neg (by norm_num), Real.rpow_natCast, one_div]

theorem mag_last (m e : ℕ) (e0 : ℤ) (he1 : 1 ≤ e) :
    miniMag m e e0 (2 ^ (e + m) - 1) = (2 : ℝ) ^ (2 ^ (e - 1) + e0 - 1) * (2 - 1 / 2 ^ m) := by
  have hP : 0 < 2 ^ m := by positivity
  have hP' : (0 : ℝ) < 2 ^ m := by positivity
  have hE2 : 2 ≤ 2 ^ e := by
    calc 2 = 2 ^ 1 := by norm_num
      _ ≤ 2 ^ e := Nat.pow_le_pow_right (by norm_num) he1
  have hN : 2 ^ (e + m) - 1 = (2 ^ e - 1) * 2 ^ m + (2 ^ m - 1) := by
    rw [pow_add]
    have : 2 ^ e * 2 ^ m = (2 ^ e - 1) * 2 ^ m + 2 ^ m := by
      rw [← Nat.succ_mul]; congr 1; omega
    omega
  have := miniVal_eq_mag m e e0 false (2 ^ e - 1) (2 ^ m - 1) (by omega)
  simp only [Bool.false_eq_true, if_false, one_mul] at this
  rw [hN, ← this]
  simp only [miniVal, miniExp, Bool.false_eq_true, if_false, one_mul, show (2 ^ e - 1 : ℕ) ≠ 0 by omega]
  have hpow : (2 : ℤ) ^ e = 2 * 2 ^ (e - 1) := by
    rw [← pow_succ']; congr 1; omega
  have h1 : (((2 ^ e - 1 : ℕ) : ℤ)) = 2 * 2 ^ (e - 1) - 1 := by
    rw [Nat.cast_sub (by omega)]; push_cast; rw [hpow]
  have h2 : (((2 ^ m - 1 : ℕ) : ℝ)) = 2 ^ m - 1 := by
    rw [Nat.cast_sub (by omega)]; push_cast; rfl
  rw [h1, h2, show (-2 ^ (e - 1) + (2 * 2 ^ (e - 1) - 1) + e0 : ℤ) = 2 ^ (e - 1) + e0 - 1 by ring, mul_comm]
  congr 1
  field_simp
  ring

theorem mag_one (m e : ℕ) (e0 : ℤ) :
    miniMag m e e0 1 = (2 : ℝ) ^ (-2 ^ (e - 1) + 1 + e0) * (1 / 2 ^ m) := by
  unfold miniMag
  rcases Nat.eq_zero_or_pos m with rfl | hm
  · simp [miniVal, miniExp]
  · have h2 : 1 < 2 ^ m := Nat.one_lt_two_pow (by omega)
    rw [Nat.div_eq_of_lt h2, Nat.mod_eq_of_lt h2]
    simp [miniVal, miniExp, mul_comm]

/-! ### The claims -/

/-- **C93** (widths) The integer widths are the trained variables rounded to the nearest integer, each its own. -/
theorem C93_widths (s : FloatState) :
    |(s.m : ℚ) - s.mw| ≤ 1 / 2 ∧ |(s.e : ℚ) - s.ew| ≤ 1 / 2 ∧ |(s.e0 : ℚ) - s.e0w| ≤ 1 / 2 := by
  have h : ∀ y : ℚ, |(roundHalfEven y : ℚ) - y| ≤ 1 / 2 := fun y => by
    obtain ⟨h1, h2, -⟩ := roundHalfEven_spec y
    rw [abs_le]; constructor <;> linarith
  exact ⟨h _, h _, h _⟩

/-- **C93** For every cell with `m ≥ 0` mantissa bits and `e ≥ 1` exponent bits, the reported `max` is the largest number
of the format, `min` the smallest, `epsilon` the smallest positive one, and `epsilon` divides every number of the
format. -/
theorem C93_range_partial (s : FloatState) (m e : ℕ) (hm : s.m = m) (he : s.e = e) (he1 : 1 ≤ e) :
    IsGreatest (miniSet m e s.e0) s.max ∧ IsLeast (miniSet m e s.e0) s.min ∧
    IsLeast {v ∈ miniSet m e s.e0 | 0 < v} s.epsilon ∧
    ∀ v ∈ miniSet m e s.e0, ∃ n : ℤ, v = n * s.epsilon := by
  have hmono := miniMag_strictMono m e s.e0
  have hpos : 0 < 2 ^ (e + m) := by positivity
  have hmax : s.max = miniMag m e s.e0 (2 ^ (e + m) - 1) := by
    rw [floatMax_eq s m e hm he he1, mag_last m e s.e0 he1]
  have heps : s.epsilon = miniMag m e s.e0 1 := by rw [floatEps_eq s m e hm he he1, mag_one]
  have hle : ∀ N < 2 ^ (e + m), miniMag m e s.e0 N ≤ s.max := fun N hN => by
    rw [hmax]; exact hmono.monotone (by omega)
  have h0 : 0 ≤ s.max := by rw [hmax]; exact miniMag_nonneg ..
  have h1lt : 1 < 2 ^ (e + m) := Nat.one_lt_two_pow (by omega)
  refine ⟨⟨?_, ?_⟩, ⟨?_, ?_⟩, ⟨⟨?_, ?_⟩, ?_⟩, ?_⟩
  · rw [mem_miniSet_iff]; exact ⟨_, Nat.sub_lt hpos one_pos, Or.inl hmax⟩
  · intro v hv
    obtain ⟨N, hN, rfl | rfl⟩ := (mem_miniSet_iff ..).1 hv
    · exact hle N hN
    · have := miniMag_nonneg m e s.e0 N; linarith
  · rw [mem_miniSet_iff]; exact ⟨_, Nat.sub_lt hpos one_pos, Or.inr (by rw [FloatState.min, hmax])⟩
  · intro v hv
    unfold FloatState.min
    obtain ⟨N, hN, rfl | rfl⟩ := (mem_miniSet_iff ..).1 hv
    · have := miniMag_nonneg m e s.e0 N; linarith
    · have := hle N hN; linarith
  · rw [mem_miniSet_iff]; exact ⟨1, h1lt, Or.inl heps⟩
  · rw [heps, ← miniMag_zero m e s.e0]; exact hmono one_pos
  · rintro v ⟨hv, hvp⟩
    obtain ⟨N, hN, rfl | rfl⟩ := (mem_miniSet_iff ..).1 hv
    · rw [heps]
      refine hmono.monotone ?_
      rcases Nat.eq_zero_or_pos N with rfl | h
      · rw [miniMag_zero] at hvp; exact absurd hvp (lt_irrefl _)
      · exact h
    · have := miniMag_nonneg m e s.e0 N; linarith
  · rintro v ⟨sg, E, M, hE, hM, rfl⟩
    have hP : (2 : ℝ) ^ m ≠ 0 := by positivity
    have key : ∃ n : ℤ, miniVal m e s.e0 false E M = n * s.epsilon := by
      rw [floatEps_eq s m e hm he he1]
      by_cases hE0 : E = 0
      · refine ⟨M, ?_⟩
        simp [miniVal, miniExp, hE0]; ring
      · refine ⟨(2 ^ m + M) * 2 ^ (E - 1), ?_⟩
        simp only [miniVal, miniExp, hE0, if_false, Bool.false_eq_true, one_mul]
        have : (2 : ℝ) ^ (-2 ^ (e - 1) + (E : ℤ) + s.e0) = 2 ^ (E - 1) * 2 ^ (-2 ^ (e - 1) + 1 + s.e0) := by
          rw [← zpow_natCast, ← zpow_add₀ (by norm_num)]
          congr 1
          rw [Nat.cast_sub (by omega)]; push_cast; ring
        rw [this]; push_cast; field_simp
    obtain ⟨n, hn⟩ := key
    cases sg
    · exact ⟨n, hn⟩
    · refine ⟨-n, ?_⟩
      have : miniVal m e s.e0 true E M = - miniVal m e s.e0 false E M := by
        simp only [miniVal, Bool.false_eq_true, if_false, if_true]; ring
      rw [this, hn]; push_cast; ring

/-- **C93** The reported number of bits is the one that counts the format: with `m ≥ 0`, `e ≥ 1` there are exactly
`2^bits - 1` numbers (zero has two codes). -/
theorem C93_bits_count_partial (s : FloatState) (m e : ℕ) (hm : s.m = m) (he : s.e = e) (he1 : 1 ≤ e) :
    0 ≤ s.bits ∧ (miniSet m e s.e0).ncard = 2 ^ s.bits.toNat - 1 := by
  have hb : s.bits = ((m + e + 1 : ℕ) : ℤ) := by simp [FloatState.bits, hm, he]
  refine ⟨by rw [hb]; positivity, ?_⟩
  rw [hb, Int.toNat_natCast]
  have hmono := miniMag_strictMono m e s.e0
  set n : ℕ := 2 ^ (e + m) with hn
  have hnpos : 0 < n := by positivity
  let g : ℤ → ℝ := fun z => if 0 ≤ z then miniMag m e s.e0 z.toNat else - miniMag m e s.e0 (-z).toNat
  have hg : StrictMono g := by
    intro a b hab
    simp only [g]
    have hneg : ∀ z : ℤ, z < 0 → 0 < miniMag m e s.e0 (-z).toNat := fun z hz => by
      rw [← miniMag_zero m e s.e0]; exact hmono (by omega)
    split_ifs with h1 h2 h2
    · exact hmono (by omega)
    · omega
    · have := hneg a (by omega)
      have := miniMag_nonneg m e s.e0 b.toNat
      linarith
    · have := hmono (show (-b).toNat < (-a).toNat by omega)
      linarith
  have himg : miniSet m e s.e0 = g '' (Finset.Ioo (-(n : ℤ)) n : Finset ℤ) := by
    ext v
    rw [mem_miniSet_iff]
    simp only [Set.mem_image, Finset.coe_Ioo, Set.mem_Ioo]
    constructor
    · rintro ⟨N, hN, rfl | rfl⟩
      · exact ⟨N, ⟨by omega, by omega⟩, by simp [g]⟩
      · refine ⟨-N, ⟨by omega, by omega⟩, ?_⟩
        simp only [g]
        split_ifs with h
        · have : N = 0 := by omega
          subst this; simp [miniMag_zero]
        · simp
    · rintro ⟨z, ⟨h1, h2⟩, rfl⟩
      simp only [g]
      split_ifs with h
      · exact ⟨_, by omega, Or.inl rfl⟩
      · exact ⟨_, by omega, Or.inr rfl⟩
  rw [himg, Set.ncard_image_of_injective _ hg.injective, Set.ncard_coe_finset, Int.card_Ioo]
  have : 2 ^ (m + e + 1) = 2 * n := by rw [hn, pow_succ, add_comm m e]; ring
  rw [this]
  omega

/-- **C93** (the call, given that the external function returns a nearest number of the documented format, with its
arguments in the order mantissa, exponent, offset) Every output lies in the reported range, numbers of the format are
unchanged (so the call is idempotent), values beyond the range give its ends, and the call is elementwise. -/
theorem C93_call_partial (fq : ℝ → ℤ → ℤ → ℤ → ℝ)
    (hfq : ∀ (x : ℝ) (m e : ℕ) (e0 : ℤ), 1 ≤ e → IsNearestIn (miniSet m e e0) x (fq x m e e0))
    (s : FloatState) (m e : ℕ) (hm : s.m = m) (he : s.e = e) (he1 : 1 ≤ e) (xs : List ℝ) :
    (s.call fq xs).length = xs.length ∧
    (∀ (j : ℕ) (x : ℝ), xs[j]? = some x → ∃ y, (s.call fq xs)[j]? = some y ∧ y ∈ miniSet m e s.e0 ∧
      s.min ≤ y ∧ y ≤ s.max ∧ (x ∈ miniSet m e s.e0 → y = x) ∧ (s.max ≤ x → y = s.max) ∧ (x ≤ s.min → y = s.min)) ∧
    s.call fq (s.call fq xs) = s.call fq xs := by
  obtain ⟨hG, hL, -, -⟩ := C93_range_partial s m e hm he he1
  have hq : ∀ x, IsNearestIn (miniSet m e s.e0) x (fq x s.m s.e s.e0) := fun x => by
    rw [hm, he]; exact hfq x m e s.e0 he1
  have hfix : ∀ x ∈ miniSet m e s.e0, fq x s.m s.e s.e0 = x := fun x hx => by
    have := (hq x).2 x hx
    rw [sub_self, abs_zero] at this
    have := abs_nonpos_iff.1 this
    linarith
  refine ⟨by simp [FloatState.call], ?_, ?_⟩
  · intro j x hx
    refine ⟨fq x s.m s.e s.e0, by simp [FloatState.call, hx], (hq x).1, hL.2 (hq x).1, hG.2 (hq x).1, hfix x, ?_, ?_⟩
    · intro hxm
      have h1 := hG.2 (hq x).1
      have h2 := (hq x).2 _ hG.1
      rw [abs_of_nonpos (by linarith), abs_of_nonpos (by linarith)] at h2
      linarith
    · intro hxm
      have h1 := hL.2 (hq x).1
      have h2 := (hq x).2 _ hL.1
      rw [abs_of_nonneg (by linarith), abs_of_nonneg (by linarith)] at h2
      linarith
  · simp only [FloatState.call, List.map_map]
    refine List.map_congr_left fun x _ => ?_
    exact hfix _ (hq x).1

/-- the assumption on the external function can be met -/
theorem nearest_exists : ∃ fq : ℝ → ℤ → ℤ → ℤ → ℝ,
    ∀ (x : ℝ) (m e : ℕ) (e0 : ℤ), 1 ≤ e → IsNearestIn (miniSet m e e0) x (fq x m e e0) := by
  have h : ∀ (x : ℝ) (m e : ℕ) (e0 : ℤ), ∃ y, IsNearestIn (miniSet m e e0) x y := by
    intro x m e e0
    have hfin : (miniSet m e e0).Finite := by
      refine Set.Finite.subset (((Set.finite_Iio (2 ^ (e + m))).image (miniMag m e e0)).union
        ((Set.finite_Iio (2 ^ (e + m))).image (fun N => - miniMag m e e0 N))) ?_
      intro v hv
      obtain ⟨N, hN, rfl | rfl⟩ := (mem_miniSet_iff ..).1 hv
      · exact Or.inl ⟨N, hN, rfl⟩
      · exact Or.inr ⟨N, hN, rfl⟩
    have hne : (miniSet m e e0).Nonempty :=
      ⟨miniMag m e e0 0, (mem_miniSet_iff ..).2 ⟨0, by positivity, Or.inl rfl⟩⟩
    obtain ⟨y, hy, hmin⟩ := Set.exists_min_image _ (fun z => |z - x|) hfin hne
    exact ⟨y, hy, hmin⟩
  choose f hf using h
  exact ⟨fun x m e e0 => f x m.toNat e.toNat e0, fun x m e e0 _ => by simpa using hf x m e e0⟩

/-- a cell with 2 mantissa and 4 exponent bits, as in the default configuration: 127 numbers, `max = 224`,
`epsilon = 2^-9` -/
example : let s : FloatState := ⟨9/4, 4, 1/3⟩
    s.bits = 7 ∧ s.max = 224 ∧ s.epsilon = 1 / 512 ∧ (miniSet 2 4 0).ncard = 127 := by
  intro s
  have hm : s.m = (2 : ℕ) := by decide +kernel
  have he : s.e = (4 : ℕ) := by decide +kernel
  have he0 : s.e0 = 0 := by decide +kernel
  have hb : s.bits = 7 := by decide +kernel
  refine ⟨hb, ?_, ?_, ?_⟩
  · rw [floatMax_eq s 2 4 hm he (by norm_num), he0]; norm_num
  · rw [floatEps_eq s 2 4 hm he (by norm_num), he0]; norm_num
  · have := (C93_bits_count_partial s 2 4 hm he (by norm_num)).2
    rw [he0, hb] at this
    simpa using this

/-- **C93** is false without exponent bits, which the default constraint `MinMax(0, 4)` on `e` allows: for every `m` and
`e0`, the reported `epsilon` is irrational, so it is no step of any binary format. -/
theorem C93_no_exponent_violated (s : FloatState) (he : s.e = 0) : Irrational s.epsilon := by
  unfold FloatState.epsilon
  rw [he]
  have hh : (2 : ℝ) ^ (((0 : ℤ) : ℝ) - 1) = 1 / 2 := by
    rw [show ((0 : ℤ) : ℝ) - 1 = (-1 : ℝ) by norm_num, Real.rpow_neg_one]; norm_num
  rw [hh, ← Real.rpow_add (by norm_num)]
  have : (2 : ℝ) ^ (-(1 / 2) + (s.e0 : ℝ) + 1 + -(s.m : ℝ)) = Real.sqrt 2 * ((2 ^ (s.e0 - s.m) : ℚ) : ℝ) := by
    rw [Real.sqrt_eq_rpow]
    push_cast
    rw [← Real.rpow_intCast, ← Real.rpow_add (by norm_num)]
    congr 1; push_cast; ring
  rw [this]
  exact irrational_sqrt_two.mul_ratCast (by positivity)

/-- **C93** is false for pruned cells: with `m = -1` the documentation says that the quantizer always produces zero, yet
it reports `e` bits (so the cell is counted in the EBOPs) unless `e` is zero as well. -/
theorem C93_pruned_bits_violated (s : FloatState) (hm : s.m = -1) (he : 0 < s.e) :
    s.bits = s.e ∧ 0 < s.bits ∧ s.max = 0 := by
  refine ⟨by simp [FloatState.bits, hm], by simpa [FloatState.bits, hm] using he, ?_⟩
  unfold FloatState.max
  rw [hm]
  have : (2 : ℝ) ^ (-((-1 : ℤ) : ℝ)) = 2 := by norm_num
  rw [this]; ring

example : ∃ s : FloatState, s.m = -1 ∧ 0 < s.e := ⟨⟨-1, 4, 0⟩, by decide +kernel⟩
example : ∃ s : FloatState, s.e = 0 := ⟨⟨2, 0, 0⟩, by decide +kernel⟩

end HGQ
