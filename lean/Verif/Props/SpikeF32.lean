import Verif.Model.SpikeF32
import Verif.Props.Float32
import Verif.Props.Spiking
import Mathlib.Tactic

/-! # C100: spikes are exact in float32 -/
namespace HGQ

namespace Spec
/-- What is assumed of the `arctan` of the backend and of `alpha`: either results never exceed `float32(π)/2` (and `alpha` is arbitrary), or
results may be off by a factor of two, but are not negative for non-negative arguments (and `alpha ≥ 0`). -/
def AtanOk (arctan : F32Ext → ℚ) (alpha : ℚ) : Prop :=
  (∀ y, |arctan y| ≤ 13176795 / 8388608) ∨
  (0 ≤ alpha ∧ (∀ y, |arctan y| ≤ 13176795 / 4194304) ∧ (∀ q, 0 ≤ q → 0 ≤ arctan (.fin q)) ∧ 0 ≤ arctan (.inf false))

/-- A spike function of the library with a sensible `alpha`. -/
def GradOk (arctan : F32Ext → ℚ) : SpikeGrad → Prop
  | .atan alpha => |alpha| ≤ 2 ^ (127 : ℤ) ∧ AtanOk arctan alpha
  | .bypass => True

/-- Input `x` of unit `i` (after the input quantizer, if there is one) is a multiple of `2^-F` of size at most `B`, and the input quantizer
is exact on it. -/
def InOk {n : ℕ} (c : SnnF32 n) (F : ℤ) (B : Fin (n + 1) → ℚ) (x : Fin (n + 1) → ℚ) : Prop :=
  ∀ i, match c.iq with
    | some q => (q i).roundOnly = false ∧ RawOk (q i) (x i) ∧ (q i).f ≤ F ∧ 2 ^ (q i).i ≤ B i
    | none => OnGrid F (x i) ∧ |x i| ≤ B i

/-- Size of the decay of unit `i`; 1 for integrate-and-fire cells. -/
def decay {n : ℕ} (c : SnnF32 n) (i : Fin (n + 1)) : ℚ := match c.beta with | some b => |b i| | none => 1

/-- The parameters of a cell whose states are multiples of `2^-(g i)` of size at most `S i` and whose inputs have size at most `B i`: all sums
are multiples of `2^-F` and fit into 24 bits, and the output quantizer is exact on the spikes. -/
structure CellOk {n : ℕ} (c : SnnF32 n) (F : ℤ) (g : Fin (n + 1) → ℤ) (S B : Fin (n + 1) → ℚ) : Prop where
  range : -103 ≤ F ∧ F ≤ 149
  thr : ∀ i, OnGrid F (c.threshold i)
  factor : ∀ i, IsF32 (c.factor i)
  out : ∀ q, c.oq = some q → ∀ i, RawOk (q i) (c.factor i)
  frac : ∀ i, match c.beta with | some b => ∃ fb, OnGrid fb (b i) ∧ fb + g i ≤ F | none => g i ≤ F
  size : ∀ i, decay c i * S i + B i + |c.threshold i| ≤ 2 ^ (24 - F)
end Spec
open Spec

/-! ## Rounding -/

theorem isF32_neg {x : ℚ} (h : IsF32 x) : IsF32 (-x) := by
  obtain ⟨⟨m, e, hm, he, hx⟩, hb⟩ := h
  exact ⟨⟨-m, e, by simpa using hm, he, by rw [hx]; push_cast; ring⟩, by simpa using hb⟩

theorem isF32_zero : IsF32 0 := ⟨⟨0, 0, by norm_num, by norm_num, by simp⟩, by simp⟩

theorem roundF32_le {x z : ℚ} (hz : IsF32 z) (h : x ≤ z) : roundF32 x ≤ z := by
  by_contra hc
  push Not at hc
  have := (C89_rounding_is_ieee x).2 z hz
  rw [abs_of_nonneg (by linarith), abs_of_nonneg (by linarith)] at this
  linarith

theorem le_roundF32 {x z : ℚ} (hz : IsF32 z) (h : z ≤ x) : z ≤ roundF32 x := by
  by_contra hc
  push Not at hc
  have := (C89_rounding_is_ieee x).2 z hz
  rw [abs_of_nonpos (by linarith), abs_of_nonpos (by linarith)] at this
  linarith

/-- A float32 operation whose exact result lies between two float32 numbers does not overflow and stays between them. -/
theorem fl_between {x a b : ℚ} (ha : IsF32 a) (hb : IsF32 b) (h1 : a ≤ x) (h2 : x ≤ b) :
    ∃ r, fl x = some r ∧ a ≤ r ∧ r ≤ b := by
  have l := le_roundF32 ha h1
  have u := roundF32_le hb h2
  refine ⟨roundF32 x, ?_, l, u⟩
  unfold fl
  rw [if_pos]
  exact abs_lt.2 ⟨by have := (abs_lt.1 ha.2).1; linarith, by have := (abs_lt.1 hb.2).2; linarith⟩

/-- Results of float32 operations are float32 numbers. -/
theorem isF32_of_fl {x r : ℚ} (h : fl x = some r) : IsF32 r := by
  unfold fl at h
  split at h
  · rename_i hlt
    obtain rfl : roundF32 x = r := by simpa using h
    refine ⟨?_, hlt⟩
    obtain ⟨⟨m, e, hm, he, hr⟩, -⟩ := C89_rounding_is_ieee x
    rcases hm.lt_or_eq with h' | h'
    · exact ⟨m, e, h', he, hr⟩
    · have hm2 : m = 2 * (m / 2) := by rcases abs_choice m with h | h <;> rw [h] at h' <;> omega
      refine ⟨m / 2, e + 1, ?_, by omega, ?_⟩
      · rcases abs_choice m with h | h <;> rw [h] at h' <;> rw [abs_lt] <;> omega
      · rw [hr]
        nth_rewrite 1 [hm2]
        rw [zpow_add₀ (by norm_num)]; push_cast; ring
  · simp at h

/-- Every integer of at most 24 bits over a power of two is a float32. -/
theorem isF32_frac (m : ℤ) (k : ℕ) (hm : |m| < 2 ^ 24) (hk : k ≤ 149) : IsF32 ((m : ℚ) / 2 ^ k) := by
  refine ⟨⟨m, -(k : ℤ), hm, by omega, by rw [zpow_neg, zpow_natCast]; ring⟩, ?_⟩
  rw [abs_div, abs_of_pos (show (0 : ℚ) < 2 ^ k by positivity)]
  have h1 : |(m : ℚ)| < 2 ^ 24 := by exact_mod_cast hm
  refine lt_of_le_of_lt (div_le_self (abs_nonneg _) (one_le_pow₀ (by norm_num))) (h1.trans ?_)
  norm_num

/-- Near 1, half an ulp is lost in the rounding. -/
theorem roundF32_near_one {y : ℚ} (h : |y - 1| ≤ 1 / 33554432) : roundF32 y = 1 := by
  obtain ⟨h1, h2⟩ := abs_le.1 h
  have hy : 0 < y := by linarith
  rcases lt_or_ge y 1 with hlt | hge
  · have l1 := le_log (x := y) (n := -1) (by rw [abs_of_pos hy]; norm_num; linarith) hy.ne'
    have l2 := log_lt (x := y) (n := 0) (by rw [abs_of_pos hy]; norm_num; exact hlt) hy.ne'
    have hu : ulpExp y = -24 := by unfold ulpExp; omega
    unfold roundF32
    rw [hu]
    have e1 : (2 : ℚ) ^ (-(-24 : ℤ)) = 16777216 := by norm_num
    have e2 : (2 : ℚ) ^ (-24 : ℤ) = 1 / 16777216 := by norm_num
    rw [e1, e2]
    have hf : ⌊y * 16777216⌋ = 16777215 := Int.floor_eq_iff.2 ⟨by push_cast; linarith, by push_cast; linarith⟩
    have : roundHalfEven (y * 16777216) = 16777216 := by
      unfold roundHalfEven
      simp only [hf]
      rw [if_neg (by push_cast; linarith)]
      split_ifs <;> first | rfl | (exfalso; omega)
    rw [this]; norm_num
  · have l1 := le_log (x := y) (n := 0) (by rw [abs_of_pos hy]; norm_num; linarith) hy.ne'
    have l2 := log_lt (x := y) (n := 1) (by rw [abs_of_pos hy]; norm_num; linarith) hy.ne'
    have hu : ulpExp y = -23 := by unfold ulpExp; omega
    unfold roundF32
    rw [hu]
    have e1 : (2 : ℚ) ^ (-(-23 : ℤ)) = 8388608 := by norm_num
    have e2 : (2 : ℚ) ^ (-23 : ℤ) = 1 / 8388608 := by norm_num
    rw [e1, e2]
    have hf : ⌊y * 8388608⌋ = 8388608 := Int.floor_eq_iff.2 ⟨by push_cast; linarith, by push_cast; linarith⟩
    have : roundHalfEven (y * 8388608) = 8388608 := by
      unfold roundHalfEven
      simp only [hf]
      rw [if_pos (by push_cast; linarith)]
    rw [this]; norm_num

theorem fl_one_near {y : ℚ} (h : |y - 1| ≤ 1 / 33554432) : fl y = some 1 := by
  unfold fl
  rw [roundF32_near_one h, if_pos (by norm_num)]

/-- `(1 - s) + s` is 1 in float32 for every float32 `s` between 0 and 2. -/
theorem straight_through_one {s : ℚ} (hs : IsF32 s) (h0 : 0 ≤ s) (h2 : s ≤ 2) : ∃ d, fl (1 - s) = some d ∧ fl (d + s) = some 1 := by
  have one : fl (1 : ℚ) = some 1 := fl_one_near (by norm_num)
  rcases lt_or_ge s (1 / 2) with hlt | hge
  · rcases h0.eq_or_lt with rfl | hpos
    · exact ⟨1, by simpa using one, by simpa using one⟩
    obtain ⟨d, hd, hd1, hd2⟩ := fl_between (x := 1 - s) (a := 1 / 2) (b := 1) (by simpa using isF32_frac 1 1 (by norm_num) (by norm_num))
      (by simpa using isF32_frac 1 0 (by norm_num) (by norm_num)) (by linarith) (by linarith)
    refine ⟨d, hd, fl_one_near ?_⟩
    have hdr : d = roundF32 (1 - s) := by
      unfold fl at hd; split at hd
      · simpa using hd.symm
      · simp at hd
    have hp : 0 < 1 - s := by linarith
    have l1 := le_log (x := 1 - s) (n := -1) (by rw [abs_of_pos hp]; norm_num; linarith) hp.ne'
    have l2 := log_lt (x := 1 - s) (n := 0) (by rw [abs_of_pos hp]; norm_num; exact hpos) hp.ne'
    have hu : ulpExp (1 - s) = -24 := by unfold ulpExp; omega
    have e1 : (2 : ℚ) ^ (-(-24 : ℤ)) = 16777216 := by norm_num
    have e2 : (2 : ℚ) ^ (-24 : ℤ) = 1 / 16777216 := by norm_num
    have herr := roundHalfEven_err ((1 - s) * 16777216)
    rw [hdr]
    unfold roundF32
    rw [hu, e1, e2]
    obtain ⟨a, b⟩ := abs_le.1 herr
    rw [abs_le]
    constructor <;> linarith
  · have hlog := le_log (x := s) (n := -1) (by rw [abs_of_nonneg h0]; norm_num; linarith) (by linarith)
    have hgs : OnGrid 24 s := onGrid_mono (by unfold ulpExp; omega) (isF32_onGrid hs)
    have h1g : OnGrid 24 (1 : ℚ) := ⟨2 ^ 24, by norm_num⟩
    have hd : fl (1 - s) = some (1 - s) := fl_grid (g := 24) (by rw [sub_eq_add_neg]; exact onGrid_add h1g (onGrid_neg hgs))
      (by norm_num; rw [abs_le]; constructor <;> linarith) (by norm_num)
    exact ⟨1 - s, hd, by simpa using one⟩

/-- `(0 - s) + s` is 0 in float32. -/
theorem straight_through_zero {s : ℚ} (hs : IsF32 s) : fl (0 - s) = some (-s) ∧ fl (-s + s) = some 0 :=
  ⟨by rw [zero_sub]; exact fl_isF32 (isF32_neg hs), by rw [neg_add_cancel]; exact fl_isF32 isF32_zero⟩

/-- **C100**, the spike function: for every finite float32 input the result is exactly 1 if the input is positive and exactly 0 if not, although
a surrogate of size up to 1.5 is subtracted and added back in float32, and although the argument of `arctan` may overflow. -/
theorem C100_spike (arctan : F32Ext → ℚ) (g : SpikeGrad) (h : GradOk arctan g) (x : ℚ) :
    g.run arctan x = some (if 0 < x then 1 else 0) := by
  cases g with
  | bypass => rfl
  | atan alpha =>
    obtain ⟨ha, hat⟩ := h
    simp only [SpikeGrad.run, atanSpike]
    have hpi : fl (pi32 / 2) = some (13176795 / 8388608) := by
      have : pi32 / 2 = ((13176795 : ℤ) : ℚ) / 2 ^ 23 := by unfold pi32; norm_num
      rw [this, fl_isF32 (isF32_frac _ _ (by norm_num) (by norm_num))]; norm_num
    rw [hpi, Option.bind_some]
    -- pi / 2 * alpha
    have hbig : IsF32 (13176795 * 2 ^ (104 : ℤ)) := ⟨⟨13176795, 104, by norm_num, by norm_num, by norm_num⟩, by norm_num⟩
    have e104 : (13176795 : ℚ) / 8388608 * 2 ^ (127 : ℤ) = 13176795 * 2 ^ (104 : ℤ) := by norm_num
    obtain ⟨hal, hau⟩ := abs_le.1 ha
    obtain ⟨p, hp, -, -⟩ := fl_between (x := 13176795 / 8388608 * alpha) (isF32_neg hbig) hbig
      (by rw [← e104]; linarith) (by rw [← e104]; linarith)
    have hpos : 0 ≤ alpha → 0 ≤ p := by
      intro h0
      obtain ⟨p', hp', h1, -⟩ := fl_between (x := 13176795 / 8388608 * alpha) isF32_zero hbig (by positivity) (by rw [← e104]; linarith)
      rw [hp] at hp'
      obtain rfl : p = p' := by simpa using hp'
      exact h1
    rw [hp, Option.bind_some]
    set t := arctan (mulExt p x) with ht
    have f1 : IsF32 (1 : ℚ) := by simpa using isF32_frac 1 0 (by norm_num) (by norm_num)
    have fh : IsF32 (1 / 2 : ℚ) := by simpa using isF32_frac 1 1 (by norm_num) (by norm_num)
    have f2 : IsF32 (2 : ℚ) := by simpa using isF32_frac 2 0 (by norm_num) (by norm_num)
    have hpip : (0 : ℚ) < pi32 := by unfold pi32; norm_num
    -- the range of the surrogate
    have key : ∃ u soft, fl (t / pi32) = some u ∧ fl (u + 1 / 2) = some soft ∧ (0 < x → 0 ≤ soft ∧ soft ≤ 2) := by
      rcases hat with hb | ⟨h0, hb, hq, hi⟩
      · obtain ⟨b1, b2⟩ := abs_le.1 (hb (mulExt p x))
        rw [← ht] at b1 b2
        obtain ⟨u, hu, u1, u2⟩ := fl_between (x := t / pi32) (isF32_neg fh) fh
          (by rw [le_div_iff₀ hpip]; unfold pi32; linarith) (by rw [div_le_iff₀ hpip]; unfold pi32; linarith)
        obtain ⟨s, hs, s1, s2⟩ := fl_between (x := u + 1 / 2) isF32_zero f2 (by linarith) (by linarith)
        exact ⟨u, s, hu, hs, fun _ => ⟨s1, s2⟩⟩
      · obtain ⟨b1, b2⟩ := abs_le.1 (hb (mulExt p x))
        rw [← ht] at b1 b2
        by_cases hx : 0 < x
        · have tpos : 0 ≤ t := by
            rw [ht]
            have hpx : 0 ≤ p * x := mul_nonneg (hpos h0) hx.le
            unfold mulExt
            cases hfl : fl (p * x) with
            | none =>
              have : decide (p * x < 0) = false := by simpa using hpx
              simp only [this]; exact hi
            | some q =>
              refine hq q ?_
              have : q = roundF32 (p * x) := by
                unfold fl at hfl; split at hfl
                · simpa using hfl.symm
                · simp at hfl
              rw [this]; exact le_roundF32 isF32_zero hpx
          obtain ⟨u, hu, u1, u2⟩ := fl_between (x := t / pi32) isF32_zero f1
            (by positivity) (by rw [div_le_iff₀ hpip]; unfold pi32; linarith)
          obtain ⟨s, hs, s1, s2⟩ := fl_between (x := u + 1 / 2) isF32_zero f2 (by linarith) (by linarith)
          exact ⟨u, s, hu, hs, fun _ => ⟨s1, s2⟩⟩
        · obtain ⟨u, hu, u1, u2⟩ := fl_between (x := t / pi32) (isF32_neg f1) f1
            (by rw [le_div_iff₀ hpip]; unfold pi32; linarith) (by rw [div_le_iff₀ hpip]; unfold pi32; linarith)
          obtain ⟨s, hs, s1, s2⟩ := fl_between (x := u + 1 / 2) (isF32_neg f2) f2 (by linarith) (by linarith)
          exact ⟨u, s, hu, hs, fun h => absurd h hx⟩
    obtain ⟨u, s, hu, hs, hr⟩ := key
    rw [hu, Option.bind_some, hs, Option.bind_some]
    have hsF := isF32_of_fl hs
    split_ifs with hx
    · obtain ⟨d, hd, hd2⟩ := straight_through_one hsF (hr hx).1 (hr hx).2
      rw [hd, Option.bind_some, hd2]
    · obtain ⟨a, b⟩ := straight_through_zero hsF
      rw [a, Option.bind_some, b]

/-- The assumptions are met by an `arctan` that is `±pi/2` for infinite arguments and by the default `alpha`. -/
example : GradOk (fun y => match y with | .fin q => if q < 0 then -1 else 1 | .inf neg => if neg then -13176795 / 8388608 else 13176795 / 8388608)
    (.atan 2) := by
  refine ⟨by norm_num, Or.inl fun y => ?_⟩
  cases y with
  | fin q => dsimp only; split_ifs <;> norm_num
  | inf b => cases b <;> norm_num

/-! ## Firing -/

theorem allFinite_some {n : ℕ} (v : Fin (n + 1) → Option ℚ) (w : Fin (n + 1) → ℚ) (h : ∀ i, v i = some (w i)) : allFinite v = some w := by
  unfold allFinite
  rw [dif_pos fun i => by simp [h i]]
  congr 1
  funext i
  simp [h i]

theorem allFinite_inv {n : ℕ} {v : Fin (n + 1) → Option ℚ} {w : Fin (n + 1) → ℚ} (h : allFinite v = some w) (i : Fin (n + 1)) :
    v i = some (w i) := by
  unfold allFinite at h
  split at h
  · have := congrFun (Option.some.inj h) i
    simp [← this]
  · simp at h

/-- Subtraction of float32 numbers keeps the sign (gradual underflow). -/
theorem fl_sub_pos {a b r : ℚ} (ha : IsF32 a) (hb : IsF32 b) (h : fl (a - b) = some r) : 0 < r ↔ b < a := by
  have hr : r = roundF32 (a - b) := by
    unfold fl at h; split at h
    · simpa using h.symm
    · simp at h
  have hga : OnGrid 149 a := onGrid_mono (by unfold ulpExp; omega) (isF32_onGrid ha)
  have hgb : OnGrid 149 b := onGrid_mono (by unfold ulpExp; omega) (isF32_onGrid hb)
  constructor
  · intro h0
    by_contra hc
    push Not at hc
    have := roundF32_le isF32_zero (show a - b ≤ 0 by linarith)
    rw [hr] at h0; linarith
  · intro hlt
    have hmin : IsF32 (1 / 2 ^ 149) := by simpa using isF32_frac 1 149 (by norm_num) (by norm_num)
    obtain ⟨m, hm⟩ := hga
    obtain ⟨k, hk⟩ := hgb
    have hp := zpow2_pos (-149)
    have h1 : (1 : ℚ) / 2 ^ 149 ≤ a - b := by
      have e : (2 : ℚ) ^ (-149 : ℤ) = 1 / 2 ^ 149 := by norm_num
      rw [hm, hk] at hlt
      have : (k : ℚ) < m := by by_contra hc; push Not at hc; nlinarith
      have h2 : k + 1 ≤ m := by exact_mod_cast this
      have h3 : (k : ℚ) + 1 ≤ m := by exact_mod_cast h2
      rw [hm, hk, ← e]; nlinarith
    have := le_roundF32 hmin h1
    rw [hr]
    refine lt_of_lt_of_le (by positivity) this

/-- **C100**, firing: whatever the float32 membrane values and thresholds are — no bound on the number of bits — a unit fires exactly if its
membrane value exceeds its threshold, the spike is exactly 1, and the output is exactly the graded factor (no inhibition, differences finite). -/
theorem C100_fire {n : ℕ} (c : SnnF32 n) (arctan : F32Ext → ℚ) (hg : GradOk arctan c.grad) (hinh : c.inhibition = false)
    (mem : Fin (n + 1) → ℚ) (hm : ∀ i, IsF32 (mem i)) (ht : ∀ i, IsF32 (c.threshold i)) (hf : ∀ i, IsF32 (c.factor i))
    (hfin : ∀ i, (fl (mem i - c.threshold i)).isSome) :
    c.fire arctan mem = some (fun i => if c.threshold i < mem i then c.factor i else 0, fun i => if c.threshold i < mem i then 1 else 0) := by
  have hs : (allFinite fun i => fl (mem i - c.threshold i)) = some (fun i => (fl (mem i - c.threshold i)).get (hfin i)) :=
    allFinite_some _ _ fun i => by simp
  unfold SnnF32.fire
  rw [hs, Option.bind_some]
  have hpos : ∀ i, (0 < (fl (mem i - c.threshold i)).get (hfin i)) ↔ c.threshold i < mem i := fun i =>
    fl_sub_pos (hm i) (ht i) (by simp)
  rw [allFinite_some _ (fun i => if c.threshold i < mem i then 1 else 0) fun i => by rw [C100_spike _ _ hg]; simp [hpos i], Option.bind_some,
    hinh]
  simp only [Bool.false_eq_true, if_false, Option.bind_some]
  rw [allFinite_some _ (fun i => if c.threshold i < mem i then c.factor i else 0) fun i => by
    by_cases h : c.threshold i < mem i
    · simp only [h, if_true, one_mul]; exact fl_isF32 (hf i)
    · simp only [h, if_false, zero_mul]; exact fl_isF32 isF32_zero]
  rfl

/-! ## Steps and sequences -/

theorem rawOk_zero {q : QSpec} {x : ℚ} (h : RawOk q x) : RawOk q 0 where
  isF32 := isF32_zero
  scaled := by simpa using isF32_zero
  small := by simp
  tie := fun _ => by norm_num
  range := h.range
  bits := h.bits

theorem sub_grid {F : ℤ} {a b : ℚ} (ha : OnGrid F a) (hb : OnGrid F b) : OnGrid F (a - b) := by
  rw [sub_eq_add_neg]; exact onGrid_add ha (onGrid_neg hb)

/-- One step is exact. -/
theorem snn_step_exact {n : ℕ} (c : SnnF32 n) (arctan : F32Ext → ℚ) (soft : ℚ → ℚ) (hg : GradOk arctan c.grad) (F : ℤ)
    (g : Fin (n + 1) → ℤ) (S B : Fin (n + 1) → ℚ) (h : CellOk c F g S B) (x s : Fin (n + 1) → ℚ) (hx : InOk c F B x)
    (hs : ∀ i, OnGrid (g i) (s i) ∧ |s i| ≤ S i)
    (hsq : ∀ q, c.sq = some q → ∀ i, GridOk (q i) F (decay c i * S i + B i + |c.threshold i|)) :
    c.step arctan x s = some (c.exact.step soft x s) ∧
    (∀ i, OnGrid F (c.exact.integrate x s i) ∧ |c.exact.integrate x s i| ≤ decay c i * S i + B i) ∧
    (∀ i, OnGrid F (c.exact.resetMem (c.exact.integrate x s) (c.exact.fire soft (c.exact.integrate x s)).2 i)) := by
  have hR := h.range
  -- inputs
  have hin : optQF32 c.iq x = some (optQ c.exact.iq x) ∧ ∀ i, OnGrid F (optQ c.exact.iq x i) ∧ |optQ c.exact.iq x i| ≤ B i := by
    cases hq : c.iq with
    | none => simp only [InOk, hq] at hx; simp only [optQF32, SnnF32.exact, hq, Option.map_none, optQ, true_and]; exact hx
    | some q =>
      simp only [InOk, hq] at hx
      simp only [optQF32, SnnF32.exact, hq, Option.map_some, optQ]
      refine ⟨allFinite_some _ _ fun i => C89_quantizer_raw_partial _ _ (hx i).2.1, fun i => ?_⟩
      obtain ⟨a, b⟩ := stateless_bounds (q i) (x i) (hx i).1
      exact ⟨onGrid_mono (hx i).2.2.1 a, b.trans (hx i).2.2.2⟩
  set X := optQ c.exact.iq x with hX
  have hdec : ∀ i, 0 ≤ decay c i := fun i => by unfold decay; split <;> simp
  have hBS : ∀ i, 0 ≤ S i ∧ 0 ≤ B i := fun i => ⟨(abs_nonneg _).trans (hs i).2, (abs_nonneg _).trans (hin.2 i).2⟩
  -- membrane
  have hmem : c.integrate x s = some (c.exact.integrate x s) ∧
      ∀ i, OnGrid F (c.exact.integrate x s i) ∧ |c.exact.integrate x s i| ≤ decay c i * S i + B i := by
    have hsz := h.size
    have hfr := h.frac
    unfold SnnF32.integrate
    rw [hin.1, Option.bind_some]
    cases hb : c.beta with
    | none =>
      have he : c.exact.integrate x s = fun i => s i + X i := by simp [SnnCell.integrate, SnnF32.exact, hb, hX]
      rw [he]
      simp only [hb] at hfr
      have hd : ∀ i, decay c i = 1 := fun i => by simp [decay, hb]
      have fact : ∀ i, OnGrid F (s i + X i) ∧ |s i + X i| ≤ decay c i * S i + B i := fun i =>
        ⟨onGrid_add (onGrid_mono (hfr i) (hs i).1) (hin.2 i).1, by
          rw [hd, one_mul]; exact (abs_add_le _ _).trans (add_le_add (hs i).2 (hin.2 i).2)⟩
      exact ⟨allFinite_some _ _ fun i => fl_grid (fact i).1 (by linarith [(fact i).2, hsz i, abs_nonneg (c.threshold i)]) hR, fact⟩
    | some b =>
      have he : c.exact.integrate x s = fun i => b i * s i + X i := by simp [SnnCell.integrate, SnnF32.exact, hb, hX]
      rw [he]
      simp only [hb] at hfr
      have hd : ∀ i, decay c i = |b i| := fun i => by simp [decay, hb]
      have fp : ∀ i, OnGrid F (b i * s i) ∧ |b i * s i| ≤ decay c i * S i := fun i => by
        obtain ⟨fb, h1, h2⟩ := hfr i
        refine ⟨onGrid_mono h2 (onGrid_mul h1 (hs i).1), ?_⟩
        rw [hd, abs_mul]; exact mul_le_mul_of_nonneg_left (hs i).2 (abs_nonneg _)
      have fact : ∀ i, OnGrid F (b i * s i + X i) ∧ |b i * s i + X i| ≤ decay c i * S i + B i := fun i =>
        ⟨onGrid_add (fp i).1 (hin.2 i).1, (abs_add_le _ _).trans (add_le_add (fp i).2 (hin.2 i).2)⟩
      refine ⟨allFinite_some _ _ fun i => ?_, fact⟩
      have e1 := fl_grid (fact i).1 (by linarith [(fact i).2, hsz i, abs_nonneg (c.threshold i)]) hR
      have e2 := fl_grid (fp i).1 (by linarith [(fp i).2, hsz i, abs_nonneg (c.threshold i), (hBS i).2]) hR
      split
      · exact e1
      · rw [e2, Option.bind_some, e1]
  set M := c.exact.integrate x s with hM
  -- scores and spikes
  have hscore : ∀ i, fl (M i - c.threshold i) = some (M i - c.threshold i) := fun i => by
    refine fl_grid (sub_grid (hmem.2 i).1 (h.thr i)) ((abs_sub _ _).trans ?_) hR
    linarith [(hmem.2 i).2, h.size i]
  set sp := (c.exact.fire soft M).2 with hsp
  have hspv : ∀ i, sp i = 0 ∨ sp i = 1 := fun i => by
    rw [hsp, fire_spk]; split <;> simp
  have hfire : c.fire arctan M = some (fun i => sp i * c.factor i, sp) := by
    unfold SnnF32.fire
    rw [allFinite_some _ _ hscore, Option.bind_some, allFinite_some _ _ fun i => C100_spike _ _ hg _, Option.bind_some]
    have hfin : (if c.inhibition then allFinite fun i => fl ((if 0 < M i - c.threshold i then (1 : ℚ) else 0) *
        (if i = argmaxFirst fun i => M i - c.threshold i then 1 else 0)) else some fun i => if 0 < M i - c.threshold i then (1 : ℚ) else 0) =
        some sp := by
      cases hi : c.inhibition
      · simp only [Bool.false_eq_true, if_false]
        congr 1
        funext i
        simp [hsp, SnnCell.fire, SnnF32.exact, hi, spikeFn_eq]
      · simp only [if_true]
        refine allFinite_some _ _ fun i => ?_
        have : sp i = (if 0 < M i - c.threshold i then (1 : ℚ) else 0) * (if i = argmaxFirst fun i => M i - c.threshold i then 1 else 0) := by
          simp [hsp, SnnCell.fire, SnnF32.exact, hi, spikeFn_eq]
        rw [← this]
        rcases hspv i with h0 | h1
        · rw [h0]; exact fl_isF32 isF32_zero
        · rw [h1]; exact fl_one_near (by norm_num)
    rw [hfin, Option.bind_some, allFinite_some _ (fun i => sp i * c.factor i) fun i => ?_, Option.bind_some]
    rcases hspv i with h0 | h1
    · rw [h0, zero_mul]; exact fl_isF32 isF32_zero
    · rw [h1, one_mul]; exact fl_isF32 (h.factor i)
  have hout : (c.exact.fire soft M).1 = fun i => sp i * c.factor i := by
    funext i; simp [hsp, SnnCell.fire, SnnF32.exact]
  -- outputs
  have hoq : optQF32 c.oq (fun i => sp i * c.factor i) = some (optQ c.exact.oq (fun i => sp i * c.factor i)) := by
    cases hq : c.oq with
    | none => simp [optQF32, SnnF32.exact, hq, optQ]
    | some q =>
      simp only [optQF32, SnnF32.exact, hq, Option.map_some, optQ]
      refine allFinite_some _ _ fun i => C89_quantizer_raw_partial _ _ ?_
      have := h.out q hq i
      rcases hspv i with h0 | h1
      · rw [h0, zero_mul]; exact rawOk_zero this
      · rw [h1, one_mul]; exact this
  -- reset
  set R := c.exact.resetMem M sp with hRdef
  have hres : c.resetMem M sp = some R ∧ ∀ i, OnGrid F (R i) ∧ |R i| ≤ decay c i * S i + B i + |c.threshold i| := by
    have hM2 := hmem.2
    cases hr : c.reset with
    | none =>
      have : R = M := by simp [hRdef, SnnCell.resetMem, SnnF32.exact, hr]
      rw [this]
      exact ⟨by simp [SnnF32.resetMem, hr], fun i => ⟨(hM2 i).1, by linarith [(hM2 i).2, abs_nonneg (c.threshold i)]⟩⟩
    | subtract =>
      have : R = fun i => M i - sp i * c.threshold i := by simp [hRdef, SnnCell.resetMem, SnnF32.exact, hr]
      have e : ∀ i, OnGrid F (sp i * c.threshold i) ∧ |sp i * c.threshold i| ≤ |c.threshold i| := fun i => by
        rcases hspv i with h0 | h1
        · rw [h0, zero_mul]; exact ⟨onGrid_zero F, by simp⟩
        · rw [h1, one_mul]; exact ⟨h.thr i, le_refl _⟩
      have e2 : ∀ i, OnGrid F (M i - sp i * c.threshold i) ∧ |M i - sp i * c.threshold i| ≤ decay c i * S i + B i + |c.threshold i| :=
        fun i => ⟨sub_grid (hM2 i).1 (e i).1, (abs_sub _ _).trans (add_le_add (hM2 i).2 (e i).2)⟩
      rw [this]
      refine ⟨?_, e2⟩
      simp only [SnnF32.resetMem, hr]
      refine allFinite_some _ _ fun i => ?_
      have hnn := mul_nonneg (hdec i) (hBS i).1
      rw [fl_grid (e i).1 (by linarith [(e i).2, h.size i, (hBS i).2]) hR, Option.bind_some,
        fl_grid (e2 i).1 ((e2 i).2.trans (h.size i)) hR]
    | zero =>
      have : R = fun i => M i * (1 - sp i) := by simp [hRdef, SnnCell.resetMem, SnnF32.exact, hr]
      have e : ∀ i, OnGrid F (M i * (1 - sp i)) ∧ |M i * (1 - sp i)| ≤ decay c i * S i + B i + |c.threshold i| := fun i => by
        rcases hspv i with h0 | h1
        · rw [h0, sub_zero, mul_one]; exact ⟨(hM2 i).1, by linarith [(hM2 i).2, abs_nonneg (c.threshold i)]⟩
        · rw [h1, sub_self, mul_zero]
          exact ⟨onGrid_zero F, by rw [abs_zero]; linarith [mul_nonneg (hdec i) (hBS i).1, (hBS i).2, abs_nonneg (c.threshold i)]⟩
      rw [this]
      refine ⟨?_, e⟩
      simp only [SnnF32.resetMem, hr]
      refine allFinite_some _ _ fun i => ?_
      have e1 : fl (1 - sp i) = some (1 - sp i) := by
        rcases hspv i with h0 | h1
        · rw [h0, sub_zero]; exact fl_one_near (by norm_num)
        · rw [h1, sub_self]; exact fl_isF32 isF32_zero
      rw [e1, Option.bind_some, fl_grid (e i).1 ((e i).2.trans (h.size i)) hR]
  have hsqv : optQF32 c.sq R = some (optQ c.exact.sq R) := by
    cases hq : c.sq with
    | none => simp [optQF32, SnnF32.exact, hq, optQ]
    | some q =>
      simp only [optQF32, SnnF32.exact, hq, Option.map_some, optQ]
      exact allFinite_some _ _ fun i => C89_quantizer_grid_partial _ _ _ _ (hsq q hq i) (hres.2 i).1 (hres.2 i).2
  refine ⟨?_, hmem.2, fun i => (hres.2 i).1⟩
  unfold SnnF32.step
  rw [hmem.1, Option.bind_some, hfire, Option.bind_some]
  dsimp only
  rw [hoq, Option.bind_some, hres.1, Option.bind_some, hsqv, Option.bind_some]
  simp only [SnnCell.step, ← hM, ← hsp, hout, ← hRdef]

/-- **C100**, sequences with a state quantizer: if the sums fit into 24 bits and the quantizers are exact, the whole sequence, of any length,
is computed in float32 exactly as in exact arithmetic — outputs and final state; integrate-and-fire and leaky cells, all reset mechanisms, with
or without inhibition and input/output quantizers, fused multiply-add or not. -/
theorem C100_sequence_quantized {n : ℕ} (c : SnnF32 n) (arctan : F32Ext → ℚ) (soft : ℚ → ℚ) (hg : GradOk arctan c.grad) (F : ℤ)
    (B : Fin (n + 1) → ℚ) (q : Fin (n + 1) → QSpec) (hq : c.sq = some q) (hro : ∀ i, (q i).roundOnly = false)
    (h : CellOk c F (fun i => (q i).f) (fun i => 2 ^ (q i).i) B)
    (hqok : ∀ i, GridOk (q i) F (decay c i * 2 ^ (q i).i + B i + |c.threshold i|))
    (xs : List (Fin (n + 1) → ℚ)) (hxs : ∀ x ∈ xs, InOk c F B x)
    (s : Fin (n + 1) → ℚ) (hs : ∀ i, OnGrid (q i).f (s i) ∧ |s i| ≤ 2 ^ (q i).i) :
    c.run arctan xs s = some (rnnFold (c.exact.step soft) xs s) := by
  induction xs generalizing s with
  | nil => rfl
  | cons x xs ih =>
    obtain ⟨h1, -, -⟩ := snn_step_exact c arctan soft hg F _ _ B h x s (hxs x (by simp)) hs
      (fun q' hq' i => by rw [hq] at hq'; obtain rfl := Option.some.inj hq'; exact hqok i)
    have hnew : ∀ i, OnGrid (q i).f ((c.exact.step soft x s).2 i) ∧ |(c.exact.step soft x s).2 i| ≤ 2 ^ (q i).i := fun i => by
      have : c.exact.sq = some fun i => (q i).exact := by simp [SnnF32.exact, hq]
      simp only [SnnCell.step, this, optQ]
      exact stateless_bounds (q i) _ (hro i)
    simp only [SnnF32.run, h1, Option.bind_some, ih (fun y hy => hxs y (by simp [hy])) _ hnew, rnnFold]

/-- **C100**, integrate-and-fire layers without state quantizer: up to `T` steps, as long as `T` inputs and a threshold (not negative, if it is
subtracted) fit into 24 bits. -/
theorem C100_sequence_integrate {n : ℕ} (c : SnnF32 n) (arctan : F32Ext → ℚ) (soft : ℚ → ℚ) (hg : GradOk arctan c.grad) (F : ℤ)
    (B S : Fin (n + 1) → ℚ) (hsq : c.sq = none) (hbeta : c.beta = none) (T : ℕ)
    (h : CellOk c F (fun _ => F) (fun i => S i + T * B i) B) (hthr : c.reset = .subtract → ∀ i, 0 ≤ c.threshold i)
    (xs : List (Fin (n + 1) → ℚ)) (hT : xs.length ≤ T) (hxs : ∀ x ∈ xs, InOk c F B x)
    (s : Fin (n + 1) → ℚ) (hs : ∀ i, OnGrid F (s i) ∧ |s i| ≤ S i) :
    c.run arctan xs s = some (rnnFold (c.exact.step soft) xs s) := by
  have inv : ∀ (xs : List (Fin (n + 1) → ℚ)) (t : ℕ) (s : Fin (n + 1) → ℚ), t + xs.length ≤ T → (∀ x ∈ xs, InOk c F B x) →
      (∀ i, OnGrid F (s i) ∧ |s i| ≤ S i + t * B i) → c.run arctan xs s = some (rnnFold (c.exact.step soft) xs s) := by
    intro xs
    induction xs with
    | nil => intro t s _ _ _; rfl
    | cons x xs ih =>
      intro t s hlen hxs hs
      simp only [List.length_cons] at hlen
      have hx := hxs x (by simp)
      have hB : ∀ i, 0 ≤ B i := fun i => by
        have := hx i
        cases hq : c.iq with
        | none => simp only [hq] at this; exact (abs_nonneg _).trans this.2
        | some q => simp only [hq] at this; exact (zpow2_pos _).le.trans this.2.2.2
      have hd : ∀ i, decay c i = 1 := fun i => by simp [decay, hbeta]
      have htT : (t : ℚ) + 1 ≤ T := by exact_mod_cast (by omega : t + 1 ≤ T)
      have h' : CellOk c F (fun _ => F) (fun i => S i + t * B i) B :=
        { range := h.range, thr := h.thr, factor := h.factor, out := h.out, frac := h.frac
          size := fun i => by
            refine le_trans ?_ (h.size i)
            rw [hd, one_mul, one_mul]
            have := mul_le_mul_of_nonneg_right (show (t : ℚ) ≤ T by linarith) (hB i)
            linarith }
      obtain ⟨h1, h2, h3⟩ := snn_step_exact c arctan soft hg F _ _ B h' x s hx hs (fun q hq => by rw [hsq] at hq; simp at hq)
      have hnew : ∀ i, OnGrid F ((c.exact.step soft x s).2 i) ∧ |(c.exact.step soft x s).2 i| ≤ S i + (t + 1 : ℕ) * B i := fun i => by
        have e : (c.exact.step soft x s).2 = c.exact.resetMem (c.exact.integrate x s) (c.exact.fire soft (c.exact.integrate x s)).2 := by
          simp [SnnCell.step, SnnF32.exact, hsq, optQ]
        rw [e]
        refine ⟨h3 i, ?_⟩
        have hm := (h2 i).2
        rw [hd, one_mul] at hm
        have hm' : |c.exact.integrate x s i| ≤ S i + (t + 1 : ℕ) * B i := hm.trans (by push_cast; linarith)
        rw [(C46_spike_reset c.exact soft (c.exact.integrate x s)).2.1 i]
        split
        · rename_i hF
          have hlt := hF.1
          cases hr : c.exact.reset
          · have ht := hthr hr i
            have hcth : c.exact.threshold i = c.threshold i := rfl
            rw [hcth] at hlt
            dsimp only
            rw [hcth, abs_of_nonneg (by linarith)]
            rw [abs_of_nonneg (by linarith)] at hm'
            linarith
          · dsimp only; rw [abs_zero]; exact (abs_nonneg _).trans hm'
          · exact hm'
        · exact hm'
      simp only [SnnF32.run, h1, Option.bind_some, ih (t + 1) _ (by omega) (fun y hy => hxs y (by simp [hy])) hnew, rnnFold]
  exact inv xs 0 s (by omega) hxs (fun i => by simpa using hs i)


/-- **C100** with **C47**: the hardware replay, which computes with exact fixed-point numbers, reproduces the float32 sequence. -/
theorem C100_replay {n : ℕ} (c : SnnF32 n) (arctan : F32Ext → ℚ) (soft : ℚ → ℚ) (o : RnnOpts) (xs : List (Fin (n + 1) → ℚ))
    (s : Fin (n + 1) → ℚ)
    (h : c.run arctan (if o.goBackwards then xs.reverse else xs) s =
      some (rnnFold (c.exact.step soft) (if o.goBackwards then xs.reverse else xs) s)) :
    ∃ outs last, c.run arctan (if o.goBackwards then xs.reverse else xs) s = some (outs, last) ∧
      replayRnn (replaySnnStep c.exact) o s xs =
        ⟨if o.returnSequences then .inl outs else .inr outs.getLast?, if o.returnState then some last else none⟩ := by
  refine ⟨_, _, h, ?_⟩
  rw [C47_snn_replay c.exact soft]
  rfl

/-- A leaky two-unit cell with inhibition: decay 3/4, inputs of 3 integer and 2 fractional bits, states of 4 and 4. -/
def exSnnF32 : SnnF32 1 where
  threshold := fun _ => 3 / 2
  factor := fun i => if i = 0 then 3 else 5 / 2
  inhibition := true
  reset := .subtract
  beta := some fun _ => 3 / 4
  iq := some fun _ => ⟨.RND, .SAT, true, 3, 2, false⟩
  oq := some fun _ => ⟨.TRN, .SAT, true, 3, 2, false⟩
  sq := some fun _ => ⟨.TRN, .SAT, true, 4, 4, false⟩
  grad := .atan 2
  fused := true

/-- The hypotheses of `C100_sequence_quantized` hold for it (inputs 13/8 and 3). -/
example : CellOk exSnnF32 6 (fun _ => 4) (fun _ => 2 ^ (4 : ℤ)) (fun _ => 8) ∧
    (∀ i, GridOk ⟨.TRN, .SAT, true, 4, 4, false⟩ 6 (decay exSnnF32 i * 2 ^ (4 : ℤ) + 8 + |exSnnF32.threshold i|)) ∧
    InOk exSnnF32 6 (fun _ => 8) (fun i => if i = 0 then 13 / 8 else 3) := by
  have f : ∀ (m : ℤ) (k : ℕ) (v : ℚ), |m| < 2 ^ 24 → k ≤ 149 → v = (m : ℚ) / 2 ^ k → IsF32 v := fun m k v h1 h2 h3 => h3 ▸ isF32_frac m k h1 h2
  refine ⟨⟨by norm_num, fun i => ⟨96, by norm_num [exSnnF32]⟩, fun i => ?_, fun q hq i => ?_, fun i => ?_, fun i => ?_⟩, fun i => ?_, fun i => ?_⟩
  · fin_cases i
    · exact f 3 0 _ (by norm_num) (by norm_num) (by simp [exSnnF32])
    · exact f 5 1 _ (by norm_num) (by norm_num) (by simp [exSnnF32])
  · obtain rfl := Option.some.inj hq
    fin_cases i
    · exact ⟨f 3 0 _ (by norm_num) (by norm_num) (by simp [exSnnF32]), f 12 0 _ (by norm_num) (by norm_num) (by simp [exSnnF32]; norm_num),
        by simp [exSnnF32]; norm_num, by simp, by norm_num, by norm_num⟩
    · exact ⟨f 5 1 _ (by norm_num) (by norm_num) (by simp [exSnnF32]), f 10 0 _ (by norm_num) (by norm_num) (by simp [exSnnF32]; norm_num),
        by simp [exSnnF32]; norm_num, by simp, by norm_num, by norm_num⟩
  · exact ⟨2, ⟨3, by norm_num [exSnnF32]⟩, by norm_num⟩
  · norm_num [decay, exSnnF32, abs_of_pos]
  · exact ⟨by norm_num [decay, exSnnF32, abs_of_pos], by norm_num, by norm_num, by norm_num⟩
  · fin_cases i
    · refine ⟨rfl, ⟨f 13 3 _ (by norm_num) (by norm_num) (by simp; norm_num), f 13 1 _ (by norm_num) (by norm_num) (by simp; norm_num),
        by simp; norm_num, by simp; norm_num, by norm_num, by norm_num⟩, by norm_num, by norm_num⟩
    · refine ⟨rfl, ⟨f 3 0 _ (by norm_num) (by norm_num) (by simp), f 12 0 _ (by norm_num) (by norm_num) (by simp; norm_num),
        by simp; norm_num, by simp; norm_num, by norm_num, by norm_num⟩, by norm_num, by norm_num⟩

/-- An integrate-and-fire neuron without quantizers and with a high threshold. -/
def exBigSnn : SnnF32 0 where
  threshold := fun _ => 33554432
  factor := fun _ => 1
  inhibition := false
  reset := .subtract
  beta := none
  iq := none
  oq := none
  sq := none
  grad := .bypass
  fused := false

/-- The hypotheses of `C100_sequence_integrate` hold for a thousand inputs of 7/2 and threshold 1. -/
example : CellOk { exBigSnn with threshold := fun _ => 1 } 1 (fun _ => 1) (fun _ => 0 + (1000 : ℕ) * (7 / 2)) (fun _ => 7 / 2) ∧
    InOk { exBigSnn with threshold := fun _ => 1 } 1 (fun _ => 7 / 2) (fun _ => 7 / 2) ∧
    GradOk (fun _ => 0) exBigSnn.grad := by
  refine ⟨⟨by norm_num, fun i => ⟨2, by norm_num⟩, fun i => ?_, fun q hq => by simp [exBigSnn] at hq, fun i => ?_, fun i => ?_⟩, fun i => ?_, ?_⟩
  · simpa [exBigSnn] using isF32_frac 1 0 (by norm_num) (by norm_num)
  · simp [exBigSnn]
  · norm_num [decay, exBigSnn]
  · exact ⟨⟨7, by norm_num⟩, by norm_num [abs_of_pos]⟩
  · trivial

/-- **C100 violated** beyond 24 bits: once the membrane value of an integrate-and-fire neuron has reached `2^24`, inputs of 1 are lost in
float32: the neuron stays there and never fires, however long the sequence, while in exact arithmetic it reaches its threshold of `2^25` and
fires. -/
theorem C100_24bits_violated (arctan : F32Ext → ℚ) :
    (∀ T : ℕ, exBigSnn.run arctan (List.replicate T fun _ => 1) (fun _ => 16777216) =
      some (List.replicate T fun _ => 0, fun _ => 16777216)) ∧
    ∀ soft T, 16777217 ≤ T → ∃ o ∈ (rnnFold (exBigSnn.exact.step soft) (List.replicate T fun _ => 1) (fun _ => 16777216)).1, o 0 = 1 := by
  constructor
  · have hstep : exBigSnn.step arctan (fun _ => 1) (fun _ => 16777216) = some (fun _ => 0, fun _ => 16777216) := by
      have e1 : fl ((16777216 : ℚ) + 1) = some 16777216 := by decide +kernel
      have e2 : fl ((16777216 : ℚ) - 33554432) = some (-16777216) := by decide +kernel
      have e3 : fl ((0 : ℚ) * 1) = some 0 := by decide +kernel
      have e4 : fl ((0 : ℚ) * 33554432) = some 0 := by decide +kernel
      have e5 : fl ((16777216 : ℚ) - 0) = some 16777216 := by decide +kernel
      unfold SnnF32.step SnnF32.integrate SnnF32.fire SnnF32.resetMem
      simp only [exBigSnn, optQF32, Option.bind_some]
      rw [allFinite_some _ (fun _ => 16777216) (fun _ => e1), Option.bind_some, allFinite_some _ (fun _ => -16777216) (fun _ => e2),
        Option.bind_some, allFinite_some _ (fun _ => 0) (fun _ => by simp [SpikeGrad.run])]
      simp only [Option.bind_some, Bool.false_eq_true, if_false]
      rw [allFinite_some _ (fun _ => 0) (fun _ => e3), Option.bind_some, Option.bind_some]
      dsimp only
      rw [e4, Option.bind_some, allFinite_some _ (fun _ => 16777216) (fun _ => e5)]
      rfl
    intro T
    induction T with
    | zero => rfl
    | succ T ih => simp only [List.replicate_succ, SnnF32.run, hstep, Option.bind_some, ih]
  · intro soft T hT
    -- before it fires the state counts the inputs
    have key : ∀ d : ℕ, ∀ T : ℕ, d + 1 ≤ T →
        ∃ o ∈ (rnnFold (exBigSnn.exact.step soft) (List.replicate T fun _ => 1) (fun _ => 33554432 - (d : ℚ))).1, o 0 = 1 := by
      intro d
      induction d with
      | zero =>
        intro T hT
        obtain ⟨T, rfl⟩ : ∃ k, T = k + 1 := ⟨T - 1, by omega⟩
        refine ⟨_, by simp only [List.replicate_succ, rnnFold]; exact List.mem_cons_self, ?_⟩
        simp [SnnCell.step, SnnCell.fire, SnnCell.integrate, SnnF32.exact, exBigSnn, optQ, spikeFn_eq]
      | succ d ih =>
        intro T hT
        obtain ⟨T, rfl⟩ : ∃ k, T = k + 1 := ⟨T - 1, by omega⟩
        obtain ⟨o, ho, h1⟩ := ih T (by omega)
        refine ⟨o, ?_, h1⟩
        simp only [List.replicate_succ, rnnFold]
        refine List.mem_cons_of_mem _ ?_
        have : (exBigSnn.exact.step soft (fun _ => 1) fun _ => 33554432 - ((d + 1 : ℕ) : ℚ)).2 = fun _ => 33554432 - (d : ℚ) := by
          have hd : ¬ (0 < (33554432 : ℚ) - (d + 1) + 1 - 33554432) := by
            have : (0 : ℚ) ≤ d := by positivity
            linarith
          funext i
          simp [SnnCell.step, SnnCell.fire, SnnCell.integrate, SnnCell.resetMem, SnnF32.exact, exBigSnn, optQ, spikeFn_eq, hd]
          ring
        rw [this]; exact ho
    have := key 16777216 T (by omega)
    norm_num at this ⊢
    exact this

end HGQ
