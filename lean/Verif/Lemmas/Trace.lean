import Verif.Model.Trace
import Verif.Lemmas.FixedPoint
import Mathlib.Tactic.Linarith
import Mathlib.Tactic.Positivity
import Mathlib.Tactic.Push
import Mathlib.Tactic.Ring
import Mathlib.Tactic.FieldSimp

/-! # Helper lemmas on calibration -/
namespace HGQ

theorem absmax_nonneg (xs : List ℚ) : 0 ≤ absmax xs := by
  induction xs with
  | nil => simp [absmax]
  | cons x xs ih => simp only [absmax, List.foldr_cons] at *; exact le_max_of_le_left (abs_nonneg x)

theorem le_absmax {xs : List ℚ} {x : ℚ} (h : x ∈ xs) : |x| ≤ absmax xs := by
  induction xs with
  | nil => simp at h
  | cons y xs ih =>
    simp only [absmax, List.foldr_cons] at *
    rcases List.mem_cons.1 h with rfl | h
    · exact le_max_left _ _
    · exact le_max_of_le_right (ih h)

theorem absmax_mem {xs : List ℚ} (h : xs ≠ []) : ∃ x ∈ xs, |x| = absmax xs := by
  induction xs with
  | nil => simp at h
  | cons y xs ih =>
    by_cases hx : xs = []
    · subst hx; exact ⟨y, by simp, by simp [absmax]⟩
    · obtain ⟨x, hx1, hx2⟩ := ih hx
      simp only [absmax, List.foldr_cons] at *
      rcases le_total |y| |x| with hle | hle
      · exact ⟨x, by simp [hx1], by rw [← hx2, max_eq_right hle]⟩
      · exact ⟨y, by simp, by rw [← hx2, max_eq_left hle]⟩

theorem anyNeg_iff (xs : List ℚ) : anyNeg xs = true ↔ ∃ x ∈ xs, x < 0 := by
  simp [anyNeg]

/-- Integer bits needed to represent the magnitude `m` at `f` fractional bits. -/
def need (f : ℤ) (m : ℚ) : ℤ := Int.clog 2 (m + 2 ^ (-f))

theorem clog_le_iff {r : ℚ} (hr : 0 < r) (n : ℤ) : Int.clog 2 r ≤ n ↔ r ≤ 2 ^ n := by
  have := Int.le_zpow_iff_clog_le (b := 2) (by norm_num) hr (x := n)
  simpa using this.symm

theorem need_le_iff {f : ℤ} {m : ℚ} (hm : 0 ≤ m) (n : ℤ) : need f m ≤ n ↔ m ≤ 2 ^ n - 2 ^ (-f) := by
  unfold need
  rw [clog_le_iff (by have := two_zpow_pos (-f); linarith)]
  constructor <;> intro h <;> linarith

theorem need_ge {f : ℤ} {m : ℚ} (hm : 0 ≤ m) : -f ≤ need f m := by
  by_contra hlt
  push Not at hlt
  have h1 : need f m ≤ -f - 1 := by omega
  rw [need_le_iff hm] at h1
  have : (2 : ℚ) ^ (-f - 1) ≤ 2 ^ (-f) := zpow_le_zpow_right₀ (by norm_num) (by omega)
  have h0 : m ≤ 0 := by linarith
  have h2 : (2 : ℚ) ^ (-f) = 2 * 2 ^ (-f - 1) := by
    rw [show -f = (-f - 1) + 1 by ring, zpow_add₀ (by norm_num)]; simp; ring
  have := two_zpow_pos (-f - 1)
  linarith

theorem need_mono {f : ℤ} {m m' : ℚ} (hm : 0 ≤ m) (h : m ≤ m') : need f m ≤ need f m' := by
  rw [need_le_iff hm]
  exact h.trans ((need_le_iff (hm.trans h) _).1 le_rfl)

theorem Constraint.apply_mono (c : Constraint) {a b : ℚ} (h : a ≤ b) : c.apply a ≤ c.apply b := by
  cases c <;> simp only [Constraint.apply]
  · exact min_le_min_right _ (max_le_max_right _ h)
  · exact le_rfl
  · exact max_le_max_right _ h
  · exact min_le_min_right _ h

theorem applyC_mono (c : Option Constraint) {a b : ℚ} (h : a ≤ b) : applyC c a ≤ applyC c b := by
  cases c with
  | none => exact h
  | some c => exact c.apply_mono h

theorem roundHalfEven_max (a b : ℚ) : roundHalfEven (max a b) = max (roundHalfEven a) (roundHalfEven b) := by
  rcases le_total a b with h | h
  · rw [max_eq_right h, max_eq_right (roundHalfEven_mono h)]
  · rw [max_eq_left h, max_eq_left (roundHalfEven_mono h)]

/-- Integer bits the calibration gives to a magnitude `m`, after the constraint. -/
def cneed (ic : Option Constraint) (f : ℤ) (m : ℚ) : ℤ := roundHalfEven (applyC ic (need f m))

theorem cneed_mono (ic) {f : ℤ} {m m' : ℚ} (hm : 0 ≤ m) (h : m ≤ m') : cneed ic f m ≤ cneed ic f m' :=
  roundHalfEven_mono (applyC_mono ic (by exact_mod_cast need_mono hm h))

section KIF
variable {q : QOpts} (hom : q.om = .WRAP) (htr : q.trainable = true)
include hom htr

theorem kifCall_tracing (s : KIFState) (xs : List ℚ) :
    kifCall q s .tracing xs =
      ({ s with k := s.k || anyNeg (xs.map (roundAt q.rm s.f)),
                iw := max (s.i : ℚ) (applyC q.ic (need s.f (absmax (xs.map (roundAt q.rm s.f))))) },
        xs.map (roundAt q.rm s.f)) := by
  have h0 : absmax (xs.map (roundAt q.rm s.f)) ≥ 0 := absmax_nonneg _
  simp [kifCall, hom, htr, Flag.truthy, Flag.eqTracing, minimalIXf, QOpts.symmetric, need, ceilLog2, h0]

theorem kifCall_tracing_i (s : KIFState) (xs : List ℚ) :
    (kifCall q s .tracing xs).1.i = max s.i (cneed q.ic s.f (absmax (xs.map (roundAt q.rm s.f)))) := by
  rw [kifCall_tracing hom htr]
  simp only [KIFState.i, roundHalfEven_max, cneed, roundHalfEven_int]

theorem kifCall_tracing_f (s : KIFState) (xs : List ℚ) :
    (kifCall q s .tracing xs).1.fw = s.fw := by
  rw [kifCall_tracing hom htr]

theorem kifTrace_fw (s : KIFState) (bs : List (List ℚ)) : (kifTrace q s bs).fw = s.fw := by
  induction bs generalizing s with
  | nil => rfl
  | cons b bs ih =>
    simp only [kifTrace, List.foldl_cons] at *
    rw [ih, kifCall_tracing_f hom htr]

theorem kifTrace_f (s : KIFState) (bs : List (List ℚ)) : (kifTrace q s bs).f = s.f := by
  simp only [KIFState.f, kifTrace_fw hom htr]

theorem kifTrace_i_le_iff (s : KIFState) (bs : List (List ℚ)) (n : ℤ) :
    (kifTrace q s bs).i ≤ n ↔
      s.i ≤ n ∧ ∀ b ∈ bs, cneed q.ic s.f (absmax (b.map (roundAt q.rm s.f))) ≤ n := by
  induction bs generalizing s with
  | nil => simp [kifTrace]
  | cons b bs ih =>
    have hf : (kifCall q s .tracing b).1.f = s.f := by simp only [KIFState.f, kifCall_tracing_f hom htr]
    simp only [kifTrace, List.foldl_cons] at *
    rw [ih, kifCall_tracing_i hom htr, hf]
    simp only [max_le_iff, List.forall_mem_cons]
    tauto

theorem kifTrace_k (s : KIFState) (bs : List (List ℚ)) :
    (kifTrace q s bs).k = true ↔ s.k = true ∨ ∃ b ∈ bs, ∃ x ∈ b, roundAt q.rm s.f x < 0 := by
  induction bs generalizing s with
  | nil => simp [kifTrace]
  | cons b bs ih =>
    have hf : (kifCall q s .tracing b).1.f = s.f := by simp only [KIFState.f, kifCall_tracing_f hom htr]
    have hk : (kifCall q s .tracing b).1.k = (s.k || anyNeg (b.map (roundAt q.rm s.f))) := by
      rw [kifCall_tracing hom htr]
    simp only [kifTrace, List.foldl_cons] at *
    rw [ih, hf, hk, Bool.or_eq_true, anyNeg_iff]
    simp only [List.mem_map, List.exists_mem_cons_iff]
    simp only [exists_exists_and_eq_and]
    rw [or_assoc]

theorem kifReset_eq (s : KIFState) : kifReset q s = { s with k := false, iw := -1000000000 } := by
  simp [kifReset, hom, htr]

end KIF

/-- If the cell covers the rounded value, inference returns it unchanged. -/
theorem quantize_of_cover {rm : RoundMode} {k : Bool} {i f : ℤ} {x : ℚ}
    (hm : |roundAt rm f x| ≤ 2 ^ i - 2 ^ (-f)) (hk : roundAt rm f x < 0 → k = true) :
    quantize rm .WRAP k i f x = roundAt rm f x := by
  have hp := two_zpow_pos (-f)
  have hif : 0 ≤ i + f := by
    by_contra h
    have : (2 : ℚ) ^ i < 2 ^ (-f) := zpow_lt_zpow_right₀ (by norm_num) (by omega)
    have := abs_nonneg (roundAt rm f x)
    linarith
  rw [zpow_eq_steps hif] at hm
  set m := roundMant rm (x * 2 ^ f) with hmdef
  have hr : roundAt rm f x = (m : ℚ) * 2 ^ (-f) := rfl
  rw [hr, abs_mul, abs_of_pos hp, show (steps i f : ℚ) * 2 ^ (-f) - 2 ^ (-f) = (steps i f - 1) * 2 ^ (-f) by ring,
    mul_le_mul_iff_of_pos_right hp] at hm
  have hm' : |m| ≤ steps i f - 1 := by exact_mod_cast hm
  have hneg : m < 0 → k = true := by
    intro h; apply hk; rw [hr]
    exact mul_neg_of_neg_of_pos (by exact_mod_cast h) hp
  by_cases hw : 0 < kz k + i + f
  · rw [quantize_mant hw, ← hmdef, ovMant_id, hr]
    · cases k
      · simp only [loMant, kz]; have := hneg; simp at this ⊢; exact this
      · simp only [loMant, kz]; have := (abs_le.1 hm').1; simp; omega
    · exact (abs_le.1 hm').2
  · have hif0 : i + f = 0 := by have := kz_nonneg k; omega
    have hs : steps i f = 1 := by simp [steps, hif0]
    have : m = 0 := by rw [hs] at hm'; simpa using hm'
    simp only [quantize, baseCall, hw, if_false, Bool.false_eq_true]
    rw [hr, this]; simp

/-! ## KBI -/

theorem roundAt_neg_iff (rm : RoundMode) (f : ℤ) (x : ℚ) : roundAt rm f x < 0 ↔ roundMant rm (x * 2 ^ f) < 0 := by
  have hp := two_zpow_pos (-f)
  unfold roundAt
  constructor
  · intro h
    by_contra h'
    push Not at h'
    have : (0 : ℚ) ≤ roundMant rm (x * 2 ^ f) := by exact_mod_cast h'
    have := mul_nonneg this hp.le
    linarith
  · intro h
    exact mul_neg_of_neg_of_pos (by exact_mod_cast h) hp

theorem roundMant_neg_scale (rm : RoundMode) {y c : ℚ} (hc : 1 ≤ c) (h : roundMant rm y < 0) :
    roundMant rm (y * c) < 0 := by
  have hy : y < 0 := by
    by_contra h'
    push Not at h'
    have := roundMant_mono rm h'
    have h0 : roundMant rm (0 : ℚ) = 0 := by simpa using roundMant_int rm 0
    omega
  have : y * c ≤ y := by nlinarith
  exact lt_of_le_of_lt (roundMant_mono rm this) h

theorem roundAt_neg_mono (rm : RoundMode) {f f' : ℤ} (hf : f ≤ f') {x : ℚ} (h : roundAt rm f x < 0) :
    roundAt rm f' x < 0 := by
  rw [roundAt_neg_iff] at *
  have h1 : x * 2 ^ f' = (x * 2 ^ f) * 2 ^ (f' - f) := by
    rw [mul_assoc, ← zpow_add₀ (by norm_num)]; congr 2; ring
  rw [h1]
  exact roundMant_neg_scale rm (one_le_zpow₀ (by norm_num) (by omega)) h

/-- Integer bits KBI calibration asks for. -/
def needB (b : ℤ) (m : ℚ) : ℤ := Int.clog 2 ((m + kerasEps) / (1 - 2 ^ (-b) + kerasEps))

theorem needB_den_pos {b : ℤ} (hb : 0 ≤ b) : (0 : ℚ) < 1 - 2 ^ (-b) + kerasEps := by
  have : (2 : ℚ) ^ (-b) ≤ 1 := zpow_le_one_of_nonpos₀ (by norm_num) (by omega)
  have : (0 : ℚ) < kerasEps := by norm_num [kerasEps]
  linarith

theorem needB_le_iff {b : ℤ} (hb : 0 ≤ b) {m : ℚ} (hm : 0 ≤ m) (n : ℤ) :
    needB b m ≤ n ↔ m + kerasEps ≤ 2 ^ n * (1 - 2 ^ (-b) + kerasEps) := by
  have hd := needB_den_pos hb
  have he : (0 : ℚ) < kerasEps := by norm_num [kerasEps]
  unfold needB
  rw [clog_le_iff (by positivity), div_le_iff₀ hd]

section KBI
variable {q : QOpts} (hom : q.om = .WRAP) (htr : q.trainable = true)
include hom htr

theorem kbiCall_tracing (s : KBIState) (hb : 0 < s.b) (hic : q.ic = none) (xs : List ℚ) :
    (kbiCall q s .tracing xs).1 =
      { s with k := s.k || anyNeg (xs.map (roundAt q.rm (s.b - max s.i (needB s.b (absmax xs))))),
               iw := ((max s.i (needB s.b (absmax xs)) : ℤ) : ℚ) } := by
  have h0 : absmax xs ≥ 0 := absmax_nonneg _
  have h1 : roundHalfEven (max (s.i : ℚ) (needB s.b (absmax xs) : ℚ)) = max s.i (needB s.b (absmax xs)) := by
    rw [roundHalfEven_max, roundHalfEven_int, roundHalfEven_int]
  have h2 : minimalIXb (absmax xs) s.b q.symmetric = needB s.b (absmax xs) := by
    simp [minimalIXb, QOpts.symmetric, hom, hb, h0, needB, ceilLog2]
  simp only [kbiCall, hom, htr, Flag.truthy, Flag.eqTracing, hic, applyC, h2, h1]
  simp [hb]

/-- `x` is covered by the state `s`. -/
def KBICovers (q : QOpts) (s : KBIState) (x : ℚ) : Prop :=
  |x| + kerasEps ≤ 2 ^ s.i * (1 - 2 ^ (-s.b) + kerasEps) ∧ (roundAt q.rm (s.b - s.i) x < 0 → s.k = true)

theorem kbiCall_tracing_props (s : KBIState) (hb : 0 < s.b) (hic : q.ic = none) (xs : List ℚ) :
    (kbiCall q s .tracing xs).1.bw = s.bw ∧
    (∀ x, KBICovers q s x → KBICovers q (kbiCall q s .tracing xs).1 x) ∧
    (∀ x ∈ xs, KBICovers q (kbiCall q s .tracing xs).1 x) := by
  rw [kbiCall_tracing hom htr s hb hic]
  have hd := needB_den_pos hb.le
  set N := max s.i (needB s.b (absmax xs)) with hN
  refine ⟨rfl, ?_, ?_⟩
  · rintro x ⟨h1, h2⟩
    unfold KBICovers
    simp only [KBIState.i, KBIState.b, roundHalfEven_int] at *
    refine ⟨h1.trans (mul_le_mul_of_nonneg_right (zpow_le_zpow_right₀ (by norm_num) (le_max_left _ _)) hd.le), ?_⟩
    intro h
    have := h2 (roundAt_neg_mono _ (by have := le_max_left (roundHalfEven s.iw) (needB (roundHalfEven s.bw) (absmax xs)); omega) h)
    simp [this]
  · intro x hx
    unfold KBICovers
    simp only [KBIState.i, KBIState.b, roundHalfEven_int] at *
    constructor
    · have h3 := (needB_le_iff hb.le (absmax_nonneg xs) N).1 (le_max_right _ _)
      have := le_absmax hx
      linarith
    · intro h
      have : anyNeg (xs.map (roundAt q.rm (roundHalfEven s.bw - N))) = true := by
        rw [anyNeg_iff]; exact ⟨_, List.mem_map_of_mem hx, h⟩
      simp [this]

theorem kbiTrace_props (s : KBIState) (hb : 0 < s.b) (hic : q.ic = none) (bs : List (List ℚ)) :
    (kbiTrace q s bs).bw = s.bw ∧
    (∀ x, KBICovers q s x → KBICovers q (kbiTrace q s bs) x) ∧
    (∀ b ∈ bs, ∀ x ∈ b, KBICovers q (kbiTrace q s bs) x) := by
  induction bs generalizing s with
  | nil => simp [kbiTrace]
  | cons b bs ih =>
    obtain ⟨h1, h2, h3⟩ := kbiCall_tracing_props hom htr s hb hic b
    have hb' : 0 < (kbiCall q s .tracing b).1.b := by simpa [KBIState.b, h1] using hb
    obtain ⟨g1, g2, g3⟩ := ih _ hb'
    simp only [kbiTrace, List.foldl_cons] at *
    refine ⟨g1.trans h1, fun x hx => g2 x (h2 x hx), ?_⟩
    intro c hc x hx
    rcases List.mem_cons.1 hc with rfl | hc
    · exact g2 x (h3 x hx)
    · exact g3 c hc x hx

omit hom htr in
theorem quantize_of_KBICovers {q : QOpts} {s : KBIState} (hb : 0 < s.b) (hb' : s.b ≤ 22) {x : ℚ}
    (h : KBICovers q s x) : quantize q.rm .WRAP s.k s.i (s.b - s.i) x = roundAt q.rm (s.b - s.i) x := by
  obtain ⟨h1, h2⟩ := h
  set i := s.i
  set b := s.b
  have hp := two_zpow_pos (b - i)
  have hP := two_zpow_pos i
  have hB := two_zpow_pos b
  have he : kerasEps = 1 / 10000000 := rfl
  -- |x| * 2^(b-i) ≤ 2^b - 1 + eps * 2^b - ...
  have e1 : (2 : ℚ) ^ i * 2 ^ (b - i) = 2 ^ b := by rw [← zpow_add₀ (by norm_num)]; congr 1; ring
  have e2 : (2 : ℚ) ^ b * 2 ^ (-b) = 1 := zpow_mul_neg b
  have hB22 : (2 : ℚ) ^ b ≤ 4194304 := by
    calc (2 : ℚ) ^ b ≤ 2 ^ (22 : ℤ) := zpow_le_zpow_right₀ (by norm_num) hb'
      _ = 4194304 := by norm_num
  have h3 : |x| * 2 ^ (b - i) < 2 ^ b - 1 / 2 := by
    have := mul_le_mul_of_nonneg_right h1 hp.le
    have e3 : (2 : ℚ) ^ i * (1 - 2 ^ (-b) + kerasEps) * 2 ^ (b - i) = 2 ^ b - 1 + kerasEps * 2 ^ b := by
      calc (2 : ℚ) ^ i * (1 - 2 ^ (-b) + kerasEps) * 2 ^ (b - i)
          = (2 ^ i * 2 ^ (b - i)) * (1 - 2 ^ (-b) + kerasEps) := by ring
        _ = 2 ^ b - 2 ^ b * 2 ^ (-b) + kerasEps * 2 ^ b := by rw [e1]; ring
        _ = _ := by rw [e2]
    rw [e3] at this
    have h4 : (|x| + kerasEps) * 2 ^ (b - i) = |x| * 2 ^ (b - i) + kerasEps * 2 ^ (b - i) := by ring
    rw [h4, he] at this
    have : (0:ℚ) < 1 / 10000000 * 2 ^ (b - i) := by positivity
    linarith
  have hbN : (2 : ℚ) ^ b = ((steps i (b - i) : ℤ) : ℚ) := by
    unfold steps; push_cast
    rw [show i + (b - i) = b by ring, ← zpow_natCast, Int.toNat_of_nonneg hb.le]
  have hif : 0 ≤ i + (b - i) := by omega
  set m := roundMant q.rm (x * 2 ^ (b - i)) with hmdef
  have habs : |x * 2 ^ (b - i)| = |x| * 2 ^ (b - i) := by rw [abs_mul, abs_of_pos hp]
  have hx := abs_lt.1 (habs ▸ h3 : |x * 2 ^ (b - i)| < 2 ^ b - 1 / 2)
  have hup : m ≤ steps i (b - i) - 1 := by
    have h5 := roundMant_upper q.rm (x * 2 ^ (b - i))
    rw [← hmdef] at h5
    have : (m : ℚ) < steps i (b - i) := by rw [← hbN]; linarith [hx.2]
    have : m < steps i (b - i) := by exact_mod_cast this
    omega
  have hlo : -(steps i (b - i)) ≤ m := by
    have h5 := roundMant_lower q.rm (x * 2 ^ (b - i))
    rw [← hmdef] at h5
    have : (-(steps i (b - i) : ℤ) - 1 : ℚ) < m := by push_cast; rw [← hbN]; linarith [hx.1]
    have : -(steps i (b - i)) - 1 < m := by exact_mod_cast this
    omega
  have hw : 0 < kz s.k + i + (b - i) := by have := kz_nonneg s.k; omega
  rw [quantize_mant hw, ← hmdef, ovMant_id, roundAt]
  · cases hk : s.k
    · simp only [loMant, kz]
      by_contra hneg
      have : roundAt q.rm (b - i) x < 0 := (roundAt_neg_iff _ _ _).2 (by rw [← hmdef]; simpa using hneg)
      simp [h2 this] at hk
    · simp only [loMant, kz]; simpa using hlo
  · exact hup

end KBI
end HGQ
