import Verif.Model.Stochastic
import Verif.Props.Trace
import Verif.Props.FixedPoint
import Mathlib.MeasureTheory.Integral.IntervalIntegral.Basic

/-!
# C115: stochastic rounding
-/
namespace HGQ
open Spec

/-! ## Specification -/

/-- `v` is one of the two multiples of `2^-f` around `x` (`x` itself if it is one). -/
def Spec.IsNeighbour (f : ℤ) (x v : ℚ) : Prop := (∃ n : ℤ, v = n * 2 ^ (-f)) ∧ |v - x| < 2 ^ (-f)

section
variable {K : Type} [Field K] [LinearOrder K] [IsStrictOrderedRing K]

/-- A draw. -/
def Spec.IsDraw (u : K) : Prop := 0 ≤ u ∧ u < 1

/-! ## One value -/

omit [IsStrictOrderedRing K] in
theorem mantDraw_cases (u : K) (y : ℚ) : mantDraw u y = ⌊y⌋ ∨ mantDraw u y = ⌊y⌋ + 1 := by
  unfold mantDraw; split
  · exact Or.inr rfl
  · exact Or.inl rfl

theorem mantDraw_int {u : K} (hu : IsDraw u) (n : ℤ) : mantDraw u (n : ℚ) = n := by
  unfold mantDraw
  rw [Int.floor_intCast, if_neg]
  simpa using hu.1

theorem mantDraw_le {u : K} (hu : IsDraw u) {y : ℚ} {n : ℤ} (h : y ≤ n) : mantDraw u y ≤ n := by
  rcases h.eq_or_lt with rfl | h
  · rw [mantDraw_int hu]
  · have : ⌊y⌋ < n := Int.floor_lt.2 h
    rcases mantDraw_cases u y with e | e <;> omega

omit [IsStrictOrderedRing K] in
theorem le_mantDraw {u : K} {y : ℚ} {n : ℤ} (h : (n : ℚ) ≤ y) : n ≤ mantDraw u y := by
  have : n ≤ ⌊y⌋ := Int.le_floor.2 h
  rcases mantDraw_cases u y with e | e <;> omega

/-- **C115 (neighbours).** For every draw the result is one of the two representable neighbours, so an already representable value is never changed. -/
theorem C115_neighbours (f : ℤ) {u : K} (hu : IsDraw u) (x : ℚ) : IsNeighbour f x (roundDraw f u x) ∧ ((∃ n : ℤ, x = n * 2 ^ (-f)) → roundDraw f u x = x) := by
  have hP := two_zpow_pos (-f)
  have hx : x = (x * 2 ^ f) * 2 ^ (-f) := by rw [mul_assoc, zpow_mul_neg, mul_one]
  have key : |(mantDraw u (x * 2 ^ f) : ℚ) - x * 2 ^ f| < 1 := by
    have h1 := Int.floor_le (x * 2 ^ f)
    have h2 := Int.lt_floor_add_one (x * 2 ^ f)
    rcases mantDraw_cases u (x * 2 ^ f) with e | e
    · rw [e, abs_lt]; constructor <;> linarith
    · have h3 : (⌊x * 2 ^ f⌋ : ℚ) ≠ x * 2 ^ f := by
        intro h
        rw [← h, mantDraw_int hu, Int.floor_intCast] at e
        omega
      have h4 := lt_of_le_of_ne h1 h3
      rw [e, abs_lt]; push_cast; constructor <;> linarith
  refine ⟨⟨⟨_, rfl⟩, ?_⟩, ?_⟩
  · have : roundDraw f u x - x = ((mantDraw u (x * 2 ^ f) : ℚ) - x * 2 ^ f) * 2 ^ (-f) := by
      rw [sub_mul, ← hx]; rfl
    rw [this, abs_mul, abs_of_pos hP]
    nlinarith
  · rintro ⟨n, rfl⟩
    unfold roundDraw
    rw [mul_assoc, zpow_neg_mul, mul_one, mantDraw_int hu]

/-- Rounding does not leave an interval with representable ends. -/
theorem roundDraw_mem (f : ℤ) {u : K} (hu : IsDraw u) {x : ℚ} {m n : ℤ} (h1 : (m : ℚ) * 2 ^ (-f) ≤ x) (h2 : x ≤ (n : ℚ) * 2 ^ (-f)) :
    (m : ℚ) * 2 ^ (-f) ≤ roundDraw f u x ∧ roundDraw f u x ≤ (n : ℚ) * 2 ^ (-f) := by
  have hP := two_zpow_pos f
  have hN := two_zpow_pos (-f)
  have e1 : (m : ℚ) ≤ x * 2 ^ f := by
    have := mul_le_mul_of_nonneg_right h1 hP.le
    rwa [mul_assoc, zpow_neg_mul, mul_one] at this
  have e2 : x * 2 ^ f ≤ (n : ℚ) := by
    have := mul_le_mul_of_nonneg_right h2 hP.le
    rwa [mul_assoc, zpow_neg_mul, mul_one] at this
  exact ⟨mul_le_mul_of_nonneg_right (by exact_mod_cast le_mantDraw (u := u) e1) hN.le, mul_le_mul_of_nonneg_right (by exact_mod_cast mantDraw_le hu e2) hN.le⟩

end

/-- **C115 (unbiased).** Over uniform draws the mean of the result is the value itself. -/
theorem C115_unbiased (f : ℤ) (x : ℚ) : ∫ u in (0 : ℝ)..1, ((roundDraw f u x : ℚ) : ℝ) = x := by
  set y := x * 2 ^ f with hy
  set d : ℝ := ((y - ⌊y⌋ : ℚ) : ℝ) with hd
  have h0 : 0 ≤ d := by rw [hd]; exact_mod_cast sub_nonneg.2 (Int.floor_le y)
  have h1 : d ≤ 1 := by rw [hd]; exact_mod_cast (by linarith [Int.lt_floor_add_one y] : y - ⌊y⌋ ≤ 1)
  have e1 : ∫ u in (0 : ℝ)..d, ((roundDraw f u x : ℚ) : ℝ) = ∫ u in (0 : ℝ)..d, ((((⌊y⌋ + 1 : ℤ) : ℚ) * 2 ^ (-f) : ℚ) : ℝ) := by
    rw [intervalIntegral.integral_of_le h0, intervalIntegral.integral_of_le h0, MeasureTheory.integral_Ioc_eq_integral_Ioo, MeasureTheory.integral_Ioc_eq_integral_Ioo]
    refine MeasureTheory.setIntegral_congr_fun measurableSet_Ioo fun u hu => ?_
    simp only [roundDraw, mantDraw, ← hy]
    rw [if_pos (show u < d from hu.2)]
  have e2 : ∫ u in d..(1 : ℝ), ((roundDraw f u x : ℚ) : ℝ) = ∫ u in d..(1 : ℝ), (((⌊y⌋ : ℚ) * 2 ^ (-f) : ℚ) : ℝ) := by
    rw [intervalIntegral.integral_of_le h1, intervalIntegral.integral_of_le h1]
    refine MeasureTheory.setIntegral_congr_fun measurableSet_Ioc fun u hu => ?_
    simp only [roundDraw, mantDraw, ← hy]
    rw [if_neg (show ¬ u < d from not_lt.2 hu.1.le)]
  have i1 : IntervalIntegrable (fun u : ℝ => ((roundDraw f u x : ℚ) : ℝ)) MeasureTheory.volume 0 d := by
    rw [intervalIntegrable_iff_integrableOn_Ioo_of_le h0]
    refine (MeasureTheory.integrableOn_const (C := ((((⌊y⌋ + 1 : ℤ) : ℚ) * 2 ^ (-f) : ℚ) : ℝ)) (by simp)).congr_fun (fun u hu => ?_) measurableSet_Ioo
    simp only [roundDraw, mantDraw, ← hy]
    rw [if_pos (show u < d from hu.2)]
  have i2 : IntervalIntegrable (fun u : ℝ => ((roundDraw f u x : ℚ) : ℝ)) MeasureTheory.volume d 1 := by
    rw [intervalIntegrable_iff_integrableOn_Ioc_of_le h1]
    refine (MeasureTheory.integrableOn_const (C := (((⌊y⌋ : ℚ) * 2 ^ (-f) : ℚ) : ℝ)) (by simp)).congr_fun (fun u hu => ?_) measurableSet_Ioc
    simp only [roundDraw, mantDraw, ← hy]
    rw [if_neg (show ¬ u < d from not_lt.2 hu.1.le)]
  rw [← intervalIntegral.integral_add_adjacent_intervals i1 i2, e1, e2, intervalIntegral.integral_const, intervalIntegral.integral_const]
  simp only [smul_eq_mul, sub_zero]
  rw [hd]
  have : ((y - ⌊y⌋) * (((⌊y⌋ + 1 : ℤ) : ℚ) * 2 ^ (-f)) + (1 - (y - ⌊y⌋)) * ((⌊y⌋ : ℚ) * 2 ^ (-f)) : ℚ) = x := by
    have hx : x = y * 2 ^ (-f) := by rw [hy, mul_assoc, zpow_mul_neg, mul_one]
    rw [hx]; push_cast; ring
  conv_rhs => rw [← this]
  push_cast
  ring

/-! ## Calls -/

section
variable {K : Type} [Field K] [LinearOrder K]

theorem baseCallS_det (st : Bool) (rm : RoundMode) (om : OverflowMode) (training k : Bool) (i f : ℤ) (us : List K) (xs : List ℚ) (h : (st && training) = false) :
    baseCallS st rm om training k i f us xs = xs.map (baseCall rm om training k i f) := by
  unfold baseCallS roundAll
  rw [h]
  simp only [Bool.false_eq_true, if_false, List.map_map]
  refine List.map_congr_left fun x _ => ?_
  cases om <;> rfl

/-- **C115 (only in training).** Unless `training is True` - at inference, in calibration by `trace_minmax`, with any other flag - the draws have no influence: a quantizer with
`S_RND` (`S_RND_CONV`) does exactly what it does with `RND` (`RND_CONV`), in its result and in its state.  So C01-C11 hold for it as they stand. -/
theorem C115_inference (st : Bool) (q : QOpts) (fl : Flag) (h : fl ≠ .true ∨ st = false) (us : List K) (xs : List ℚ) :
    (∀ s, kifCallS st q s fl us xs = kifCall q s fl xs) ∧ ∀ s, kbiCallS st q s fl us xs = kbiCall q s fl xs := by
  have hd : (st && fl.isTrue) = false := by
    rcases h with h | h
    · cases fl <;> simp_all [Flag.isTrue]
    · simp [h]
  refine ⟨fun s => ?_, fun s => ?_⟩
  · unfold kifCallS kifCall
    rw [baseCallS_det _ _ _ _ _ _ _ _ _ hd, hd]
    simp only [roundAll, Bool.false_eq_true, if_false]
  · unfold kbiCallS kbiCall
    rw [baseCallS_det _ _ _ _ _ _ _ _ _ hd, hd]
    simp only [roundAll, Bool.false_eq_true, if_false]

variable [IsStrictOrderedRing K]

/-- Results next to their inputs, for all draws. -/
theorem zip_neighbours (f : ℤ) (us : List K) (hu : ∀ u ∈ us, IsDraw u) (xs : List ℚ) (hl : us.length = xs.length) :
    List.Forall₂ (IsNeighbour f) xs (List.zipWith (roundDraw f) us xs) := by
  induction us generalizing xs with
  | nil =>
    cases xs with
    | nil => exact List.Forall₂.nil
    | cons _ _ => simp at hl
  | cons u us ih =>
    cases xs with
    | nil => simp at hl
    | cons x xs =>
      exact List.Forall₂.cons (C115_neighbours f (hu u (by simp)) x).1 (ih (fun v hv => hu v (by simp [hv])) xs (by simpa using hl))

/-- **C115 (training, kif).** One training step of a WRAP quantizer with stochastic rounding, for all draws: each result is a neighbour of its input, the stored `i` becomes the
larger of "previous minus decay" and the least width that holds the results, so the new width holds them; sign and fraction do not change. -/
theorem C115_kif_training_step (q : QOpts) (hom : q.om = .WRAP) (htr : q.trainable = true) (s : KIFState) (us : List K) (hu : ∀ u ∈ us, IsDraw u) (xs : List ℚ)
    (hl : us.length = xs.length) (hne : xs ≠ []) :
    let r := kifCallS true q s .true us xs
    List.Forall₂ (IsNeighbour s.f) xs r.2 ∧
    (∃ n : ℤ, IsLeast {n : ℤ | ∀ y ∈ r.2, |y| ≤ high n s.f} n ∧ (∀ d, q.decay = some d → r.1.iw = max (s.iw - d) n) ∧ (q.decay = none → r.1.iw = n)) ∧
    (∀ y ∈ r.2, |y| ≤ high r.1.i s.f) ∧ r.1.k = s.k ∧ r.1.f = s.f := by
  set ys := List.zipWith (roundDraw s.f) us xs with hys
  have hnb := zip_neighbours s.f us hu xs hl
  have h0 : absmax ys ≥ 0 := absmax_nonneg _
  have hcall : kifCallS true q s .true us xs = ({ s with iw := decayMax s.iw q.decay (need s.f (absmax ys)) }, ys) := by
    simp [kifCallS, roundAll, hom, htr, Flag.truthy, Flag.eqTracing, Flag.isTrue, minimalIXf, QOpts.symmetric, need, ceilLog2, h0, ← hys]
  have hfits : ∀ n : ℤ, (∀ y ∈ ys, |y| ≤ high n s.f) ↔ need s.f (absmax ys) ≤ n := by
    intro n
    rw [need_le_iff h0]
    constructor
    · intro h
      obtain ⟨y, hy, hy'⟩ := absmax_mem (xs := ys) (by
        intro e
        have := hnb.length_eq
        rw [← hys, e] at this
        exact hne (List.length_eq_zero_iff.1 this))
      rw [← hy']; exact h y hy
    · exact fun h x hx => (le_absmax hx).trans h
  rw [hcall]
  refine ⟨hnb, ⟨need s.f (absmax ys), ⟨(hfits _).2 le_rfl, fun n hn => (hfits n).1 hn⟩, ?_, ?_⟩, ?_, rfl, rfl⟩
  · intro d hd; simp [hd, decayMax]
  · intro hd; simp [hd, decayMax]
  · rw [hfits]
    have : (need s.f (absmax ys) : ℚ) ≤ decayMax s.iw q.decay (need s.f (absmax ys)) := by
      unfold decayMax; cases q.decay <;> simp
    have := roundHalfEven_mono this
    rwa [roundHalfEven_int] at this

/-- **C115 (training, kbi).** One training step of a WRAP kbi quantizer: the state does not depend on the draws (it is that of `RND`, C12), each result is a neighbour of its
input, and an input that the new range holds gives a result that it holds. -/
theorem C115_kbi_training_step (q : QOpts) (hom : q.om = .WRAP) (htr : q.trainable = true) (s : KBIState) (us : List K) (hu : ∀ u ∈ us, IsDraw u) (xs : List ℚ)
    (hl : us.length = xs.length) :
    let r := kbiCallS true q s .true us xs
    r.1 = (kbiCall q s .true xs).1 ∧ List.Forall₂ (IsNeighbour r.1.f) xs r.2 ∧
    List.Forall₂ (fun x y => 0 ≤ r.1.b → |x| ≤ high r.1.i r.1.f → |y| ≤ high r.1.i r.1.f) xs r.2 := by
  have hcall : kbiCallS true q s .true us xs = ((kbiCall q s .true xs).1, List.zipWith (roundDraw (kbiCall q s .true xs).1.f) us xs) := by
    simp [kbiCallS, kbiCall, roundAll, hom, htr, Flag.truthy, Flag.eqTracing, Flag.isTrue]
  rw [hcall]
  refine ⟨rfl, zip_neighbours _ us hu xs hl, ?_⟩
  generalize (kbiCall q s .true xs).1 = t
  have one : ∀ u : K, IsDraw u → ∀ x : ℚ, 0 ≤ t.b → |x| ≤ high t.i t.f → |roundDraw t.f u x| ≤ high t.i t.f := by
    intro u hu x hb hx
    have e : high t.i t.f = ((steps t.i t.f - 1 : ℤ) : ℚ) * 2 ^ (-t.f) := qmax_grid (by have : t.f = t.b - t.i := rfl; omega)
    rw [e] at hx ⊢
    rw [abs_le] at hx ⊢
    have := roundDraw_mem (m := -(steps t.i t.f - 1)) t.f hu (by push_cast at hx ⊢; linarith [hx.1]) hx.2
    push_cast at this ⊢
    exact ⟨by linarith [this.1], this.2⟩
  clear hcall
  induction us generalizing xs with
  | nil =>
    cases xs with
    | nil => exact List.Forall₂.nil
    | cons _ _ => simp at hl
  | cons u us ih =>
    cases xs with
    | nil => simp at hl
    | cons x xs => exact List.Forall₂.cons (one u (hu u (by simp)) x) (ih (fun v hv => hu v (by simp [hv])) xs (by simpa using hl))

/-- **C115 (training, saturating modes).** With `SAT` and `SAT_SYM` (formats of positive width), for all draws: an input inside the range goes to a neighbour inside the range,
an input outside to the nearest end; the state does not change. -/
theorem C115_saturating (q : QOpts) (hom : q.om ≠ .WRAP) (s : KIFState) (hw : 0 < width s.k s.i s.f) (us : List K) (hu : ∀ u ∈ us, IsDraw u) (xs : List ℚ)
    (hl : us.length = xs.length) :
    let r := kifCallS true q s .true us xs
    r.1 = s ∧ List.Forall₂ (fun x y => low q.om s.k s.i s.f ≤ y ∧ y ≤ high s.i s.f ∧
      (low q.om s.k s.i s.f ≤ x → x ≤ high s.i s.f → IsNeighbour s.f x y) ∧ (x ≤ low q.om s.k s.i s.f → y = low q.om s.k s.i s.f) ∧
      (high s.i s.f ≤ x → y = high s.i s.f)) xs r.2 := by
  have hcall : kifCallS true q s .true us xs = (s, (List.zipWith (roundDraw s.f) us xs).map fun v => clip (qmin q.om s.k s.i s.f) (qmax s.i s.f) v) := by
    simp only [kifCallS, hom, false_and, if_false, baseCallS, roundAll, Flag.isTrue, Bool.and_self, if_true]
    congr 1
    refine List.map_congr_left fun v _ => ?_
    unfold overflowOf
    split
    · rename_i h; exact absurd h hom
    · rfl
  rw [hcall]
  refine ⟨rfl, ?_⟩
  have h0 := sum_nonneg_of_width hw
  have hb := C01_output_representable .RND q.om s.k s.i s.f 0 hw
  have hlh : qmin q.om s.k s.i s.f ≤ qmax s.i s.f := hb.1.2.1.trans hb.1.2.2
  rw [← hb.2.1, ← hb.2.2]
  have one : ∀ u : K, IsDraw u → ∀ x : ℚ, let y := clip (qmin q.om s.k s.i s.f) (qmax s.i s.f) (roundDraw s.f u x)
      qmin q.om s.k s.i s.f ≤ y ∧ y ≤ qmax s.i s.f ∧ (qmin q.om s.k s.i s.f ≤ x → x ≤ qmax s.i s.f → IsNeighbour s.f x y) ∧
      (x ≤ qmin q.om s.k s.i s.f → y = qmin q.om s.k s.i s.f) ∧ (qmax s.i s.f ≤ x → y = qmax s.i s.f) := by
    intro u hu x
    have up : ∀ n : ℤ, x ≤ (n : ℚ) * 2 ^ (-s.f) → roundDraw s.f u x ≤ (n : ℚ) * 2 ^ (-s.f) := by
      intro n hn
      have hP := two_zpow_pos s.f
      have e2 : x * 2 ^ s.f ≤ (n : ℚ) := by
        have := mul_le_mul_of_nonneg_right hn hP.le
        rwa [mul_assoc, zpow_neg_mul, mul_one] at this
      exact mul_le_mul_of_nonneg_right (by exact_mod_cast mantDraw_le hu e2) (two_zpow_pos (-s.f)).le
    have dn : ∀ n : ℤ, (n : ℚ) * 2 ^ (-s.f) ≤ x → (n : ℚ) * 2 ^ (-s.f) ≤ roundDraw s.f u x := by
      intro n hn
      have hP := two_zpow_pos s.f
      have e2 : (n : ℚ) ≤ x * 2 ^ s.f := by
        have := mul_le_mul_of_nonneg_right hn hP.le
        rwa [mul_assoc, zpow_neg_mul, mul_one] at this
      exact mul_le_mul_of_nonneg_right (by exact_mod_cast le_mantDraw (u := u) e2) (two_zpow_pos (-s.f)).le
    have l1 : x ≤ qmin q.om s.k s.i s.f → roundDraw s.f u x ≤ qmin q.om s.k s.i s.f := by rw [qmin_grid h0]; exact up _
    have l2 : qmin q.om s.k s.i s.f ≤ x → qmin q.om s.k s.i s.f ≤ roundDraw s.f u x := by rw [qmin_grid h0]; exact dn _
    have u1 : x ≤ qmax s.i s.f → roundDraw s.f u x ≤ qmax s.i s.f := by rw [qmax_grid h0]; exact up _
    have u2 : qmax s.i s.f ≤ x → qmax s.i s.f ≤ roundDraw s.f u x := by rw [qmax_grid h0]; exact dn _
    refine ⟨le_min (le_max_right _ _) hlh, min_le_right _ _, fun a b => ?_, fun a => ?_, fun a => ?_⟩
    · have : clip (qmin q.om s.k s.i s.f) (qmax s.i s.f) (roundDraw s.f u x) = roundDraw s.f u x := by
        unfold clip; rw [max_eq_left (l2 a), min_eq_left (u1 b)]
      simp only [this]
      exact (C115_neighbours s.f hu x).1
    · unfold clip; rw [max_eq_right (l1 a), min_eq_left hlh]
    · unfold clip; rw [max_eq_left (hlh.trans (u2 a)), min_eq_right (u2 a)]
  clear hcall
  induction us generalizing xs with
  | nil =>
    cases xs with
    | nil => exact List.Forall₂.nil
    | cons _ _ => simp at hl
  | cons u us ih =>
    cases xs with
    | nil => simp at hl
    | cons x xs => exact List.Forall₂.cons (one u (hu u (by simp)) x) (ih (fun v hv => hu v (by simp [hv])) xs (by simpa using hl))

end

/-- **C115 violated** (kif, WRAP): in training the width is fitted to the stochastic results, but inference rounds to nearest.  After a training step on `3/2` (`f = 0`, draw
`9/10`) the range is `[-2, 1]`, and the same input is `-2` at inference.  With `RND` this cannot happen (`C12_kif_training_step`). -/
theorem C115_train_inference_violated : ∃ (q : QOpts) (s : KIFState) (u x : ℚ), q.om = .WRAP ∧ q.trainable = true ∧ IsDraw u ∧
    (kifCallS true q s .true [u] [x]).2 = [1] ∧ (kifCallS true q (kifCallS true q s .true [u] [x]).1 .false [u] [x]).2 = [-2] ∧
    (kifCall q (kifCall q s .true [x]).1 .false [x]).2 = [2] :=
  ⟨⟨.RND, .WRAP, true, false, none, none⟩, ⟨true, 5, 0⟩, 9 / 10, 3 / 2, rfl, rfl, ⟨by norm_num, by norm_num⟩, by decide +kernel, by decide +kernel, by decide +kernel⟩

/-- **C115 violated** (kbi, WRAP): the width is fitted to the inputs with a slack, so an input just above the top (here a float32 number) can go to a value that the new
format does not hold. -/
theorem C115_kbi_edge_violated : ∃ (q : QOpts) (s : KBIState) (u x : ℚ), q.om = .WRAP ∧ q.trainable = true ∧ IsDraw u ∧ x = 4 + 2 ^ (-21 : ℤ) ∧
    (kbiCallS true q s .true [u] [x]).2 = [8] ∧ high (kbiCallS true q s .true [u] [x]).1.i (kbiCallS true q s .true [u] [x]).1.f = 4 ∧
    (kbiCall q s .true [x]).2 = [4] :=
  ⟨⟨.RND, .WRAP, true, false, none, none⟩, ⟨true, 1, 0⟩, 0, 4 + 2 ^ (-21 : ℤ), rfl, rfl, ⟨by norm_num, by norm_num⟩, rfl, by decide +kernel, by decide +kernel, by decide +kernel⟩

/-- Concrete steps: draws `1/5, 4/5` on `3/8` and `-5/8` at `f = 1`, and in a saturating format. -/
example : let q : QOpts := ⟨.RND, .WRAP, true, false, none, none⟩
    (kifCallS true q ⟨true, 5, 1⟩ .true [(1 / 5 : ℚ), 4 / 5] [3 / 8, -5 / 8]).2 = [1 / 2, -1] ∧ (kifCallS true q ⟨true, 5, 1⟩ .true [(1 / 5 : ℚ), 4 / 5] [3 / 8, -5 / 8]).1.i = 1 ∧
    (kifCallS true q ⟨true, 5, 1⟩ .false [(1 / 5 : ℚ), 4 / 5] [3 / 8, -5 / 8]).2 = [1 / 2, -1 / 2] ∧
    (kifCallS true { q with om := .SAT } ⟨true, 0, 1⟩ .true [(4 / 5 : ℚ), 1 / 5, 1 / 5] [3 / 8, -5 / 8, 7]).2 = [0, -1 / 2, 1 / 2] := by decide +kernel

end HGQ
