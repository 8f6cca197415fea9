import Verif.Model.Spiking
import Verif.Model.FixedPoint
import Verif.Spec.Grid
import Mathlib.Tactic

/-!
# C46 (spike and reset semantics), C47 (replay of spiking layers), C48 (accumulator width)
-/
namespace HGQ
open Finset

/-! ## C46 -/

theorem argmaxFirst_spec {n : ℕ} (v : Fin (n + 1) → ℚ) :
    (∀ j, v j ≤ v (argmaxFirst v)) ∧ ∀ j, j < argmaxFirst v → v j < v (argmaxFirst v) := by
  have hm := min'_mem (univ.filter (fun i => ∀ j, v j ≤ v i)) (by
    obtain ⟨i, _, hi⟩ := exists_max_image univ v univ_nonempty
    exact ⟨i, mem_filter.2 ⟨mem_univ i, fun j => hi j (mem_univ j)⟩⟩)
  have h1 : ∀ j, v j ≤ v (argmaxFirst v) := (mem_filter.1 hm).2
  refine ⟨h1, fun j hj => lt_of_le_of_ne (h1 j) fun he => ?_⟩
  have : argmaxFirst v ≤ j := min'_le _ _ (mem_filter.2 ⟨mem_univ j, fun k => by rw [he]; exact h1 k⟩)
  exact absurd hj (not_lt.2 this)

theorem argmaxFirst_iff {n : ℕ} (v : Fin (n + 1) → ℚ) (i : Fin (n + 1)) :
    i = argmaxFirst v ↔ (∀ j, j < i → v j < v i) ∧ ∀ j, i < j → v j ≤ v i := by
  obtain ⟨h1, h2⟩ := argmaxFirst_spec v
  constructor
  · rintro rfl; exact ⟨h2, fun j _ => h1 j⟩
  · rintro ⟨h3, h4⟩
    rcases lt_trichotomy i (argmaxFirst v) with h | h | h
    · exact absurd (h2 i h) (not_lt.2 (h4 _ h))
    · exact h
    · exact absurd (h3 _ h) (not_lt.2 (h1 i))

theorem spikeFn_eq (soft : ℚ → ℚ) (x : ℚ) : spikeFn soft x = if 0 < x then 1 else 0 := by unfold spikeFn; ring

/-- Unit `i` fires on membrane `mem`, by definition: it exceeds its threshold and, under inhibition, no unit exceeds its threshold
by more (the first of equal ones wins). -/
def Spec.Fires {n : ℕ} (threshold : Fin (n + 1) → ℚ) (inhibition : Bool) (mem : Fin (n + 1) → ℚ) (i : Fin (n + 1)) : Prop :=
  threshold i < mem i ∧ (inhibition = true → (∀ j, mem j - threshold j ≤ mem i - threshold i) ∧
    ∀ j, j < i → mem j - threshold j < mem i - threshold i)

open Spec Classical in
theorem fire_spk {n : ℕ} (c : SnnCell n) (soft : ℚ → ℚ) (mem : Fin (n + 1) → ℚ) (i : Fin (n + 1)) :
    (c.fire soft mem).2 i = if Fires c.threshold c.inhibition mem i then 1 else 0 := by
  unfold SnnCell.fire Fires
  by_cases hi : c.inhibition = true
  · simp only [hi, if_true, spikeFn_eq, sub_pos, true_implies]
    by_cases ha : i = argmaxFirst (fun i => mem i - c.threshold i)
    · have h := (argmaxFirst_spec (fun i => mem i - c.threshold i))
      rw [← ha] at h
      rw [if_pos ha, mul_one]
      by_cases ht : c.threshold i < mem i
      · rw [if_pos ht, if_pos ⟨ht, h⟩]
      · rw [if_neg ht, if_neg fun h => ht h.1]
    · rw [if_neg ha, mul_zero, if_neg]
      rintro ⟨_, h1, h2⟩
      exact ha ((argmaxFirst_iff _ i).2 ⟨h2, fun j _ => h1 j⟩)
  · simp only [hi, if_false, spikeFn_eq, sub_pos]; simp

open Spec Classical in
/-- **C46.** For every membrane vector, threshold, graded factor and surrogate: a unit emits its factor if it fires and 0
otherwise; the reset subtracts the threshold from / zeroes / leaves alone exactly the units that fired; with inhibition at most
one unit fires, and exactly one whenever some unit exceeds its threshold. -/
theorem C46_spike_reset {n : ℕ} (c : SnnCell n) (soft : ℚ → ℚ) (mem : Fin (n + 1) → ℚ) :
    (∀ i, (c.fire soft mem).1 i = if Fires c.threshold c.inhibition mem i then c.factor i else 0) ∧
    (∀ i, c.resetMem mem (c.fire soft mem).2 i =
      if Fires c.threshold c.inhibition mem i then
        (match c.reset with | .subtract => mem i - c.threshold i | .zero => 0 | .none => mem i) else mem i) ∧
    (c.inhibition = true → ∀ i j, Fires c.threshold true mem i → Fires c.threshold true mem j → i = j) ∧
    (c.inhibition = true → (∃ i, c.threshold i < mem i) → ∃ i, Fires c.threshold true mem i) := by
  have hf : ∀ i, (c.fire soft mem).1 i = (c.fire soft mem).2 i * c.factor i := fun i => rfl
  refine ⟨fun i => ?_, fun i => ?_, fun _ i j hi hj => ?_, fun _ ⟨i, hi⟩ => ?_⟩
  · rw [hf, fire_spk]; split <;> simp
  · have h := fire_spk c soft mem i
    unfold SnnCell.resetMem
    by_cases hF : Fires c.threshold c.inhibition mem i <;> simp only [hF, if_true, if_false] at h <;> cases c.reset <;> simp [h, hF]
  · obtain ⟨_, hi1, hi2⟩ := hi.1, hi.2 rfl
    obtain ⟨_, hj1, hj2⟩ := hj.1, hj.2 rfl
    rcases lt_trichotomy i j with h | h | h
    · exact absurd (hj2 i h) (not_lt.2 (hi1 j))
    · exact h
    · exact absurd (hi2 j h) (not_lt.2 (hj1 i))
  · refine ⟨argmaxFirst (fun i => mem i - c.threshold i), ?_, fun _ => argmaxFirst_spec (fun i => mem i - c.threshold i)⟩
    have := (argmaxFirst_spec (fun i => mem i - c.threshold i)).1 i
    have h0 : mem i - c.threshold i ≤ mem (argmaxFirst fun i => mem i - c.threshold i) - c.threshold (argmaxFirst fun i => mem i - c.threshold i) := this
    linarith

/-- Three units with inhibition: units 1 and 2 exceed their thresholds by the same amount, unit 1 wins and is reset. -/
def exCell : SnnCell 2 := { threshold := fun _ => 1, factor := fun _ => 5, inhibition := true, reset := .subtract, beta := none,
                            iq := none, oq := none, sq := none }
example : (exCell.fire (fun x => x) ![2, 3, 3]).1 1 = 5 ∧ (exCell.fire (fun x => x) ![2, 3, 3]).1 2 = 0 ∧
    exCell.resetMem ![2, 3, 3] (exCell.fire (fun x => x) ![2, 3, 3]).2 1 = 2 := by decide +kernel

/-! ## C47 -/

theorem foldl_rnn {X S O : Type} (step : X → S → O × S) (xs : List X) (acc : List O) (s : S) :
    xs.foldl (fun (a : List O × S) x => let q := step x a.2; (a.1 ++ [q.1], q.2)) (acc, s) =
      (acc ++ (rnnFold step xs s).1, (rnnFold step xs s).2) := by
  induction xs generalizing acc s with
  | nil => simp [rnnFold]
  | cons x xs ih => simp only [List.foldl_cons, rnnFold]; rw [ih]; simp

theorem getElem_finRange {X : Type} (xs : List X) : (List.finRange xs.length).map (fun t => xs[t]) = xs := by
  apply List.ext_getElem <;> simp

/-- The index loop of the replay is the Keras recurrence, for every option, initial state and sequence. -/
theorem replayRnn_eq {X S O : Type} (step : X → S → O × S) (o : RnnOpts) (init : S) (xs : List X) :
    replayRnn step o init xs = kerasRnn step o init xs := by
  have key : ∀ ts : List (Fin xs.length), ts.foldl (fun (a : List O × S) t => let q := step xs[t] a.2; (a.1 ++ [q.1], q.2)) ([], init) =
      ((rnnFold step (ts.map fun t => xs[t]) init).1, (rnnFold step (ts.map fun t => xs[t]) init).2) := by
    intro ts
    have := foldl_rnn step (ts.map fun t => xs[t]) [] init
    rw [List.foldl_map] at this
    simpa using this
  unfold replayRnn kerasRnn
  simp only [key]
  cases o.goBackwards
  · simp only [Bool.false_eq_true, if_false, getElem_finRange]
  · simp only [if_true, List.map_reverse, getElem_finRange]

theorem replaySnnStep_eq {n : ℕ} (c : SnnCell n) (soft : ℚ → ℚ) (x state : Fin (n + 1) → ℚ) :
    replaySnnStep c x state = c.step soft x state := by
  classical
  have hR : replaySnnStep c x state = (optQ c.oq (replaySpike c (c.integrate x state)).1,
      optQ c.sq (replayReset c (c.integrate x state) (replaySpike c (c.integrate x state)).2)) := by
    unfold replaySnnStep SnnCell.integrate; cases c.beta <;> rfl
  have hS : c.step soft x state = (optQ c.oq (c.fire soft (c.integrate x state)).1,
      optQ c.sq (c.resetMem (c.integrate x state) (c.fire soft (c.integrate x state)).2)) := rfl
  rw [hR, hS]
  generalize c.integrate x state = mem
  have hfire : ∀ i, (replaySpike c mem).2 i = true ↔ Spec.Fires c.threshold c.inhibition mem i := by
    intro i
    unfold replaySpike Spec.Fires
    by_cases hi : c.inhibition = true
    · simp only [hi, if_true, gt_iff_lt, ge_iff_le, Bool.and_eq_true, decide_eq_true_eq, sub_pos, true_implies, and_assoc]
      refine and_congr_right fun _ => ⟨fun ⟨h1, h2⟩ => ⟨fun j => ?_, h1⟩, fun ⟨h1, h2⟩ => ⟨h2, fun j _ => h1 j⟩⟩
      rcases lt_trichotomy j i with h | rfl | h
      · exact (h1 j h).le
      · exact le_refl _
      · exact h2 j h
    · simp [hi]
  obtain ⟨h1, h2, _⟩ := C46_spike_reset c soft mem
  have e1 : (replaySpike c mem).1 = (c.fire soft mem).1 := by
    funext i
    rw [h1 i]
    show (if (replaySpike c mem).2 i = true then c.factor i else 0) = _
    simp only [hfire i]
  have e2 : replayReset c mem (replaySpike c mem).2 = c.resetMem mem (c.fire soft mem).2 := by
    funext i
    rw [h2 i]
    unfold replayReset
    cases c.reset <;> simp only [hfire i, ite_self]
  rw [e1, e2]

/-- **C47.** For every cell (integrate-and-fire or leaky, any thresholds, factors, reset mechanism, inhibition, quantizers), every
input sequence, initial state, direction and return option, the traced layer returns what the Keras layer returns. -/
theorem C47_snn_replay {n : ℕ} (c : SnnCell n) (soft : ℚ → ℚ) (o : RnnOpts) (init : Fin (n + 1) → ℚ)
    (xs : List (Fin (n + 1) → ℚ)) :
    replayRnn (replaySnnStep c) o init xs = kerasRnn (c.step soft) o init xs := by
  rw [replayRnn_eq]
  congr 1
  funext x s
  exact replaySnnStep_eq c soft x s

/-- Two steps of a one-unit cell with decay 1/2, threshold 1, reset to zero, backwards: spikes 0 then 3. -/
def exLif : SnnCell 0 := { threshold := fun _ => 1, factor := fun _ => 3, inhibition := false, reset := .zero,
                           beta := some fun _ => 1 / 2, iq := none, oq := none, sq := none }
example : ((rnnFold (replaySnnStep exLif) [fun _ => 2, fun _ => 1].reverse (fun _ => 0)).1.map fun o => o 0) = [0, 3] := by
  decide +kernel

/-! ## C48 -/

open Spec in
theorem onGrid_zero (f : ℤ) : OnGrid f 0 := ⟨0, by simp⟩
open Spec in
theorem onGrid_add {f : ℤ} {a b : ℚ} (ha : OnGrid f a) (hb : OnGrid f b) : OnGrid f (a + b) := by
  obtain ⟨m, rfl⟩ := ha; obtain ⟨k, rfl⟩ := hb; exact ⟨m + k, by push_cast; ring⟩
open Spec in
theorem onGrid_sub {f : ℤ} {a b : ℚ} (ha : OnGrid f a) (hb : OnGrid f b) : OnGrid f (a - b) := by
  obtain ⟨m, rfl⟩ := ha; obtain ⟨k, rfl⟩ := hb; exact ⟨m - k, by push_cast; ring⟩

open Spec in
/-- **C48 (partial).** Integrate-and-fire layers without state quantizer, input quantized to `k, i, f` (width positive): after at
most `T` steps from the zero state every membrane value is representable with `⌈log2 T⌉` more integer bits, i.e. with exactly
the extra width the EBOPs computation assumes — whatever the inputs, for reset "none" and "zero", and for reset "subtract" with
non-negative thresholds on the input grid.  Missing: the leaky layers, where it is false (`C48_lif_violated`). -/
theorem C48_accumulator_partial {n : ℕ} (c : SnnCell n) (soft : ℚ → ℚ) (k : Bool) (i f : ℤ) (hif : 0 ≤ i + f) (T : ℕ)
    (hbeta : c.beta = none) (hsq : c.sq = none)
    (hiq : ∀ x u, Representable f (lowTC k i) (high i f) (optQ c.iq x u))
    (hthr : c.reset = .subtract → ∀ u, 0 ≤ c.threshold u ∧ OnGrid f (c.threshold u))
    (xs : List (Fin (n + 1) → ℚ)) (hT : xs.length ≤ T) (u : Fin (n + 1)) :
    Representable f (lowTC k (i + Nat.clog 2 (max T 1))) (high (i + Nat.clog 2 (max T 1)) f)
      ((rnnFold (c.step soft) xs (fun _ => 0)).2 u) ∧
    width k (i + Nat.clog 2 (max T 1)) f = width k i f + (accumulatorBits none (some 0) T : ℤ) := by
  classical
  have hstep : (2 : ℚ) ^ (-f) ≤ 2 ^ i := zpow_le_zpow_right₀ (by norm_num) (by omega)
  have hhigh : 0 ≤ high i f := by unfold high; linarith
  have hlow : lowTC k i ≤ 0 := by unfold lowTC; split <;> simp; positivity
  -- invariant
  have inv : ∀ (xs : List (Fin (n + 1) → ℚ)) (s : Fin (n + 1) → ℚ) (t : ℕ),
      (∀ u, OnGrid f (s u) ∧ t * lowTC k i ≤ s u ∧ s u ≤ t * high i f) →
      ∀ u, OnGrid f ((rnnFold (c.step soft) xs s).2 u) ∧ (t + xs.length : ℕ) * lowTC k i ≤ (rnnFold (c.step soft) xs s).2 u ∧
        (rnnFold (c.step soft) xs s).2 u ≤ (t + xs.length : ℕ) * high i f := by
    intro xs
    induction xs with
    | nil => intro s t h u; simpa [rnnFold] using h u
    | cons x xs ih =>
      intro s t h u
      have := ih (c.step soft x s).2 (t + 1) ?_ u
      · simp only [rnnFold, List.length_cons]
        rw [show t + (xs.length + 1) = t + 1 + xs.length by ring]; exact this
      · intro u
        have hst : (c.step soft x s).2 u = c.resetMem (c.integrate x s) (c.fire soft (c.integrate x s)).2 u := by
          simp [SnnCell.step, hsq, optQ]
        rw [hst, (C46_spike_reset c soft (c.integrate x s)).2.1 u]
        obtain ⟨g1, l1, u1⟩ := h u
        obtain ⟨g2, l2, u2⟩ := hiq x u
        have hm : c.integrate x s u = s u + optQ c.iq x u := by simp [SnnCell.integrate, hbeta]
        have gm : OnGrid f (c.integrate x s u) := by rw [hm]; exact onGrid_add g1 g2
        have lm : ((t + 1 : ℕ) : ℚ) * lowTC k i ≤ c.integrate x s u := by rw [hm]; push_cast; linarith
        have um : c.integrate x s u ≤ ((t + 1 : ℕ) : ℚ) * high i f := by rw [hm]; push_cast; linarith
        have l0 : ((t + 1 : ℕ) : ℚ) * lowTC k i ≤ 0 := mul_nonpos_of_nonneg_of_nonpos (by positivity) hlow
        have u0 : 0 ≤ ((t + 1 : ℕ) : ℚ) * high i f := mul_nonneg (by positivity) hhigh
        split
        · rename_i hF
          cases hr : c.reset
          · obtain ⟨t1, t2⟩ := hthr hr u
            have := hF.1
            exact ⟨onGrid_sub gm t2, by simp only; linarith, by simp only; linarith⟩
          · exact ⟨onGrid_zero f, l0, u0⟩
          · exact ⟨gm, lm, um⟩
        · exact ⟨gm, lm, um⟩
  obtain ⟨g, l, h⟩ := inv xs (fun _ => 0) 0 (fun u => ⟨onGrid_zero f, by simp, by simp⟩) u
  have hTle : (((0 + xs.length : ℕ)) : ℚ) ≤ 2 ^ (Nat.clog 2 (max T 1)) := by
    have h1 : xs.length ≤ 2 ^ Nat.clog 2 (max T 1) := (hT.trans (le_max_left T 1)).trans (Nat.le_pow_clog (by norm_num) _)
    rw [zero_add]; exact_mod_cast h1
  have hp1 : (1 : ℚ) ≤ 2 ^ (Nat.clog 2 (max T 1)) := one_le_pow₀ (by norm_num)
  have hpow : (2 : ℚ) ^ (i + (Nat.clog 2 (max T 1) : ℤ)) = 2 ^ (Nat.clog 2 (max T 1)) * 2 ^ i := by
    rw [zpow_add₀ (by norm_num), zpow_natCast]; ring
  refine ⟨⟨g, ?_, ?_⟩, by simp [width, accumulatorBits]; ring⟩
  · refine le_trans ?_ l
    unfold lowTC
    split
    · rw [hpow]
      have : (0 : ℚ) < 2 ^ i := by positivity
      nlinarith
    · simp
  · refine h.trans ?_
    have h2 : ((0 + xs.length : ℕ) : ℚ) * high i f ≤ 2 ^ (Nat.clog 2 (max T 1)) * high i f :=
      mul_le_mul_of_nonneg_right hTle hhigh
    refine h2.trans ?_
    unfold high
    rw [hpow]
    have : (0 : ℚ) < 2 ^ (-f) := by positivity
    nlinarith

/-- The hypotheses are met by an input quantizer: signed 3 integer and 1 fractional bits saturating, threshold 1. -/
example : let c : SnnCell 0 := { threshold := fun _ => 1, factor := fun _ => 1, inhibition := false, reset := .subtract,
                                 beta := none, iq := some fun _ _ => 7 / 2, oq := none, sq := none }
    (∀ x u, Spec.Representable 1 (Spec.lowTC true 3) (Spec.high 3 1) (optQ c.iq x u)) ∧
    (rnnFold (c.step fun _ => 0) [fun _ => 0, fun _ => 0] (fun _ => 0)).2 0 = 5 := by
  refine ⟨fun x u => ⟨⟨7, by simp [optQ]; norm_num⟩, by simp [optQ, Spec.lowTC]; norm_num, by simp [optQ, Spec.high]; norm_num⟩, ?_⟩
  decide +kernel

open Spec in
/-- **C48 violated**, leaky cells: decay 3/4, inputs of one unsigned bit (0 or 1), three steps, no reset.  The EBOPs computation
assumes `1 + ⌈log2 3⌉ = 3` bits, but the reachable membrane values 9/16 and 37/16 are not both representable in any
fixed-point format of three (or four, or five) bits. -/
theorem C48_lif_violated :
    let c : SnnCell 0 := { threshold := fun _ => 1, factor := fun _ => 1, inhibition := false, reset := .none,
                           beta := some fun _ => 3 / 4, iq := none, oq := none, sq := none }
    (rnnFold (c.step fun _ => 0) [fun _ => 1, fun _ => 0, fun _ => 0] (fun _ => 0)).2 0 = 9 / 16 ∧
    (rnnFold (c.step fun _ => 0) [fun _ => 1, fun _ => 1, fun _ => 1] (fun _ => 0)).2 0 = 37 / 16 ∧
    accumulatorBits none (some 1) 3 = 3 ∧
    ∀ (k : Bool) (i f : ℤ), OnGrid f (9 / 16) → (37 / 16 : ℚ) ≤ high i f → 6 ≤ width k i f := by
  refine ⟨by decide +kernel, by decide +kernel, by decide +kernel, ?_⟩
  intro k i f ⟨m, hm⟩ hi
  have hf : 4 ≤ f := by
    by_contra h
    push Not at h
    -- 9/16 * 2^f would be an integer with f ≤ 3
    have h1 : (m : ℚ) * 2 ^ (3 - f) * 2 = 9 := by
      have e : (2 : ℚ) ^ (3 - f) = 8 * 2 ^ (-f) := by rw [sub_eq_add_neg, zpow_add₀ (by norm_num)]; norm_num
      rw [e]; linarith
    obtain ⟨d, hd⟩ : ∃ d : ℕ, 3 - f = d := ⟨(3 - f).toNat, by omega⟩
    rw [hd, zpow_natCast] at h1
    have h2 : m * 2 ^ d * 2 = 9 := by exact_mod_cast h1
    omega
  have hi' : 2 ≤ i := by
    by_contra h
    push Not at h
    have h1 : (2 : ℚ) ^ i ≤ 2 ^ (1 : ℤ) := zpow_le_zpow_right₀ (by norm_num) (by omega)
    have h2 : (0 : ℚ) < 2 ^ (-f) := by positivity
    unfold high at hi
    norm_num at h1; linarith
  unfold width; split <;> omega

end HGQ
