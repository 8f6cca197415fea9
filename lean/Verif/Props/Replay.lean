import Verif.Model.Replay
import Verif.Lemmas.FixedPoint
import Verif.Spec.Grid
import Mathlib.Tactic

/-!
# C43 (grouped convolution), C44 (fused projections), C54 (ReLU), C64 (patch extraction), C65 (softmax replay), C66 (pooling)
-/
namespace HGQ
open Finset Spec

/-! ## C43 -/

theorem sum_range_mul' (P a : ℕ) (f : ℕ → ℚ) : ∑ i ∈ range (P * a), f i = ∑ p ∈ range P, ∑ c ∈ range a, f (p * a + c) := by
  induction P with
  | zero => simp
  | succ P ih => rw [Nat.succ_mul, sum_range_succ, ← ih, sum_range_add]

theorem replayConv_eq (P G a b : ℕ) (x K : ℕ → ℚ) (o : ℕ) :
    replayConv P G a b x K o =
      ∑ p ∈ range P, ∑ c ∈ range a, x (p * (G * a) + (c * G + o / b)) * K ((p * a + c) * (G * b) + o) := by
  unfold replayConv
  rw [sum_range_mul']
  refine sum_congr rfl fun p _ => sum_congr rfl fun c _ => ?_
  congr 2
  · ring
  · have := Nat.div_add_mod o b
    calc ((p * a + c) * G + o / b) * b + o % b = (p * a + c) * (G * b) + (b * (o / b) + o % b) := by ring
      _ = _ := by rw [this]

/-- **C43 (partial).** The traced convolution equals the Keras one for every patch, kernel and output channel exactly when there is
a single group or every group has a single input channel (depthwise).  So the property holds for those and fails for every other
grouped convolution (`C43_grouped_violated`). -/
theorem C43_conv_partial (P G a b : ℕ) (hP : 0 < P) (hb : 0 < b) (hG : 0 < G) (ha : 0 < a) :
    (∀ (x K : ℕ → ℚ) (o : ℕ), o < G * b → replayConv P G a b x K o = kerasConv P G a b x K o) ↔ (G = 1 ∨ a = 1) := by
  constructor
  · intro h
    by_contra hn
    push Not at hn
    have hG2 : 2 ≤ G := by omega
    have ha2 : 2 ≤ a := by omega
    have h1 := h (fun i => if i = 1 then 1 else 0) (fun _ => 1) 0 (by positivity)
    have hL : replayConv P G a b (fun i => if i = 1 then 1 else 0) (fun _ => 1) 0 = 0 := by
      unfold replayConv
      refine sum_eq_zero fun i _ => ?_
      have : i * G + 0 / b ≠ 1 := by
        rw [Nat.zero_div, add_zero]
        intro h
        have := Nat.eq_one_of_mul_eq_one_left h
        omega
      simp only [if_neg this, zero_mul]
    have hR : (1 : ℚ) ≤ kerasConv P G a b (fun i => if i = 1 then 1 else 0) (fun _ => 1) 0 := by
      unfold kerasConv
      have hnn : ∀ p ∈ range P, ∀ c ∈ range a,
          (0 : ℚ) ≤ (if p * (G * a) + (0 / b * a + c) = 1 then 1 else 0) * 1 := by
        intro p _ c _; split <;> norm_num
      have hs := single_le_sum (f := fun p => ∑ c ∈ range a, ((if p * (G * a) + (0 / b * a + c) = 1 then (1 : ℚ) else 0) * 1))
        (fun p hp => sum_nonneg (hnn p hp)) (mem_range.2 hP)
      refine le_trans ?_ hs
      have hs2 := single_le_sum (f := fun c => ((if 0 * (G * a) + (0 / b * a + c) = 1 then (1 : ℚ) else 0) * 1))
        (hnn 0 (mem_range.2 hP)) (mem_range.2 (show 1 < a by omega))
      refine le_trans ?_ hs2
      simp
    rw [h1] at hL
    linarith
  · intro h x K o ho
    rw [replayConv_eq]
    unfold kerasConv
    refine sum_congr rfl fun p _ => sum_congr rfl fun c hc => ?_
    congr 3
    rcases h with rfl | rfl
    · have : o / b = 0 := Nat.div_eq_of_lt (by omega)
      rw [this]; ring
    · have : c = 0 := by have := mem_range.1 hc; omega
      rw [this]; ring

/-- A depthwise 3-tap convolution of 2 channels: both give the same non-trivial value. -/
example : replayConv 3 2 1 1 (fun i => i) (fun i => i + 1) 1 = 44 ∧ kerasConv 3 2 1 1 (fun i => i) (fun i => i + 1) 1 = 44 := by
  decide +kernel

/-- **C43 violated**: 4 input channels, 2 groups, kernel size 1; output channel 0 should be the sum of input channels 0 and 1 and
is traced as the sum of channels 0 and 2. -/
theorem C43_grouped_violated :
    kerasConv 1 2 2 1 (fun i => i) (fun _ => 1) 0 = 0 + 1 ∧ replayConv 1 2 2 1 (fun i => i) (fun _ => 1) 0 = 0 + 2 := by
  decide +kernel

/-! ## C44 -/

theorem concatCols_eq {V : Type} (dflt : V) (H : ℕ) (parts : List (ℕ × (ℕ → V))) (hH : ∀ p ∈ parts, p.1 = H) (s h : ℕ)
    (hs : s < parts.length) (hh : h < H) : concatCols dflt parts (s * H + h) = parts[s].2 h := by
  induction parts generalizing s with
  | nil => simp at hs
  | cons p r ih =>
    have hp : p.1 = H := hH p (List.mem_cons_self ..)
    obtain ⟨n, f⟩ := p
    simp only at hp; subst hp
    cases s with
    | zero => simp [concatCols, hh]
    | succ s =>
      have hlt : ¬ ((s + 1) * n + h < n) := by
        have : n ≤ (s + 1) * n := Nat.le_mul_of_pos_left n (by omega)
        omega
      have he : (s + 1) * n + h - n = s * n + h := by
        rw [Nat.succ_mul]; omega
      simp only [concatCols, hlt, if_false, he]
      rw [ih (fun p hp => hH p (List.mem_cons_of_mem _ hp)) s (by simpa using hs)]
      simp

theorem sum_widths (H : ℕ) (ws : List ℕ) (h : ∀ w ∈ ws, w = H) : ws.sum = ws.length * H := by
  induction ws with
  | nil => simp
  | cons w r ih =>
    rw [List.sum_cons, ih fun w hw => h w (List.mem_cons_of_mem _ hw), h w (List.mem_cons_self ..), List.length_cons]; ring

/-- **C44 (partial).** If all fused projections have the same head size (`value_dim` = `key_dim`, the default), then for every
kernel, bias and input the fused projection splits into exactly the separate projections.  Missing: `value_dim ≠ key_dim`,
where it is false (`C44_value_dim_violated`). -/
theorem C44_fused_partial {R : Type} [CommRing R] (d H : ℕ) (x : ℕ → R) (parts : List (ℕ × (ℕ → ℕ → R) × (ℕ → R))) (hne : parts ≠ [])
    (hH : ∀ p ∈ parts, p.1 = H) :
    ∃ out, fusedProj d x parts = some out ∧ out.length = parts.length ∧
      ∀ (s : ℕ) (hs : s < parts.length) (hs' : s < out.length),
        out[s].1 = H ∧ ∀ h, h < H → out[s].2 h = proj d x parts[s].2.1 parts[s].2.2 h := by
  have hlen : parts.length ≠ 0 := by simpa using hne
  have hsum : (parts.map (·.1)).sum = parts.length * H := by
    rw [sum_widths H _ (by simpa using fun a f g h => hH (a, f, g) h), List.length_map]
  have hdiv : parts.length * H / parts.length = H := Nat.mul_div_cancel_left H (by omega)
  unfold fusedProj npSplit
  rw [hsum, if_pos ⟨hlen, Nat.mul_mod_right _ _⟩]
  refine ⟨_, rfl, by simp, fun s hs hs' => ?_⟩
  simp only [List.getElem_map, List.getElem_range, hdiv, true_and]
  intro h hh
  unfold proj
  congr 1
  · refine sum_congr rfl fun a _ => ?_
    congr 1
    show concatCols 0 (parts.map fun p => (p.1, p.2.1 a)) (s * H + h) = _
    rw [concatCols_eq 0 H _ (by intro q hq; obtain ⟨p, hp, rfl⟩ := List.mem_map.1 hq; exact hH p hp) s h (by simpa using hs) hh]
    simp
  · rw [concatCols_eq 0 H _ (by intro q hq; obtain ⟨p, hp, rfl⟩ := List.mem_map.1 hq; exact hH p hp) s h (by simpa using hs) hh]
    simp

example : ∃ out, fusedProj (R := ℚ) 2 (fun a => a + 1) [(2, fun a h => a + h, fun _ => 1), (2, fun _ h => h, fun _ => 0)] = some out ∧
    (out.map fun p => (p.1, p.2 0, p.2 1)) = [(2, 3, 6), (2, 0, 3)] := ⟨_, rfl, by decide +kernel⟩

/-- **C44 violated** whenever `value_dim ≠ key_dim`, for `fuse="qkv"` and `fuse="kv"`: tracing fails or the parts have the wrong
width. -/
theorem C44_value_dim_violated {R : Type} [CommRing R] (d : ℕ) (x : ℕ → R) (Hk Hv : ℕ) (hne : Hk ≠ Hv) (kq kk kv : ℕ → ℕ → R)
    (bq bk bv : ℕ → R) :
    (∀ out, fusedProj d x [(Hk, kq, bq), (Hk, kk, bk), (Hv, kv, bv)] = some out → ∃ p ∈ out.head?, p.1 ≠ Hk) ∧
    (∀ out, fusedProj d x [(Hk, kk, bk), (Hv, kv, bv)] = some out → ∃ p ∈ out.head?, p.1 ≠ Hk) := by
  constructor
  · intro out h
    simp only [fusedProj, npSplit, List.map_cons, List.map_nil, List.sum_cons, List.sum_nil, List.length_cons, List.length_nil] at h
    split at h
    · rename_i hw
      injection h with h
      subst h
      refine ⟨_, by simp [List.range_succ_eq_map]; rfl, ?_⟩
      simp only
      omega
    · simp at h
  · intro out h
    simp only [fusedProj, npSplit, List.map_cons, List.map_nil, List.sum_cons, List.sum_nil, List.length_cons, List.length_nil] at h
    split at h
    · rename_i hw
      injection h with h
      subst h
      refine ⟨_, by simp [List.range_succ_eq_map]; rfl, ?_⟩
      simp only
      omega
    · simp at h

/-! ## C54 -/

/-- **C54 (partial).** For every threshold ≥ 0, slope, maximum ≥ 0, and every input on the grid `2^-f`: the traced ReLU equals the
Keras one, provided the threshold is 0, on the grid, or at most half a step above a grid point.  Missing: other thresholds
(`C54_threshold_violated`). -/
theorem C54_relu_partial (th neg : ℚ) (maxv : Option ℚ) (f : ℤ) (hth : 0 ≤ th) (hm : ∀ m, maxv = some m → 0 ≤ m)
    (hfr : Int.fract (th * 2 ^ f) ≤ 1 / 2) (x : ℚ) (hx : OnGrid f x) :
    replayReLU th neg maxv f x = kerasReLU th neg maxv x := by
  unfold replayReLU kerasReLU
  split
  · rename_i h
    obtain ⟨rfl, rfl, rfl⟩ := h
    by_cases h : x > 0
    · simp [tracerRelu, h, h.le]
    · simp [tracerRelu, h, not_lt.1 h]
  · by_cases h0 : th = 0
    · subst h0
      simp only [ne_eq, not_true_eq_false, if_false, sub_zero]
      rcases lt_trichotomy x 0 with h | h | h
      · rw [if_pos h, if_neg (by linarith)]; ring
      · subst h
        simp only [lt_irrefl, if_false, gt_iff_lt, mul_zero]
        cases maxv with
        | none => rfl
        | some m => simp [hm m rfl]
      · rw [if_neg (by linarith), if_pos h]
        cases maxv with
        | none => rfl
        | some m => simp [clip, h.le]
    · have hpos : 0 < th := lt_of_le_of_ne hth (Ne.symm h0)
      obtain ⟨n, rfl⟩ := hx
      set t := th * 2 ^ f with ht
      have hp := two_zpow_pos (-f)
      have hth' : th = t * 2 ^ (-f) := by rw [ht, mul_assoc, zpow_mul_neg, mul_one]
      have hhalf : (2 : ℚ) ^ (-f - 1) = 2 ^ (-f) / 2 := by rw [zpow_sub₀ (by norm_num)]; norm_num
      have hiff : ((n : ℚ) * 2 ^ (-f) - (th + 2 ^ (-f - 1)) < 0) ↔ ¬ ((n : ℚ) * 2 ^ (-f) > th) := by
        rw [hhalf, not_lt]
        have e1 : ((n : ℚ) * 2 ^ (-f) - (th + 2 ^ (-f) / 2) < 0) ↔ (n : ℚ) < t + 1 / 2 := by
          rw [hth']
          constructor <;> intro h <;> nlinarith
        have e2 : ((n : ℚ) * 2 ^ (-f) ≤ th) ↔ (n : ℚ) ≤ t := by
          rw [hth']; exact mul_le_mul_iff_left₀ hp
        rw [e1, e2]
        constructor
        · intro h
          by_contra hc
          push Not at hc
          have h1 : ⌊t⌋ + 1 ≤ n := by
            have : ⌊t⌋ < n := by rw [Int.floor_lt]; exact hc
            omega
          have h2 : ((⌊t⌋ : ℤ) : ℚ) + 1 ≤ n := by exact_mod_cast h1
          have h3 := Int.self_sub_floor t
          linarith
        · intro h; linarith
      simp only [ne_eq, h0, not_false_eq_true, if_true, hiff]
      by_cases hc : (n : ℚ) * 2 ^ (-f) > th
      · simp only [hc, not_true_eq_false, if_false, if_true]
        cases maxv with
        | none => rfl
        | some m => simp only [clip]; rw [max_eq_left (by linarith)]
      · simp only [hc, not_false_eq_true, if_true, if_false]; ring

example : Int.fract ((5 / 4 : ℚ) * 2 ^ (1 : ℤ)) ≤ 1 / 2 ∧ replayReLU (5 / 4) (1 / 8) (some 6) 1 (3 / 2) = 3 / 2 ∧
    replayReLU (5 / 4) (1 / 8) (some 6) 1 1 = -1 / 32 ∧ kerasReLU (5 / 4) (1 / 8) (some 6) 1 = -1 / 32 := by decide +kernel

/-- **C54 violated** for every threshold more than half a step above a grid point: the next grid point passes the Keras layer but
is traced to 0. -/
theorem C54_threshold_violated (th : ℚ) (f : ℤ) (hth : 0 < th) (hfr : 1 / 2 < Int.fract (th * 2 ^ f)) :
    ∃ x, OnGrid f x ∧ 0 < x ∧ kerasReLU th 0 none x = x ∧ replayReLU th 0 none f x = 0 := by
  set t := th * 2 ^ f with ht
  have hp := two_zpow_pos (-f)
  have hth' : th = t * 2 ^ (-f) := by rw [ht, mul_assoc, zpow_mul_neg, mul_one]
  have h1 := Int.self_sub_floor t
  have h2 := Int.lt_floor_add_one t
  have hgt : th < ((⌊t⌋ + 1 : ℤ) : ℚ) * 2 ^ (-f) := by
    rw [hth']; push_cast; nlinarith
  refine ⟨((⌊t⌋ + 1 : ℤ) : ℚ) * 2 ^ (-f), ⟨_, rfl⟩, by linarith, ?_, ?_⟩
  · simp only [kerasReLU]; rw [if_pos hgt]
  · have hhalf : (2 : ℚ) ^ (-f - 1) = 2 ^ (-f) / 2 := by rw [zpow_sub₀ (by norm_num)]; norm_num
    simp only [replayReLU, hth.ne', false_and, if_false, ne_eq, not_false_eq_true, if_true, mul_zero]
    rw [if_pos]
    rw [hhalf, hth']; push_cast; nlinarith

example : replayReLU (7 / 10) 0 none 0 1 = 0 ∧ kerasReLU (7 / 10) 0 none 1 = 1 := by decide +kernel

/-! ## C64 -/

/-- **C64 (partial).** For every geometry (any gather map), image values and padding value: extracting patches through the image of
encoded indices gives the patches of the image, if the image has at most `2^24` entries.  Missing: larger images
(`C64_float32_violated`). -/
theorem C64_patches_partial {V : Type} (N : ℕ) (hN : N ≤ 2 ^ 24) (pad : V) (idx : ℕ → Option ℕ)
    (hidx : ∀ j i, idx j = some i → i < N) (img : ℕ → V) (j : ℕ) :
    symbolicExtract f32Int pad idx img j = extractPatches pad idx img j := by
  unfold symbolicExtract extractPatches
  cases h : idx j with
  | none => simp
  | some i =>
    have hi := hidx j i h
    have e1 : f32Int (i : ℤ) = i := by
      unfold f32Int; rw [if_pos]; rw [abs_of_nonneg (by positivity)]; exact_mod_cast (hi.le.trans hN)
    have e2 : f32Int (-(i : ℤ) - 1) = -(i : ℤ) - 1 := by
      unfold f32Int; rw [if_pos]; rw [abs_of_nonpos (by omega)]
      have : (i : ℤ) + 1 ≤ 2 ^ 24 := by exact_mod_cast (show i + 1 ≤ 2 ^ 24 by omega)
      omega
    simp only [e1, e2]
    rw [if_neg (by omega)]
    congr 1; omega

/-- **C64 violated** for larger images: entry `2^24` is traced as entry `2^24 - 1`. -/
theorem C64_float32_violated :
    symbolicExtract f32Int 0 (fun j => some j) (fun i => (i : ℤ)) (2 ^ 24) = 2 ^ 24 - 1 ∧
    extractPatches 0 (fun j => some j) (fun i => (i : ℤ)) (2 ^ 24) = 2 ^ 24 := by decide +kernel

example : symbolicExtract f32Int 0 (fun j => if j = 0 then none else some (j - 1)) (fun i => (i : ℤ) + 7) 0 = 0 ∧
    symbolicExtract f32Int 0 (fun j => if j = 0 then none else some (j - 1)) (fun i => (i : ℤ) + 7) 3 = 9 := by decide +kernel

/-! ## C65 -/

/-- **C65.** For every pair of tables, every mask, stable or not, and every input: if all quantized inputs are at least the traced
lower bound and at least -1e9, the traced softmax equals the layer — although masked inputs are replaced by different values. -/
theorem C65_softmax_replay {n : ℕ} (iq expT invT : ℝ → ℝ) (stable : Bool) (mask : Option (Fin (n + 1) → Bool)) (low : ℝ)
    (x : Fin (n + 1) → ℝ) (hlow : ∀ i, low ≤ iq (x i)) (hbig : ∀ i, -1e9 ≤ iq (x i)) (i : Fin (n + 1)) :
    replaySoftmax iq expT invT stable mask low x i = softmaxCall iq expT invT stable mask x i := by
  unfold replaySoftmax softmaxCall smArg
  cases mask with
  | none => rfl
  | some m =>
    cases stable with
    | false => rfl
    | true =>
      simp only [if_true]
      -- the masked exponentials agree
      have key : ∀ i, (if m i = true then (1 : ℝ) else 0) *
          expT (univ.sup' univ_nonempty (fun i => if m i = true then iq (x i) else low) - (if m i = true then iq (x i) else low)) =
          (if m i = true then (1 : ℝ) else 0) *
          expT (univ.sup' univ_nonempty (fun i => smMask (m i) (iq (x i))) - smMask (m i) (iq (x i))) := by
        intro i
        by_cases hi : m i = true
        · have hs : univ.sup' univ_nonempty (fun i => if m i = true then iq (x i) else low) =
              univ.sup' univ_nonempty (fun i => smMask (m i) (iq (x i))) := by
            apply le_antisymm
            · refine sup'_le _ _ fun j _ => ?_
              by_cases hj : m j = true
              · refine le_trans ?_ (le_sup' (fun i => smMask (m i) (iq (x i))) (mem_univ j))
                simp [hj, smMask]
              · refine le_trans ?_ (le_sup' (fun i => smMask (m i) (iq (x i))) (mem_univ i))
                simp [hj, hi, smMask, hlow i]
            · refine sup'_le _ _ fun j _ => ?_
              by_cases hj : m j = true
              · refine le_trans ?_ (le_sup' (fun i => if m i = true then iq (x i) else low) (mem_univ j))
                simp [hj, smMask]
              · refine le_trans ?_ (le_sup' (fun i => if m i = true then iq (x i) else low) (mem_univ i))
                have := hbig i
                simp [hj, hi, smMask]; linarith
          rw [hs]
          simp [hi, smMask]
        · simp [hi]
      simp only [key]

/-- A masked maximum does not disturb the others: inputs 5 (masked), 1, 0, with `exp` table `2^-t` at integers via a lookup. -/
example : (∀ i, (-8 : ℝ) ≤ (fun x => x) (![5, 1, 0] i)) ∧ ∀ i, (-1e9 : ℝ) ≤ (fun x => x) (![5, 1, 0] i) := by
  constructor <;> intro i <;> fin_cases i <;> norm_num

/-! ## C66 -/

/-- **C66 (max).** For every window with at least one non-padding entry and entries at least `-2^31`, the traced maximum is the
largest non-padding entry. -/
theorem C66_max_pool {w : ℕ} (x : Fin (w + 1) → Option ℚ) (hne : ∃ i, (x i).isSome) (hlow : ∀ i v, x i = some v → -2147483648 ≤ v) :
    IsGreatest {v | ∃ i, x i = some v} (replayMaxPool x) := by
  unfold replayMaxPool
  constructor
  · obtain ⟨i, _, hi⟩ := exists_mem_eq_sup' (s := univ) univ_nonempty (fun i => (x i).getD (-2147483648))
    rw [hi]
    cases hx : x i with
    | some v => exact ⟨i, by simpa using hx⟩
    | none =>
      obtain ⟨j, hj⟩ := hne
      obtain ⟨v, hv⟩ := Option.isSome_iff_exists.1 hj
      have h1 : (x j).getD (-2147483648) ≤ (x i).getD (-2147483648) := by
        rw [← hi]; exact le_sup' (fun i => (x i).getD (-2147483648)) (mem_univ j)
      have h2 := hlow j v hv
      simp only [hv, hx, Option.getD_some, Option.getD_none] at h1 ⊢
      exact ⟨j, by rw [hv, le_antisymm h1 h2]⟩
  · rintro v ⟨i, hi⟩
    have := le_sup' (fun i => (x i).getD (-2147483648)) (mem_univ i)
    rw [hi] at this; exact this

/-- **C66 (average).** The traced average is the mean of the non-padding entries: multiplied by their number it gives their sum. -/
theorem C66_avg_pool {w : ℕ} (x : Fin (w + 1) → Option ℚ) (hne : ∃ i, (x i).isSome) :
    replayAvgPool x * ((univ.filter fun i => (x i).isSome).card : ℚ) = ∑ i ∈ univ.filter (fun i => (x i).isSome), (x i).getD 0 := by
  unfold replayAvgPool
  have hc : ((∑ i, if (x i).isSome then 1 else 0 : ℕ)) = (univ.filter fun i => (x i).isSome).card := by
    rw [card_filter]
  have hpos : 0 < (univ.filter fun i => (x i).isSome = true).card := by
    obtain ⟨i, hi⟩ := hne
    exact card_pos.2 ⟨i, mem_filter.2 ⟨mem_univ i, hi⟩⟩
  rw [hc, div_mul_cancel₀ _ (by exact_mod_cast hpos.ne'), sum_filter]
  refine sum_congr rfl fun i _ => ?_
  cases x i <;> simp

example : replayMaxPool ![some (-3), none, some (-5)] = -3 ∧ replayAvgPool ![some (-3), none, some (-5)] = -4 := by decide +kernel

end HGQ
