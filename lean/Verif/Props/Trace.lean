import Verif.Lemmas.Trace
import Mathlib.Order.Bounds.Basic
import Mathlib.Tactic.IntervalCases

/-!
# C08–C14: calibration and training of the WRAP quantizers

`xs`/batches are the elements that share one bit-width cell.  All statements speak about the values a user sees:
the outputs of a call and the reported `k`, `i`, `f`.
-/
namespace HGQ

/-! ## Specification vocabulary -/
namespace Spec

/-- No element of `xs`, rounded at `f`, exceeds the largest representable magnitude `2^n - 2^-f`. -/
def Fits (rm : RoundMode) (f : ℤ) (xs : List ℚ) (n : ℤ) : Prop :=
  ∀ x ∈ xs, |roundAt rm f x| ≤ high n f

/-- `v` is admissible for the constraint `c`. -/
def Satisfies : Option Constraint → ℚ → Prop
  | none, _ => True
  | some (.minMax lo hi), v => lo ≤ v ∧ v ≤ hi
  | some (.constant c), v => v = c
  | some (.min lo), v => lo ≤ v
  | some (.max hi), v => v ≤ hi

/-- The constraint can be satisfied at all. -/
def Sane : Option Constraint → Prop
  | some (.minMax lo hi) => lo ≤ hi
  | _ => True

end Spec
open Spec

/-! ## C08 -/

/-- **C08** After `trace_minmax` (with or without reset) of a trainable WRAP kif quantizer on any batches, inference on
every value seen during calibration is plain rounding: no wrap, sign kept.  `M` is any integer width that holds the data
and up to which the constraint on `i` does not bind from above. -/
theorem C08_calibrated_no_overflow (q : QOpts) (hom : q.om = .WRAP) (htr : q.trainable = true) (reset : Bool)
    (s : KIFState) (batches : List (List ℚ)) (M : ℤ)
    (hM : ∀ n : ℤ, n ≤ M → (n : ℚ) ≤ applyC q.ic n)
    (hfit : ∀ xs ∈ batches, Fits q.rm s.f xs M) :
    (kifTraceMinmax q reset s batches).f = s.f ∧
    ∀ xs ∈ batches, ∀ x ∈ xs,
      (kifCall q (kifTraceMinmax q reset s batches) .false [x]).2 = [roundAt q.rm s.f x] := by
  unfold kifTraceMinmax
  set s0 := if reset then kifReset q s else s with hs0
  have hf0 : s0.f = s.f := by
    rw [hs0]; cases reset <;> simp [kifReset_eq hom htr, KIFState.f]
  have hf := (kifTrace_f hom htr s0 batches).trans hf0
  refine ⟨hf, ?_⟩
  intro xs hxs x hx
  set t := kifTrace q s0 batches with ht
  -- the integer width covers the value
  have hi : cneed q.ic s.f (absmax (xs.map (roundAt q.rm s.f))) ≤ t.i := by
    have := (kifTrace_i_le_iff hom htr s0 batches t.i).1 le_rfl
    rw [hf0] at this
    exact this.2 xs hxs
  have hab : absmax (xs.map (roundAt q.rm s.f)) ≤ 2 ^ M - 2 ^ (-s.f) := by
    obtain ⟨y, hy, hy'⟩ := absmax_mem (xs := xs.map (roundAt q.rm s.f)) (by
      intro h; rw [List.map_eq_nil_iff] at h; subst h; simp at hx)
    obtain ⟨z, hz, rfl⟩ := List.mem_map.1 hy
    rw [← hy']
    exact hfit xs hxs z hz
  have hneed : need s.f (absmax (xs.map (roundAt q.rm s.f))) ≤ M := (need_le_iff (absmax_nonneg _) _).2 hab
  have hn2 : need s.f (absmax (xs.map (roundAt q.rm s.f))) ≤ t.i := by
    refine le_trans ?_ hi
    have := roundHalfEven_mono (hM _ hneed)
    rwa [roundHalfEven_int] at this
  have hcov : |roundAt q.rm s.f x| ≤ 2 ^ t.i - 2 ^ (-s.f) :=
    (le_absmax (List.mem_map_of_mem hx)).trans ((need_le_iff (absmax_nonneg _) _).1 hn2)
  have hk : roundAt q.rm s.f x < 0 → t.k = true := by
    intro h
    rw [ht, kifTrace_k hom htr, hf0]
    exact Or.inr ⟨xs, hxs, x, hx, h⟩
  have hq := quantize_of_cover hcov hk
  have hinf : (kifCall q t .false [x]).2 = if q.isWeight then [roundAt q.rm t.f x] else [quantize q.rm .WRAP t.k t.i t.f x] := by
    simp only [kifCall, hom, htr, Flag.truthy, Flag.eqTracing, Flag.isTrue, quantize]
    cases q.isWeight <;> simp
  rw [hinf, hf, hq]
  simp

/-- **C08**, default activation constraint `MinMax(-23, 23)` (config.py L118, L137): it is enough that every rounded
value is at most `2^23 - 2^-f` in magnitude. -/
theorem C08_default_constraint (q : QOpts) (hom : q.om = .WRAP) (htr : q.trainable = true)
    (hic : q.ic = some (.minMax (-23) 23)) (s : KIFState) (batches : List (List ℚ))
    (hfit : ∀ xs ∈ batches, Fits q.rm s.f xs 23) :
    ∀ xs ∈ batches, ∀ x ∈ xs,
      (kifCall q (kifTraceMinmax q true s batches) .false [x]).2 = [roundAt q.rm s.f x] := by
  refine (C08_calibrated_no_overflow q hom htr true s batches 23 ?_ hfit).2
  intro n hn
  have : (n : ℚ) ≤ 23 := by exact_mod_cast hn
  rw [hic]; simp only [applyC, Constraint.apply]
  exact le_min (le_max_left _ _) this

/-- Without the proviso the claim fails: `ic = MinMax(-23,23)`, the calibration value `2^24` becomes 0. -/
theorem C08_needs_proviso : ∃ (q : QOpts) (s : KIFState), q.om = .WRAP ∧ q.trainable = true ∧
    q.ic = some (.minMax (-23) 23) ∧
    (kifCall q (kifTraceMinmax q true s [[2 ^ 24]]) .false [2 ^ 24]).2 ≠ [roundAt q.rm s.f (2 ^ 24)] :=
  ⟨⟨.RND, .WRAP, true, false, some (.minMax (-23) 23), none⟩, ⟨true, 4, 2⟩, by decide +kernel⟩

/-- a concrete instance of the hypotheses of C08, with two batches -/
example : let q : QOpts := ⟨.RND, .WRAP, true, false, some (.minMax (-23) 23), none⟩
    let s : KIFState := ⟨true, 4, 2⟩
    (∀ xs ∈ [[(3 : ℚ) / 2, -5 / 3], [7]], Fits q.rm s.f xs 23) ∧
    (kifCall q (kifTraceMinmax q true s [[3 / 2, -5 / 3], [7]]) .false [-5 / 3]).2 = [-7 / 4] ∧
    (kifTraceMinmax q true s [[3 / 2, -5 / 3], [7]]).i = 3 := by
  refine ⟨?_, by decide +kernel, by decide +kernel⟩
  unfold Fits high; decide +kernel

/-! ## C09 -/

/-- **C09** (the general form) After a calibration with reset and no constraint, for every `n ≥ -10^9` (the reset
value): `i ≤ n` iff every calibration value fits in `n` integer bits. -/
theorem C09_tight (q : QOpts) (hom : q.om = .WRAP) (htr : q.trainable = true) (hic : q.ic = none)
    (s : KIFState) (batches : List (List ℚ)) (hne : ∀ xs ∈ batches, xs ≠ []) (n : ℤ) (hn : -1000000000 ≤ n) :
    (kifTraceMinmax q true s batches).i ≤ n ↔ ∀ xs ∈ batches, Fits q.rm s.f xs n := by
  simp only [kifTraceMinmax, if_true]
  rw [kifTrace_i_le_iff hom htr, kifReset_eq hom htr]
  have h0 : KIFState.i { s with k := false, iw := -1000000000 } ≤ n := by
    have : roundHalfEven (-1000000000 : ℚ) = -1000000000 := by decide +kernel
    simp only [KIFState.i]; omega
  constructor
  · rintro ⟨-, h⟩ xs hxs x hx
    have := h xs hxs
    simp only [cneed, hic, applyC, roundHalfEven_int] at this
    exact (le_absmax (List.mem_map_of_mem hx)).trans ((need_le_iff (absmax_nonneg _) _).1 this)
  · intro h
    refine ⟨h0, ?_⟩
    intro xs hxs
    simp only [cneed, hic, applyC, roundHalfEven_int]
    rw [need_le_iff (absmax_nonneg _)]
    obtain ⟨y, hy, hy'⟩ := absmax_mem (xs := xs.map (roundAt q.rm s.f)) (by simpa using hne xs hxs)
    obtain ⟨z, hz, rfl⟩ := List.mem_map.1 hy
    exact hy'.symm ▸ h xs hxs z hz

/-- **C09** The calibrated `i` is the least width that fits all calibration values. -/
theorem C09_least (q : QOpts) (hom : q.om = .WRAP) (htr : q.trainable = true) (hic : q.ic = none)
    (s : KIFState) (batches : List (List ℚ)) (hne : ∀ xs ∈ batches, xs ≠ []) (hb : batches ≠ [])
    (hf : s.f ≤ 1000000000) :
    IsLeast {n : ℤ | ∀ xs ∈ batches, Fits q.rm s.f xs n} (kifTraceMinmax q true s batches).i := by
  have hlow : ∀ n : ℤ, (∀ xs ∈ batches, Fits q.rm s.f xs n) → -s.f ≤ n := by
    intro n h
    obtain ⟨xs, hxs⟩ := List.exists_mem_of_ne_nil _ hb
    obtain ⟨x, hx⟩ := List.exists_mem_of_ne_nil _ (hne xs hxs)
    have h1 := h xs hxs x hx
    have h2 := (need_le_iff (abs_nonneg _) n).2 h1
    exact (need_ge (abs_nonneg _)).trans h2
  constructor
  · refine (C09_tight q hom htr hic s batches hne _ ?_).1 le_rfl
    simp only [kifTraceMinmax, if_true]
    have h := ((kifTrace_i_le_iff hom htr (kifReset q s) batches _).1 le_rfl).1
    refine le_trans ?_ h
    rw [kifReset_eq hom htr]
    have : roundHalfEven (-1000000000 : ℚ) = -1000000000 := by decide +kernel
    simp [KIFState.i, this]
  · intro n h
    have := hlow n h
    exact (C09_tight q hom htr hic s batches hne n (by omega)).2 h

/-- **C09** under an integer `MinMax(lo, hi)` constraint: still tight for every width inside the constraint. -/
theorem C09_tight_minMax (q : QOpts) (hom : q.om = .WRAP) (htr : q.trainable = true) (lo hi : ℤ)
    (hic : q.ic = some (.minMax lo hi)) (hlo : -1000000000 ≤ lo)
    (s : KIFState) (batches : List (List ℚ)) (hne : ∀ xs ∈ batches, xs ≠ []) (n : ℤ) (hn : lo ≤ n) (hn' : n < hi) :
    (kifTraceMinmax q true s batches).i ≤ n ↔ ∀ xs ∈ batches, Fits q.rm s.f xs n := by
  simp only [kifTraceMinmax, if_true]
  rw [kifTrace_i_le_iff hom htr, kifReset_eq hom htr]
  have h0 : KIFState.i { s with k := false, iw := -1000000000 } ≤ n := by
    have : roundHalfEven (-1000000000 : ℚ) = -1000000000 := by decide +kernel
    simp only [KIFState.i]; omega
  have hc : ∀ m : ℤ, roundHalfEven (applyC q.ic m) ≤ n ↔ m ≤ n := by
    intro m
    rw [hic]; simp only [applyC, Constraint.apply]
    rw [← Int.cast_max, ← Int.cast_min, roundHalfEven_int]
    omega
  constructor
  · rintro ⟨-, h⟩ xs hxs x hx
    have := (hc _).1 (h xs hxs)
    exact (le_absmax (List.mem_map_of_mem hx)).trans ((need_le_iff (absmax_nonneg _) _).1 this)
  · intro h
    refine ⟨h0, ?_⟩
    intro xs hxs
    refine (hc _).2 ?_
    rw [need_le_iff (absmax_nonneg _)]
    obtain ⟨y, hy, hy'⟩ := absmax_mem (xs := xs.map (roundAt q.rm s.f)) (by simpa using hne xs hxs)
    obtain ⟨z, hz, rfl⟩ := List.mem_map.1 hy
    exact hy'.symm ▸ h xs hxs z hz

/-- the hypotheses of C09 are met by a concrete calibration, and the width really is 3, not 2 or 4 -/
example : let q : QOpts := ⟨.RND, .WRAP, true, false, none, none⟩
    (kifTraceMinmax q true ⟨true, 4, 2⟩ [[3 / 2, -5 / 3], [7]]).i = 3 := by decide +kernel
example : let q : QOpts := ⟨.RND, .WRAP, true, false, some (.minMax (-23) 23), none⟩
    (kifTraceMinmax q true ⟨true, 4, 2⟩ [[-8]]).i = 4 := by decide +kernel

/-! ## C10 -/

/-- **C10** The calibrated `i`, `k`, `f` depend only on the set of values seen: any two batchings (into non-empty
batches) of the same set of values, in any order, calibrate alike, for every constraint. -/
theorem C10_batching_independent (q : QOpts) (hom : q.om = .WRAP) (htr : q.trainable = true) (reset : Bool)
    (s : KIFState) (bs bs' : List (List ℚ)) (hne : ∀ xs ∈ bs, xs ≠ []) (hne' : ∀ xs ∈ bs', xs ≠ [])
    (hset : ∀ x, (∃ xs ∈ bs, x ∈ xs) ↔ (∃ xs ∈ bs', x ∈ xs)) :
    let t := kifTraceMinmax q reset s bs
    let t' := kifTraceMinmax q reset s bs'
    t.i = t'.i ∧ t.k = t'.k ∧ t.f = t'.f := by
  unfold kifTraceMinmax
  set s0 := if reset then kifReset q s else s
  have key : ∀ (l : List (List ℚ)), (∀ xs ∈ l, xs ≠ []) → ∀ n : ℤ,
      (kifTrace q s0 l).i ≤ n ↔ s0.i ≤ n ∧ ∀ x, (∃ xs ∈ l, x ∈ xs) → cneed q.ic s0.f |roundAt q.rm s0.f x| ≤ n := by
    intro l hl n
    rw [kifTrace_i_le_iff hom htr]
    refine and_congr_right fun _ => ?_
    constructor
    · rintro h x ⟨xs, hxs, hx⟩
      exact (cneed_mono _ (abs_nonneg _) (le_absmax (List.mem_map_of_mem hx))).trans (h xs hxs)
    · intro h xs hxs
      obtain ⟨y, hy, hy'⟩ := absmax_mem (xs := xs.map (roundAt q.rm s0.f)) (by simpa using hl xs hxs)
      obtain ⟨z, hz, rfl⟩ := List.mem_map.1 hy
      exact hy' ▸ h z ⟨xs, hxs, hz⟩
  refine ⟨?_, ?_, ?_⟩
  · apply le_antisymm
    · rw [key bs hne]
      have := (key bs' hne' _).1 le_rfl
      exact ⟨this.1, fun x hx => this.2 x ((hset x).1 hx)⟩
    · rw [key bs' hne']
      have := (key bs hne _).1 le_rfl
      exact ⟨this.1, fun x hx => this.2 x ((hset x).2 hx)⟩
  · rw [Bool.eq_iff_iff, kifTrace_k hom htr, kifTrace_k hom htr]
    have h : ∀ l : List (List ℚ), (∃ b ∈ l, ∃ x ∈ b, roundAt q.rm s0.f x < 0) ↔
        ∃ x, (∃ b ∈ l, x ∈ b) ∧ roundAt q.rm s0.f x < 0 := by
      intro l; constructor
      · rintro ⟨b, hb, x, hx, h⟩; exact ⟨x, ⟨b, hb, hx⟩, h⟩
      · rintro ⟨x, ⟨b, hb, hx⟩, h⟩; exact ⟨b, hb, x, hx, h⟩
    rw [h, h]
    simp only [hset]
  · rw [kifTrace_f hom htr, kifTrace_f hom htr]

/-- **C10** Re-tracing with `reset=False` on values already seen changes nothing a user can read. -/
theorem C10_retrace_noop (q : QOpts) (hom : q.om = .WRAP) (htr : q.trainable = true) (reset : Bool)
    (s : KIFState) (bs bs' : List (List ℚ)) (hne : ∀ xs ∈ bs, xs ≠ []) (hne' : ∀ xs ∈ bs', xs ≠ [])
    (hsub : ∀ x, (∃ xs ∈ bs', x ∈ xs) → (∃ xs ∈ bs, x ∈ xs)) :
    let t := kifTraceMinmax q reset s bs
    let t' := kifTraceMinmax q false t bs'
    t'.i = t.i ∧ t'.k = t.k ∧ t'.f = t.f := by
  have h := C10_batching_independent q hom htr reset s (bs ++ bs') bs
    (by intro xs hxs; rcases List.mem_append.1 hxs with h | h; exacts [hne xs h, hne' xs h]) hne
    (by
      intro x; constructor
      · rintro ⟨xs, hxs, hx⟩
        rcases List.mem_append.1 hxs with h | h
        · exact ⟨xs, h, hx⟩
        · exact hsub x ⟨xs, h, hx⟩
      · rintro ⟨xs, hxs, hx⟩; exact ⟨xs, List.mem_append_left _ hxs, hx⟩)
  simpa [kifTraceMinmax, kifTrace, List.foldl_append] using h

example : let q : QOpts := ⟨.RND, .WRAP, true, false, some (.minMax (-23) 23), none⟩
    kifTraceMinmax q true ⟨true, 4, 2⟩ [[3 / 2, -5 / 3], [7]] = kifTraceMinmax q true ⟨true, 4, 2⟩ [[7, 7, 3/2], [-5 / 3]] := by
  decide +kernel

/-! ## C11 -/

/-- **C11** (partial: no constraint on `i`, which is the default for kbi, and `1 ≤ b ≤ 22`).  After `trace_minmax` of a
trainable WRAP kbi quantizer inference on every calibration value is plain rounding at the final `f = b - i`.
The full claim also covers `b = 23, 24`, which the default constraints on `b` allow (config.py L81, L100):
`C11_fails_at_23`. -/
theorem C11_calibrated_no_overflow_partial (q : QOpts) (hom : q.om = .WRAP) (htr : q.trainable = true)
    (hic : q.ic = none) (reset : Bool) (s : KBIState) (hb : 1 ≤ s.b) (hb' : s.b ≤ 22)
    (batches : List (List ℚ)) :
    let t := kbiTraceMinmax q reset s batches
    t.b = s.b ∧ t.f = t.b - t.i ∧
    ∀ xs ∈ batches, ∀ x ∈ xs, (kbiCall q t .false [x]).2 = [roundAt q.rm t.f x] := by
  unfold kbiTraceMinmax
  set s0 := if reset then kbiReset q s else s with hs0
  have hb0 : s0.b = s.b := by
    rw [hs0]; cases reset <;> simp [kbiReset, hom, htr, KBIState.b]
  obtain ⟨h1, -, h3⟩ := kbiTrace_props hom htr s0 (by omega) hic batches
  have hbt : (kbiTrace q s0 batches).b = s.b := by rw [← hb0]; simp only [KBIState.b, h1]
  refine ⟨hbt, rfl, ?_⟩
  intro xs hxs x hx
  have hq := quantize_of_KBICovers (by omega) (by omega) (h3 xs hxs x hx)
  simp only [kbiCall, hom, htr, Flag.truthy, Flag.eqTracing, Flag.isTrue]
  by_cases hw : q.isWeight = true ∧ q.rm = .RND
  · simp [hw]
  · simp only [and_true, hw, if_false, Bool.or_false, Bool.false_eq_true]
    simp only [if_true, List.map_cons, List.map_nil]
    congr 1

/-- At `b = 23` (allowed by the default `bc = MinMax(0, 23)`), no constraint on `i`: after calibrating on the single
value `4 - 2^-22` (a float32 number) the same value is quantized to 0. -/
theorem C11_fails_at_23 : ∃ (q : QOpts) (s : KBIState) (x : ℚ), q.om = .WRAP ∧ q.trainable = true ∧ q.ic = none ∧
    s.b = 23 ∧ x = 4 - 2 ^ (-22 : ℤ) ∧
    (kbiCall q (kbiTraceMinmax q true s [[x]]) .false [x]).2 = [0] ∧
    roundAt q.rm (kbiTraceMinmax q true s [[x]]).f x = 4 :=
  ⟨⟨.RND, .WRAP, true, false, none, none⟩, ⟨true, 23, 2⟩, 4 - 2 ^ (-22 : ℤ), by decide +kernel⟩

example : let q : QOpts := ⟨.RND, .WRAP, true, false, none, none⟩
    let t := kbiTraceMinmax q true ⟨true, 6, 2⟩ [[3 / 2, -5 / 3], [7, 1/9]]
    t.i = 3 ∧ t.k = true ∧ (kbiCall q t .false [-5 / 3]).2 = [-13 / 8] := by decide +kernel

/-! ## C12 -/

/-- **C12** One training step of a WRAP kif quantizer on a non-empty batch: the stored `i` becomes exactly the larger of
"previous minus decay" and the least width that fits the batch (just the latter for `decay = inf`); in particular the new
integer width fits the batch and the output is the rounded batch. -/
theorem C12_kif_training_step (q : QOpts) (hom : q.om = .WRAP) (htr : q.trainable = true) (s : KIFState)
    (xs : List ℚ) (hne : xs ≠ []) :
    let s' := (kifCall q s .true xs).1
    (∃ n : ℤ, IsLeast {n : ℤ | Fits q.rm s.f xs n} n ∧
      (∀ d, q.decay = some d → s'.iw = max (s.iw - d) n) ∧ (q.decay = none → s'.iw = n)) ∧
    Fits q.rm s.f xs s'.i ∧ s'.k = s.k ∧ s'.f = s.f ∧ (kifCall q s .true xs).2 = xs.map (roundAt q.rm s.f) := by
  set A := absmax (xs.map (roundAt q.rm s.f)) with hA
  have hcall : kifCall q s .true xs = ({ s with iw := decayMax s.iw q.decay (need s.f A) }, xs.map (roundAt q.rm s.f)) := by
    have h0 : A ≥ 0 := absmax_nonneg _
    simp [kifCall, hom, htr, Flag.truthy, Flag.eqTracing, minimalIXf, QOpts.symmetric, need, ceilLog2, h0, ← hA]
  have hfits : ∀ n : ℤ, Fits q.rm s.f xs n ↔ need s.f A ≤ n := by
    intro n
    rw [need_le_iff (absmax_nonneg _)]
    constructor
    · intro h
      obtain ⟨y, hy, hy'⟩ := absmax_mem (xs := xs.map (roundAt q.rm s.f)) (by simpa using hne)
      obtain ⟨z, hz, rfl⟩ := List.mem_map.1 hy
      rw [← hy']; exact h z hz
    · intro h x hx
      exact (le_absmax (List.mem_map_of_mem hx)).trans h
  rw [hcall]
  refine ⟨⟨need s.f A, ⟨(hfits _).2 le_rfl, fun n hn => (hfits n).1 hn⟩, ?_, ?_⟩, ?_, rfl, rfl, rfl⟩
  · intro d hd; simp [hd, decayMax]
  · intro hd; simp [hd, decayMax]
  · rw [hfits]
    have : (need s.f A : ℚ) ≤ decayMax s.iw q.decay (need s.f A) := by
      unfold decayMax; cases q.decay <;> simp
    have := roundHalfEven_mono this
    rwa [roundHalfEven_int] at this

/-- **C12** The same for kbi (`b ≥ 1`, unconstrained): exactly the larger of "previous minus decay" and the least `n` whose
top value `2^n (1 - 2^-b)` covers the batch (up to the keras epsilon slack used by the code). -/
theorem C12_kbi_training_step (q : QOpts) (hom : q.om = .WRAP) (htr : q.trainable = true) (hic : q.ic = none)
    (s : KBIState) (hb : 1 ≤ s.b) (xs : List ℚ) (hne : xs ≠ []) :
    let s' := (kbiCall q s .true xs).1
    (∃ n : ℤ, IsLeast {n : ℤ | ∀ x ∈ xs, |x| + kerasEps ≤ 2 ^ n * (1 - 2 ^ (-s.b) + kerasEps)} n ∧
      (∀ d, q.decay = some d → s'.iw = max (s.iw - d) n) ∧ (q.decay = none → s'.iw = n) ∧ n ≤ s'.i) ∧
    s'.k = s.k ∧ s'.b = s.b ∧ (kbiCall q s .true xs).2 = xs.map (roundAt q.rm s'.f) := by
  set A := absmax xs with hA
  have h0 : A ≥ 0 := absmax_nonneg _
  have hcall : kbiCall q s .true xs = ({ s with iw := decayMax s.iw q.decay (needB s.b A) },
      xs.map (roundAt q.rm (KBIState.f { s with iw := decayMax s.iw q.decay (needB s.b A) }))) := by
    have hb'' : s.b > 0 := by omega
    have h2 : minimalIXb A s.b q.symmetric = needB s.b A := by
      simp [minimalIXb, QOpts.symmetric, hom, hb'', h0, needB, ceilLog2]
    simp [kbiCall, hom, htr, Flag.truthy, Flag.eqTracing, ← hA, h2, hic, applyC]
  have hfits : ∀ n : ℤ, (∀ x ∈ xs, |x| + kerasEps ≤ 2 ^ n * (1 - 2 ^ (-s.b) + kerasEps)) ↔ needB s.b A ≤ n := by
    intro n
    rw [needB_le_iff (by omega) h0]
    constructor
    · intro h
      obtain ⟨y, hy, hy'⟩ := absmax_mem hne
      rw [hA, ← hy']; exact h y hy
    · intro h x hx
      have := le_absmax hx
      linarith
  rw [hcall]
  refine ⟨⟨needB s.b A, ⟨(hfits _).2 le_rfl, fun n hn => (hfits n).1 hn⟩, ?_, ?_, ?_⟩, rfl, rfl, rfl⟩
  · intro d hd; simp [hd, decayMax]
  · intro hd; simp [hd, decayMax]
  · have : (needB s.b A : ℚ) ≤ decayMax s.iw q.decay (needB s.b A) := by
      unfold decayMax; cases q.decay <;> simp
    have := roundHalfEven_mono this
    rwa [roundHalfEven_int] at this

example : let q : QOpts := ⟨.RND, .WRAP, true, false, none, some (1/8)⟩
    (kifCall q ⟨true, 5, 2⟩ .true [3, -2]).1.iw = 39/8 ∧ (kifCall q ⟨true, 5, 2⟩ .true [37]).1.iw = 6 := by
  decide +kernel

/-! ## C13 -/

/-- **C13** (kbi) After every training or tracing call of a WRAP kbi quantizer the stored `i` satisfies the constraint. -/
theorem C13_kbi_constraint (q : QOpts) (hom : q.om = .WRAP) (htr : q.trainable = true) (hs : Sane q.ic)
    (s : KBIState) (fl : Flag) (hfl : fl = .true ∨ fl = .tracing) (xs : List ℚ) :
    Satisfies q.ic (kbiCall q s fl xs).1.iw := by
  have hsat : ∀ w, Satisfies q.ic (applyC q.ic w) := by
    intro w
    cases hc : q.ic with
    | none => trivial
    | some c =>
      cases c with
      | minMax lo hi =>
        have hs' : lo ≤ hi := by simpa [hc, Sane] using hs
        simp only [Satisfies, applyC, Constraint.apply]
        exact ⟨le_min (le_max_right _ _) hs', min_le_right _ _⟩
      | constant v => rfl
      | min lo => exact le_max_right _ _
      | max hi => exact min_le_right _ _
  rcases hfl with rfl | rfl
  · simp only [kbiCall, hom, htr, Flag.truthy, Flag.eqTracing]
    exact hsat _
  · simp only [kbiCall, hom, htr, Flag.truthy, Flag.eqTracing]
    exact hsat _

/-- **C13** is false for kif: the constraint is applied to a value that is then thrown away
(fixed_point_quantizer.py L410-414).  With the default `MinMax(-23, 23)` one training step stores 25. -/
theorem C13_kif_violated : ∃ (q : QOpts) (s : KIFState) (xs : List ℚ), q.om = .WRAP ∧ q.trainable = true ∧
    q.ic = some (.minMax (-23) 23) ∧ Satisfies q.ic s.iw ∧ ¬ Satisfies q.ic (kifCall q s .true xs).1.iw ∧
    (kifCall q s .true xs).1.iw = 25 := by
  refine ⟨⟨.RND, .WRAP, true, false, some (.minMax (-23) 23), none⟩, ⟨true, 4, 2⟩, [2 ^ 24], rfl, rfl, rfl, ?_, ?_, ?_⟩
  · simp only [Satisfies]; norm_num
  · simp only [Satisfies]; decide +kernel
  · decide +kernel

/-- **C13** (kif, partial) What does hold: after `trace_minmax` with reset on at least one batch, an integer `MinMax`
constraint is honoured; and a training step respects the upper bound `hi` if the data fit in `hi` bits and the decay is
non-negative.  Missing: training steps on larger data (`C13_kif_violated`) and the lower bound. -/
theorem C13_kif_partial (q : QOpts) (hom : q.om = .WRAP) (htr : q.trainable = true) (lo hi : ℤ) (hlh : lo ≤ hi)
    (hic : q.ic = some (.minMax lo hi)) (hlo : -1000000000 ≤ lo) (s : KIFState) :
    (∀ b bs, lo ≤ (kifTraceMinmax q true s (b :: bs)).i ∧ (kifTraceMinmax q true s (b :: bs)).i ≤ hi) ∧
    (∀ xs, xs ≠ [] → Fits q.rm s.f xs hi → s.iw ≤ hi → (∀ d, q.decay = some d → 0 ≤ d) →
      (kifCall q s .true xs).1.iw ≤ hi) := by
  have hc : ∀ (f : ℤ) m, cneed q.ic f m = min (max (need f m) lo) hi := by
    intro f m
    rw [cneed, hic]; simp only [applyC, Constraint.apply]
    rw [← Int.cast_max, ← Int.cast_min, roundHalfEven_int]
  have hr : (kifReset q s).i = -1000000000 := by
    rw [kifReset_eq hom htr]
    have : roundHalfEven (-1000000000 : ℚ) = -1000000000 := by decide +kernel
    simp [KIFState.i, this]
  constructor
  · intro b bs
    simp only [kifTraceMinmax, if_true]
    constructor
    · have := ((kifTrace_i_le_iff hom htr (kifReset q s) (b :: bs) _).1 le_rfl).2 b (by simp)
      refine le_trans ?_ this
      rw [hc]; omega
    · rw [kifTrace_i_le_iff hom htr, hr]
      refine ⟨by omega, fun b _ => ?_⟩
      rw [hc]; omega
  · intro xs hne hfit hiw hd
    obtain ⟨⟨n, hn, h1, h2⟩, -⟩ := C12_kif_training_step q hom htr s xs hne
    have hnhi : n ≤ hi := hn.2 hfit
    have hq : (n : ℚ) ≤ hi := by exact_mod_cast hnhi
    cases hdec : q.decay with
    | none => rw [h2 hdec]; exact hq
    | some d => rw [h1 d hdec]; exact max_le (by have := hd d hdec; linarith) hq

/-! ## C14 -/

/-- **C14** (a) The flag `trace_minmax` passes is falsy, equals `'tracing'` and is not `True`; the bare string would be
truthy. -/
theorem C14_flag : Flag.tracing.truthy = false ∧ Flag.tracing.eqTracing = true ∧ Flag.tracing.isTrue = false ∧
    Flag.rawString.truthy = true := by decide

/-- **C14** (b) `False` and `None` leave the state of every quantizer unchanged, and so does every flag if the quantizer is
not WRAP or not trainable. -/
theorem C14_no_state_change (q : QOpts) (fl : Flag) (xs : List ℚ)
    (h : fl = .none ∨ fl = .false ∨ q.om ≠ .WRAP ∨ q.trainable = false) :
    (∀ s, (kifCall q s fl xs).1 = s) ∧ (∀ s, (kbiCall q s fl xs).1 = s) := by
  rcases h with rfl | rfl | h | h
  · constructor <;> intro s <;> simp only [kifCall, kbiCall, Flag.truthy, Flag.eqTracing] <;>
      split_ifs <;> simp_all
  · constructor <;> intro s <;> simp only [kifCall, kbiCall, Flag.truthy, Flag.eqTracing] <;>
      split_ifs <;> simp_all
  · constructor <;> intro s <;> simp [kifCall, kbiCall, h]
  · constructor <;> intro s <;> simp [kifCall, kbiCall, h]

/-- **C14** (c) Tracing never trains: it never lowers `i`, never clears `k`, never touches `f` (kif), while `True` never
touches `k`; and quantizers that do not calibrate (SAT, SAT_SYM, or frozen) produce their inference output under tracing. -/
theorem C14_tracing_is_not_training (q : QOpts) (s : KIFState) (xs : List ℚ) :
    (q.om = .WRAP → q.trainable = true →
      s.i ≤ (kifCall q s .tracing xs).1.i ∧ (s.k = true → (kifCall q s .tracing xs).1.k = true) ∧
      (kifCall q s .tracing xs).1.f = s.f) ∧
    (kifCall q s .true xs).1.k = s.k ∧
    (q.om ≠ .WRAP ∨ q.trainable = false → (kifCall q s .tracing xs).2 = (kifCall q s .false xs).2 ∧
      (kifCall q s .none xs).2 = (kifCall q s .false xs).2) := by
  refine ⟨?_, ?_, ?_⟩
  · intro hom htr
    refine ⟨?_, ?_, ?_⟩
    · rw [kifCall_tracing_i hom htr]; exact le_max_left _ _
    · intro hk; rw [kifCall_tracing hom htr]; simp [hk]
    · simp only [KIFState.f, kifCall_tracing_f hom htr]
  · simp only [kifCall, Flag.truthy, Flag.eqTracing]; split_ifs <;> rfl
  · rintro (h | h) <;> simp [kifCall, h, Flag.isTrue]

example : (kifCall ⟨.RND, .WRAP, true, false, none, none⟩ ⟨false, 0, 2⟩ .tracing [-9]).1 = ⟨true, 4, 2⟩ := by
  decide +kernel

end HGQ
