import Verif.Model.Params
import Verif.Lemmas.Trace
import Verif.Props.FixedPoint
import Verif.Props.Trace

/-!
# C92: quantized parameters are not wrapped

A kernel or bias read at inference should be the parameter rounded to the precision of its quantizer.  For WRAP
quantizers of weights (`is_weight`) that is always so; for the quantizers of biases (by default WRAP and not `is_weight`)
it needs a training or tracing call after the last optimizer step, and a sign bit.
-/
namespace HGQ
open Spec

/-- **C92** (what is read) The parameters and the trained width that inference reads are those of the last optimizer
step, whatever calls and resets follow it. -/
theorem C92_reads_last_step (q : QOpts) (pre post : List PEvent) (ps : List ℚ) (w : ℚ)
    (hpost : ∀ e ∈ post, ∀ ps' w', e ≠ .step ps' w') :
    (∀ st, (kifParams q st (pre ++ .step ps w :: post)).1 = ps ∧ (kifParams q st (pre ++ .step ps w :: post)).2.fw = w) ∧
    (∀ st, (kbiParams q st (pre ++ .step ps w :: post)).1 = ps ∧ (kbiParams q st (pre ++ .step ps w :: post)).2.bw = w) := by
  have h1 : ∀ (post : List PEvent) (st : List ℚ × KIFState), (∀ e ∈ post, ∀ ps' w', e ≠ .step ps' w') →
      (kifParams q st post).1 = st.1 ∧ (kifParams q st post).2.fw = st.2.fw := by
    intro post
    induction post with
    | nil => exact fun st _ => ⟨rfl, rfl⟩
    | cons e post ih =>
      intro st h
      obtain ⟨a, b⟩ := ih (kifParam q st e) (fun e' he' => h e' (List.mem_cons_of_mem _ he'))
      have : (kifParam q st e).1 = st.1 ∧ (kifParam q st e).2.fw = st.2.fw := by
        cases e with
        | step ps' w' => exact absurd rfl (h _ List.mem_cons_self ps' w')
        | reset => simp only [kifParam, kifReset]; split_ifs <;> simp
        | call fl => simp only [kifParam, kifCall]; split_ifs <;> simp
      exact ⟨a.trans this.1, b.trans this.2⟩
  have h2 : ∀ (post : List PEvent) (st : List ℚ × KBIState), (∀ e ∈ post, ∀ ps' w', e ≠ .step ps' w') →
      (kbiParams q st post).1 = st.1 ∧ (kbiParams q st post).2.bw = st.2.bw := by
    intro post
    induction post with
    | nil => exact fun st _ => ⟨rfl, rfl⟩
    | cons e post ih =>
      intro st h
      obtain ⟨a, b⟩ := ih (kbiParam q st e) (fun e' he' => h e' (List.mem_cons_of_mem _ he'))
      have : (kbiParam q st e).1 = st.1 ∧ (kbiParam q st e).2.bw = st.2.bw := by
        cases e with
        | step ps' w' => exact absurd rfl (h _ List.mem_cons_self ps' w')
        | reset => simp only [kbiParam, kbiReset]; split_ifs <;> simp
        | call fl => simp only [kbiParam, kbiCall]; split_ifs <;> simp
      exact ⟨a.trans this.1, b.trans this.2⟩
  constructor
  · intro st
    have := h1 post (kifParam q (kifParams q st pre) (.step ps w)) hpost
    simpa [kifParams, kifParam] using this
  · intro st
    have := h2 post (kbiParam q (kbiParams q st pre) (.step ps w)) hpost
    simpa [kbiParams, kbiParam] using this

/-! ## Weight quantizers -/

/-- **C92** (kif weights) Behind a trainable WRAP kif quantizer with `is_weight`, whatever the history, inference reads
every parameter rounded at the current `f` of the quantizer: no wrap, whatever `k` and `i` are. -/
theorem C92_kif_weight_never_wraps (q : QOpts) (hom : q.om = .WRAP) (htr : q.trainable = true)
    (hw : q.isWeight = true) (st : List ℚ × KIFState) (evs : List PEvent) :
    let t := kifParams q st evs
    (kifRead q t).length = t.1.length ∧
    ∀ (j : ℕ) (x : ℚ), t.1[j]? = some x → ∃ y, (kifRead q t)[j]? = some y ∧ IsRounded q.rm t.2.f x y := by
  intro t
  have : kifRead q t = t.1.map (roundAt q.rm t.2.f) := by
    simp [kifRead, kifCall, hom, htr, hw, Flag.truthy, Flag.eqTracing]
  rw [this]
  refine ⟨by simp, fun j x hx => ⟨_, by simp [List.getElem?_map, hx], roundAt_isRounded ..⟩⟩

/-- **C92** (kbi weights) The same for kbi with `is_weight` and `round_mode='RND'`. -/
theorem C92_kbi_weight_never_wraps (q : QOpts) (hom : q.om = .WRAP) (htr : q.trainable = true)
    (hw : q.isWeight = true) (hrm : q.rm = .RND) (st : List ℚ × KBIState) (evs : List PEvent) :
    let t := kbiParams q st evs
    (kbiRead q t).length = t.1.length ∧
    ∀ (j : ℕ) (x : ℚ), t.1[j]? = some x → ∃ y, (kbiRead q t)[j]? = some y ∧ IsRounded q.rm t.2.f x y := by
  intro t
  have : kbiRead q t = t.1.map (roundAt q.rm t.2.f) := by
    simp [kbiRead, kbiCall, hom, htr, hw, hrm, Flag.truthy, Flag.eqTracing]
  rw [this]
  refine ⟨by simp, fun j x hx => ⟨_, by simp [List.getElem?_map, hx], roundAt_isRounded ..⟩⟩

/-- … and is false for kbi with `is_weight` in the other round modes: the parameter `4` of a quantizer with range
`[-4, 4)` is read as `-4`. -/
theorem C92_kbi_weight_violated (rm : RoundMode) (hrm : rm ≠ .RND) :
    ∃ (q : QOpts) (st : List ℚ × KBIState), q.rm = rm ∧ q.om = .WRAP ∧ q.trainable = true ∧ q.isWeight = true ∧
      st.1 = [4] ∧ kbiRead q st = [-4] ∧ roundAt rm st.2.f 4 = 4 := by
  refine ⟨⟨rm, .WRAP, true, true, none, none⟩, ⟨[4], ⟨true, 8, 2⟩⟩, rfl, rfl, rfl, rfl, rfl, ?_⟩
  cases rm
  · exact absurd rfl hrm
  · decide +kernel
  · decide +kernel

/-- The value read may lie outside the range the quantizer reports: after one optimizer step from `1` to `9`, the
reported range of the quantizer is still `[-4, 4 - 2^-6]`. -/
theorem C92_weight_range_violated (rm : RoundMode) :
    let q : QOpts := ⟨rm, .WRAP, true, true, none, none⟩
    let t := kifParams q ([1], ⟨true, 2, 6⟩) [.call .true, .step [9] 6]
    kifRead q t = [9] ∧ qmax t.2.i t.2.f < 9 := by
  cases rm <;> decide +kernel

/-! ## Bias quantizers -/

/-- Every parameter of the cell is inside the range of its kif quantizer. -/
def KIFCovers (q : QOpts) (st : List ℚ × KIFState) : Prop :=
  Fits q.rm st.2.f st.1 st.2.i ∧ ∀ x ∈ st.1, roundAt q.rm st.2.f x < 0 → st.2.k = true

theorem kifCovers_read {q : QOpts} (hom : q.om = .WRAP) (st : List ℚ × KIFState)
    (h : KIFCovers q st) : kifRead q st = st.1.map (roundAt q.rm st.2.f) := by
  by_cases h1 : q.trainable = true ∧ q.isWeight = true
  · simp [kifRead, kifCall, hom, h1, Flag.truthy, Flag.eqTracing]
  · have hb : kifRead q st = st.1.map (quantize q.rm .WRAP st.2.k st.2.i st.2.f) := by
      by_cases h2 : q.trainable = true
      · have h3 : q.isWeight = false := by
          cases h4 : q.isWeight
          · rfl
          · exact absurd ⟨h2, h4⟩ h1
        simp only [kifRead, kifCall, hom, h2, h3, Flag.truthy, Flag.eqTracing, Flag.isTrue]
        rfl
      · simp only [kifRead, kifCall, hom, h2, Flag.isTrue]
        simp [quantize]
    rw [hb]
    refine List.map_congr_left fun x hx => ?_
    exact quantize_of_cover (h.1 x hx) (h.2 x hx)

/-- Everything but a reset keeps the sign bit. -/
theorem kifParam_k (q : QOpts) (st : List ℚ × KIFState) (e : PEvent) (he : e ≠ .reset) (h : st.2.k = true) :
    (kifParam q st e).2.k = true := by
  cases e with
  | step ps w => exact h
  | reset => exact absurd rfl he
  | call fl =>
    simp only [kifParam, kifCall]
    split_ifs <;> simp [h]

theorem kifParams_k (q : QOpts) (st : List ℚ × KIFState) (evs : List PEvent) (he : PEvent.reset ∉ evs)
    (h : st.2.k = true) : (kifParams q st evs).2.k = true := by
  induction evs generalizing st with
  | nil => exact h
  | cons e evs ih =>
    simp only [List.mem_cons, not_or] at he
    exact ih _ he.2 (kifParam_k q st e (Ne.symm he.1) h)

theorem kifCall_raw_true (q : QOpts) (s : KIFState) (xs : List ℚ) (hom : q.om = .WRAP) (htr : q.trainable = true) :
    kifCall q s .rawString xs = kifCall q s .true xs := by
  simp [kifCall, hom, htr, Flag.truthy, Flag.eqTracing]

theorem kifCovers_training {q : QOpts} (hom : q.om = .WRAP) (htr : q.trainable = true) (st : List ℚ × KIFState)
    (hk : ∀ x ∈ st.1, roundAt q.rm st.2.f x < 0 → st.2.k = true) : KIFCovers q (kifParam q st (.call .true)) := by
  by_cases hne : st.1 = []
  · constructor <;> simp [kifParam, hne, Fits]
  · obtain ⟨-, h2, h3, h4, -⟩ := C12_kif_training_step q hom htr st.2 st.1 hne
    refine ⟨?_, ?_⟩
    · simpa only [kifParam, h4] using h2
    · intro x hx h
      simp only [kifParam, h4, h3] at h hx ⊢
      exact hk x hx h

/-- The constraint on `i` does not bind from above on the widths the parameters need: some width `M` holds all of them,
and the constraint never lowers a width up to `M`. -/
def RoomFor (q : QOpts) (st : List ℚ × KIFState) : Prop :=
  ∃ M : ℤ, (∀ n : ℤ, n ≤ M → (n : ℚ) ≤ applyC q.ic n) ∧ Fits q.rm st.2.f st.1 M

theorem kifCovers_tracing_new {q : QOpts} (hom : q.om = .WRAP) (htr : q.trainable = true) (st : List ℚ × KIFState)
    (hr : RoomFor q st) : KIFCovers q (kifParam q st (.call .tracing)) := by
  obtain ⟨M, hM, hfit⟩ := hr
  have hf : (kifCall q st.2 .tracing st.1).1.f = st.2.f := by
    simp only [KIFState.f, kifCall_tracing_f hom htr]
  refine ⟨?_, ?_⟩
  · intro x hx
    simp only [kifParam] at hx ⊢
    rw [hf, kifCall_tracing_i hom htr]
    set A := absmax (st.1.map (roundAt q.rm st.2.f)) with hA
    have hAM : need st.2.f A ≤ M := by
      rw [need_le_iff (absmax_nonneg _)]
      obtain ⟨y, hy, hy'⟩ := absmax_mem (xs := st.1.map (roundAt q.rm st.2.f)) (by
        intro h; rw [List.map_eq_nil_iff] at h; rw [h] at hx; simp at hx)
      obtain ⟨z, hz, rfl⟩ := List.mem_map.1 hy
      rw [← hy']; exact hfit z hz
    have h1 : need st.2.f A ≤ cneed q.ic st.2.f A := by
      have := roundHalfEven_mono (hM _ hAM)
      rwa [roundHalfEven_int] at this
    have h2 : need st.2.f A ≤ max st.2.i (cneed q.ic st.2.f A) := h1.trans (le_max_right _ _)
    rw [need_le_iff (absmax_nonneg _)] at h2
    exact (le_absmax (List.mem_map_of_mem hx)).trans h2
  · intro x hx h
    simp only [kifParam] at h hx ⊢
    rw [hf] at h
    rw [kifCall_tracing hom htr]
    simp only [Bool.or_eq_true]
    right
    rw [anyNeg_iff]
    exact ⟨_, List.mem_map_of_mem hx, h⟩

/-- A call, whatever its flag, keeps the parameters inside the range. -/
theorem kifCovers_call {q : QOpts} (hom : q.om = .WRAP) (htr : q.trainable = true) (st : List ℚ × KIFState)
    (h : KIFCovers q st) (fl : Flag) : KIFCovers q (kifParam q st (.call fl)) ∧
      (kifParam q st (.call fl)).2.f = st.2.f := by
  have htrain := kifCovers_training hom htr st h.2
  have hkeep : ∀ fl', fl' = Flag.none ∨ fl' = Flag.false → kifParam q st (.call fl') = st := by
    rintro fl' (rfl | rfl) <;> simp only [kifParam, kifCall, hom, htr, Flag.truthy, Flag.eqTracing] <;>
      cases q.isWeight <;> simp
  have hft : (kifParam q st (.call .true)).2.f = st.2.f := by
    simp [kifParam, kifCall, hom, htr, Flag.truthy, KIFState.f]
  cases fl with
  | none => rw [hkeep _ (Or.inl rfl)]; exact ⟨h, rfl⟩
  | false => rw [hkeep _ (Or.inr rfl)]; exact ⟨h, rfl⟩
  | true => exact ⟨htrain, hft⟩
  | rawString =>
    have : kifParam q st (.call .rawString) = kifParam q st (.call .true) := by
      simp only [kifParam, kifCall_raw_true q _ _ hom htr]
    rw [this]; exact ⟨htrain, hft⟩
  | tracing =>
    have hf : (kifCall q st.2 .tracing st.1).1.f = st.2.f := by
      simp only [KIFState.f, kifCall_tracing_f hom htr]
    refine ⟨⟨?_, ?_⟩, hf⟩
    · intro x hx
      simp only [kifParam] at hx ⊢
      rw [hf, kifCall_tracing_i hom htr]
      have := h.1 x hx
      refine this.trans ?_
      have : (2 : ℚ) ^ st.2.i ≤ 2 ^ max st.2.i (cneed q.ic st.2.f (absmax (st.1.map (roundAt q.rm st.2.f)))) :=
        zpow_le_zpow_right₀ (by norm_num) (le_max_left _ _)
      simp only [high]; linarith
    · intro x hx hneg
      simp only [kifParam] at hneg hx ⊢
      rw [hf] at hneg
      rw [kifCall_tracing hom htr]
      simp [h.2 x hx hneg]

theorem kifCovers_calls {q : QOpts} (hom : q.om = .WRAP) (htr : q.trainable = true) (fls : List Flag) :
    ∀ st : List ℚ × KIFState, KIFCovers q st →
      KIFCovers q (kifParams q st (fls.map .call)) ∧ (kifParams q st (fls.map .call)).2.f = st.2.f ∧
        (kifParams q st (fls.map .call)).1 = st.1 := by
  induction fls with
  | nil => exact fun st h => ⟨h, rfl, rfl⟩
  | cons fl fls ih =>
    intro st h
    obtain ⟨h1, h2⟩ := kifCovers_call hom htr st h fl
    obtain ⟨h3, h4, h5⟩ := ih _ h1
    exact ⟨h3, h4.trans h2, h5⟩

/-- **C92** (kif biases, partial) Let `pre` be any history, then a call `c` of the layer, then any calls with any flags
(no optimizer step after `c`).  If `c` is a calibration (tracing) call and the constraint on `i` leaves room, or `c` is a
training call and the quantizer was built with a sign bit and never reset, then inference reads every parameter rounded
at `f`, and what it reads is inside the range the quantizer reports.
Missing: parameters changed by an optimizer step since (see `C92_bias_stale_violated`), and training after a reset
(`C92_bias_sign_violated`). -/
theorem C92_kif_bias_partial (q : QOpts) (hom : q.om = .WRAP) (htr : q.trainable = true)
    (st : List ℚ × KIFState) (pre : List PEvent) (c : Flag) (fls : List Flag)
    (hc : (c = .tracing ∧ RoomFor q (kifParams q st pre)) ∨
      (c = .true ∧ st.2.k = true ∧ PEvent.reset ∉ pre)) :
    let t := kifParams q st (pre ++ .call c :: fls.map .call)
    t.1 = (kifParams q st pre).1 ∧ t.2.f = (kifParams q st pre).2.f ∧
    (kifRead q t).length = t.1.length ∧
    ∀ (j : ℕ) (x : ℚ), t.1[j]? = some x → ∃ y, (kifRead q t)[j]? = some y ∧ IsRounded q.rm t.2.f x y ∧
      qmin q.om t.2.k t.2.i t.2.f ≤ y ∧ y ≤ qmax t.2.i t.2.f := by
  intro t
  set s0 := kifParams q st pre with hs0
  have ht : t = kifParams q (kifParam q s0 (.call c)) (fls.map .call) := by
    simp [t, kifParams, hs0]
  have hcov : KIFCovers q (kifParam q s0 (.call c)) ∧ (kifParam q s0 (.call c)).2.f = s0.2.f := by
    rcases hc with ⟨rfl, hr⟩ | ⟨rfl, hk, hp⟩
    · refine ⟨kifCovers_tracing_new hom htr s0 hr, ?_⟩
      simp only [kifParam, KIFState.f, kifCall_tracing_f hom htr]
    · refine ⟨kifCovers_training hom htr s0 (fun _ _ _ => kifParams_k q st pre hp hk), ?_⟩
      simp [kifParam, kifCall, hom, htr, Flag.truthy, KIFState.f]
  obtain ⟨h1, h2, h3⟩ := kifCovers_calls hom htr fls _ hcov.1
  rw [← ht] at h1 h2 h3
  refine ⟨h3, h2.trans hcov.2, ?_⟩
  rw [kifCovers_read hom t h1]
  refine ⟨by simp, fun j x hx => ⟨roundAt q.rm t.2.f x, by simp [List.getElem?_map, hx], roundAt_isRounded .., ?_, ?_⟩⟩
  · have hx' : x ∈ t.1 := List.mem_of_getElem? hx
    have hfit : |roundAt q.rm t.2.f x| ≤ 2 ^ t.2.i - 2 ^ (-t.2.f) := h1.1 x hx'
    have hp := two_zpow_pos (-t.2.f)
    rw [hom]
    by_cases hn : roundAt q.rm t.2.f x < 0
    · rw [h1.2 x hx' hn]
      simp only [qmin, kq, if_true]
      rw [abs_of_neg hn] at hfit
      linarith
    · have : qmin .WRAP t.2.k t.2.i t.2.f ≤ 0 := by
        have := two_zpow_pos t.2.i
        unfold qmin kq
        cases t.2.k <;> simp <;> linarith
      linarith
  · exact (le_abs_self _).trans (h1.1 x (List.mem_of_getElem? hx))

/-- both cases of the hypothesis, with optimizer steps before the call -/
example : let q : QOpts := ⟨.RND, .WRAP, true, false, some (.minMax (-23) 23), some (1/100)⟩
    let st : List ℚ × KIFState := ([0], ⟨true, 2, 6⟩)
    let pre : List PEvent := [.call .true, .step [-9/2] 1, .call .false, .step [-21/4] 3]
    PEvent.reset ∉ pre ∧ kifRead q (kifParams q st (pre ++ [.call .true])) = [-21/4] ∧
    kifRead q (kifParams q st pre) ≠ [-21/4] := by
  refine ⟨by simp, by decide +kernel, by decide +kernel⟩

example : let q : QOpts := ⟨.RND, .WRAP, true, false, some (.minMax (-23) 23), some (1/100)⟩
    let st : List ℚ × KIFState := ([0], ⟨true, 2, 6⟩)
    RoomFor q (kifParams q st [.step [-9/2] 1, .reset]) := by
  refine ⟨23, ?_, ?_⟩
  · intro n hn
    have : (n : ℚ) ≤ 23 := by exact_mod_cast hn
    simp only [applyC, Constraint.apply]
    exact le_min (le_max_left _ _) this
  · unfold Fits high; decide +kernel

/-- **C92** is false right after an optimizer step (which is how `fit` ends): for every signed state of positive width,
a parameter at the top of the range (read correctly) that the optimizer moves up by one grid step is read at the bottom
of the range, `-2^i`. -/
theorem C92_bias_stale_violated (q : QOpts) (hom : q.om = .WRAP) (hw : q.isWeight = false) (s : KIFState)
    (hk : s.k = true) (h : 0 ≤ s.i + s.f) :
    let top : ℚ := 2 ^ s.i - 2 ^ (-s.f)
    kifRead q ([top], s) = [top] ∧
    kifRead q (kifParam q ([top], s) (.step [top + 2 ^ (-s.f)] s.fw)) = [- 2 ^ s.i] := by
  intro top
  have hread : ∀ x, kifRead q ([x], s) = [quantize q.rm .WRAP s.k s.i s.f x] := by
    intro x
    by_cases h2 : q.trainable = true
    · simp only [kifRead, kifCall, hom, h2, hw, Flag.truthy, Flag.eqTracing, Flag.isTrue]
      rfl
    · simp only [kifRead, kifCall, hom, h2, Flag.isTrue]
      simp [quantize]
  have hw' : 0 < width s.k s.i s.f := by simp [width, hk]; omega
  have hp := two_zpow_pos (-s.f)
  have hP := two_zpow_pos s.i
  have hround : ∀ n : ℤ, roundAt q.rm s.f ((n : ℚ) * 2 ^ (-s.f)) = n * 2 ^ (-s.f) := by
    intro n
    unfold roundAt
    rw [mul_assoc, ← zpow_add₀ (by norm_num), neg_add_cancel, zpow_zero, mul_one, roundMant_int]
  have hI : (2 : ℚ) ^ s.i = ((2 ^ (s.i + s.f).toNat : ℤ) : ℚ) * 2 ^ (-s.f) := by
    push_cast
    rw [← zpow_natCast, Int.toNat_of_nonneg h, ← zpow_add₀ (by norm_num)]; congr 1; ring
  have htop : top = ((2 ^ (s.i + s.f).toNat - 1 : ℤ) : ℚ) * 2 ^ (-s.f) := by
    simp only [top]; rw [hI]; push_cast; ring
  have hle : (2 : ℚ) ^ (-s.f) ≤ 2 ^ s.i := zpow_le_zpow_right₀ (by norm_num) (by omega)
  refine ⟨?_, ?_⟩
  · rw [hread]
    obtain ⟨-, -, h3⟩ := C05_wrap_modular q.rm s.k s.i s.f top hw'
    have hr : roundAt q.rm s.f top = top := by rw [htop]; exact hround _
    rw [hr] at h3
    rw [h3.2 ⟨by simp only [lowTC, hk, if_true, top]; linarith, le_rfl⟩]
  · have : kifParam q ([top], s) (.step [top + 2 ^ (-s.f)] s.fw) = ([2 ^ s.i], s) := by
      simp [kifParam, top]
    rw [this, hread]
    obtain ⟨⟨n, hn⟩, -, -⟩ := C05_wrap_modular q.rm s.k s.i s.f (2 ^ s.i) hw'
    have hr : roundAt q.rm s.f (2 ^ s.i) = 2 ^ s.i := by rw [hI]; exact hround _
    obtain ⟨⟨-, h1, h2⟩, h3, h4⟩ := C01_output_representable q.rm .WRAP s.k s.i s.f (2 ^ s.i) hw'
    rw [hr] at hn
    set y := quantize q.rm .WRAP s.k s.i s.f (2 ^ s.i) with hy
    rw [hk] at hn h1
    simp only [if_true, qmin, kq, qmax] at hn h1 h2
    rw [zpow_add₀ (by norm_num), zpow_one] at hn
    have hn1 : n = -1 := by
      have a1 : -(2 : ℚ) ^ s.i ≤ 2 ^ s.i + n * (2 * 2 ^ s.i) := by rw [← hn]; linarith
      have a2 : (2 : ℚ) ^ s.i + n * (2 * 2 ^ s.i) < 2 ^ s.i := by rw [← hn]; linarith
      have b1 : (-1 : ℚ) ≤ n := by
        by_contra hlt; push Not at hlt; nlinarith
      have b2 : (n : ℚ) < 0 := by
        by_contra hlt; push Not at hlt; nlinarith
      have c1 : (-1 : ℤ) ≤ n := by exact_mod_cast b1
      have c2 : n < 0 := by exact_mod_cast b2
      omega
    rw [hn, hn1]; push_cast; congr 1; ring

example : let q : QOpts := ⟨.RND, .WRAP, true, false, none, some (1/100)⟩
    kifRead q ([(4 : ℚ) - 1/64], ⟨true, 2, 6⟩) = [4 - 1/64] ∧ kifRead q ([4], ⟨true, 2, 6⟩) = [-4] := by
  decide +kernel

theorem kifRead_nonneg (q : QOpts) (hom : q.om = .WRAP) (hw : q.isWeight = false) (st : List ℚ × KIFState)
    (hk : st.2.k = false) : ∀ y ∈ kifRead q st, 0 ≤ y := by
  have hread : kifRead q st = st.1.map (quantize q.rm .WRAP st.2.k st.2.i st.2.f) := by
    by_cases h2 : q.trainable = true
    · simp only [kifRead, kifCall, hom, h2, hw, Flag.truthy, Flag.eqTracing, Flag.isTrue]
      rfl
    · simp only [kifRead, kifCall, hom, h2, Flag.isTrue]
      simp [quantize]
  rw [hread]
  intro y hy
  obtain ⟨x, -, rfl⟩ := List.mem_map.1 hy
  by_cases hwid : 0 < width st.2.k st.2.i st.2.f
  · obtain ⟨⟨-, h1, -⟩, -, -⟩ := C01_output_representable q.rm .WRAP st.2.k st.2.i st.2.f x hwid
    refine le_trans ?_ h1
    simp [qmin, kq, hk]
  · have : ¬ kz st.2.k + st.2.i + st.2.f > 0 := hwid
    simp [quantize, baseCall, this]

/-- **C92** is false for training after a calibration: `trace_minmax` with reset, run while no parameter of the cell
rounds below zero, takes the sign bit away, and training never gives it back: after any number of optimizer steps and
calls with any flag but a new tracing pass, inference reads every parameter of the cell as non-negative. -/
theorem C92_bias_sign_violated (q : QOpts) (hom : q.om = .WRAP) (htr : q.trainable = true) (hw : q.isWeight = false)
    (st : List ℚ × KIFState) (hpos : ∀ x ∈ st.1, 0 ≤ roundAt q.rm st.2.f x) (evs : List PEvent)
    (hev : PEvent.call .tracing ∉ evs) :
    ∀ y ∈ kifRead q (kifParams q st ([.reset, .call .tracing] ++ evs)), 0 ≤ y := by
  have hk0 : (kifParams q st [.reset, .call .tracing]).2.k = false := by
    simp only [kifParams, List.foldl_cons, List.foldl_nil, kifParam]
    rw [kifCall_tracing hom htr, kifReset_eq hom htr]
    simp only [Bool.false_or]
    rw [← Bool.not_eq_true, anyNeg_iff]
    rintro ⟨y, hy, hlt⟩
    obtain ⟨x, hx, rfl⟩ := List.mem_map.1 hy
    exact absurd (hpos x hx) (not_le.2 hlt)
  have hstep : ∀ (evs : List PEvent) (t : List ℚ × KIFState), PEvent.call .tracing ∉ evs → t.2.k = false →
      (kifParams q t evs).2.k = false := by
    intro evs
    induction evs with
    | nil => exact fun t _ h => h
    | cons e evs ih =>
      intro t he h
      simp only [List.mem_cons, not_or] at he
      refine ih _ he.2 ?_
      cases e with
      | step ps w => exact h
      | reset => simp [kifParam, kifReset_eq hom htr]
      | call fl =>
        cases fl <;> first | exact absurd rfl he.1 | skip
        all_goals simp only [kifParam, kifCall, hom, htr, hw, Flag.truthy, Flag.eqTracing]; simp [h]
  have : kifParams q st ([.reset, .call .tracing] ++ evs) = kifParams q (kifParams q st [.reset, .call .tracing]) evs := by
    simp [kifParams]
  rw [this]
  exact kifRead_nonneg q hom hw _ (hstep evs _ hev hk0)

/-- such a history: the bias `1/2` is calibrated, then trained to `-1/2`: inference reads `1/2` -/
example : let q : QOpts := ⟨.RND, .WRAP, true, false, none, some (1/100)⟩
    kifRead q (kifParams q ([1/2], ⟨true, 2, 6⟩) ([.reset, .call .tracing] ++ [.step [-1/2] 6, .call .true])) = [1/2] := by
  decide +kernel

/-! ## kbi biases (the default) -/

/-- Every parameter of the cell is inside the range of its kbi quantizer. -/
def KBIAll (q : QOpts) (st : List ℚ × KBIState) : Prop := ∀ x ∈ st.1, KBICovers q st.2 x

theorem kbiParam_k (q : QOpts) (st : List ℚ × KBIState) (e : PEvent) (he : e ≠ .reset) (h : st.2.k = true) :
    (kbiParam q st e).2.k = true := by
  cases e with
  | step ps w => exact h
  | reset => exact absurd rfl he
  | call fl =>
    simp only [kbiParam, kbiCall]
    split_ifs <;> simp [h]

theorem kbiParams_k (q : QOpts) (st : List ℚ × KBIState) (evs : List PEvent) (he : PEvent.reset ∉ evs)
    (h : st.2.k = true) : (kbiParams q st evs).2.k = true := by
  induction evs generalizing st with
  | nil => exact h
  | cons e evs ih =>
    simp only [List.mem_cons, not_or] at he
    exact ih _ he.2 (kbiParam_k q st e (Ne.symm he.1) h)

theorem kbiAll_training {q : QOpts} (hom : q.om = .WRAP) (htr : q.trainable = true) (hic : q.ic = none)
    (st : List ℚ × KBIState) (hb : 1 ≤ st.2.b) (hk : st.2.k = true) :
    KBIAll q (kbiParam q st (.call .true)) ∧ (kbiParam q st (.call .true)).2.b = st.2.b := by
  have hb' : (kbiCall q st.2 .true st.1).1.b = st.2.b := by
    simp [kbiCall, hom, htr, Flag.truthy, KBIState.b]
  refine ⟨?_, hb'⟩
  intro x hx
  simp only [kbiParam] at hx ⊢
  have hne : st.1 ≠ [] := by rintro h; rw [h] at hx; simp at hx
  obtain ⟨⟨n, hn, -, -, hni⟩, h3, h4, -⟩ := C12_kbi_training_step q hom htr hic st.2 hb st.1 hne
  refine ⟨?_, fun _ => by rw [h3]; exact hk⟩
  rw [h4]
  refine (hn.1 x hx).trans ?_
  refine mul_le_mul_of_nonneg_right ?_ (needB_den_pos (by omega)).le
  exact zpow_le_zpow_right₀ (by norm_num) hni

theorem kbiAll_tracing {q : QOpts} (hom : q.om = .WRAP) (htr : q.trainable = true) (hic : q.ic = none)
    (st : List ℚ × KBIState) (hb : 1 ≤ st.2.b) :
    KBIAll q (kbiParam q st (.call .tracing)) ∧ (kbiParam q st (.call .tracing)).2.b = st.2.b := by
  obtain ⟨h1, -, h3⟩ := kbiCall_tracing_props hom htr st.2 (by omega) hic st.1
  exact ⟨fun x hx => h3 x hx, by simp [kbiParam, KBIState.b, h1]⟩

theorem kbiAll_call {q : QOpts} (hom : q.om = .WRAP) (htr : q.trainable = true) (hic : q.ic = none)
    (st : List ℚ × KBIState) (hb : 1 ≤ st.2.b) (h : KBIAll q st) (fl : Flag)
    (hfl : st.2.k = true ∨ fl = .none ∨ fl = .false ∨ fl = .tracing) :
    KBIAll q (kbiParam q st (.call fl)) ∧ (kbiParam q st (.call fl)).2.b = st.2.b := by
  have hkeep : ∀ fl', fl' = Flag.none ∨ fl' = Flag.false → kbiParam q st (.call fl') = st := by
    rintro fl' (rfl | rfl) <;> simp only [kbiParam, kbiCall, hom, htr, Flag.truthy, Flag.eqTracing] <;>
      (split_ifs <;> simp_all)
  cases fl with
  | none => rw [hkeep _ (Or.inl rfl)]; exact ⟨h, rfl⟩
  | false => rw [hkeep _ (Or.inr rfl)]; exact ⟨h, rfl⟩
  | tracing => exact kbiAll_tracing hom htr hic st hb
  | true =>
    have hk : st.2.k = true := by simpa using hfl
    exact kbiAll_training hom htr hic st hb hk
  | rawString =>
    have hk : st.2.k = true := by simpa using hfl
    have : kbiParam q st (.call .rawString) = kbiParam q st (.call .true) := by
      simp [kbiParam, kbiCall, hom, htr, Flag.truthy, Flag.eqTracing]
    rw [this]; exact kbiAll_training hom htr hic st hb hk

theorem kbiAll_calls {q : QOpts} (hom : q.om = .WRAP) (htr : q.trainable = true) (hic : q.ic = none)
    (fls : List Flag) : ∀ st : List ℚ × KBIState, 1 ≤ st.2.b → KBIAll q st →
      (st.2.k = true ∨ ∀ fl ∈ fls, fl = .none ∨ fl = .false ∨ fl = .tracing) →
      KBIAll q (kbiParams q st (fls.map .call)) ∧ (kbiParams q st (fls.map .call)).2.b = st.2.b ∧
        (kbiParams q st (fls.map .call)).1 = st.1 := by
  induction fls with
  | nil => exact fun st _ h _ => ⟨h, rfl, rfl⟩
  | cons fl fls ih =>
    intro st hb h hfl
    obtain ⟨h1, h2⟩ := kbiAll_call hom htr hic st hb h fl
      (hfl.imp id (fun h => h fl List.mem_cons_self))
    obtain ⟨h3, h4, h5⟩ := ih _ (by rw [h2]; exact hb) h1
      (hfl.imp (fun hk => kbiParam_k q st _ (by simp) hk) (fun h => fun f hf => h f (List.mem_cons_of_mem _ hf)))
    exact ⟨h3, h4.trans h2, h5⟩

/-- **C92** (kbi biases, partial; the default configuration of biases is of this kind) As `C92_kif_bias_partial`, for kbi
without a constraint on `i` and with 1 to 22 bits; training calls after a calibration call are only covered while the
quantizer has its sign bit (they move `f`). -/
theorem C92_kbi_bias_partial (q : QOpts) (hom : q.om = .WRAP) (htr : q.trainable = true) (hic : q.ic = none)
    (hw : q.isWeight = false) (st : List ℚ × KBIState) (pre : List PEvent) (c : Flag) (fls : List Flag)
    (hb : 1 ≤ (kbiParams q st pre).2.b) (hb' : (kbiParams q st pre).2.b ≤ 22)
    (hc : (c = .tracing ∧ ∀ fl ∈ fls, fl = .none ∨ fl = .false ∨ fl = .tracing) ∨
      ((c = .true ∨ c = .tracing) ∧ st.2.k = true ∧ PEvent.reset ∉ pre)) :
    let t := kbiParams q st (pre ++ .call c :: fls.map .call)
    t.1 = (kbiParams q st pre).1 ∧ t.2.b = (kbiParams q st pre).2.b ∧
    (kbiRead q t).length = t.1.length ∧
    ∀ (j : ℕ) (x : ℚ), t.1[j]? = some x → ∃ y, (kbiRead q t)[j]? = some y ∧ IsRounded q.rm t.2.f x y ∧
      qmin q.om t.2.k t.2.i t.2.f ≤ y ∧ y ≤ qmax t.2.i t.2.f := by
  intro t
  set s0 := kbiParams q st pre with hs0
  have ht : t = kbiParams q (kbiParam q s0 (.call c)) (fls.map .call) := by
    simp [t, kbiParams, hs0]
  have hk0 : st.2.k = true ∧ PEvent.reset ∉ pre → s0.2.k = true := fun h => kbiParams_k q st pre h.2 h.1
  have hcov : KBIAll q (kbiParam q s0 (.call c)) ∧ (kbiParam q s0 (.call c)).2.b = s0.2.b := by
    rcases hc with ⟨rfl, -⟩ | ⟨rfl | rfl, hk⟩
    · exact kbiAll_tracing hom htr hic s0 hb
    · exact kbiAll_training hom htr hic s0 hb (hk0 hk)
    · exact kbiAll_tracing hom htr hic s0 hb
  have hpost : (kbiParam q s0 (.call c)).2.k = true ∨ ∀ fl ∈ fls, fl = .none ∨ fl = .false ∨ fl = .tracing := by
    rcases hc with ⟨-, h⟩ | ⟨-, hk⟩
    · exact Or.inr h
    · exact Or.inl (kbiParam_k q s0 _ (by simp) (hk0 hk))
  obtain ⟨h1, h2, h3⟩ := kbiAll_calls hom htr hic fls _ (by rw [hcov.2]; exact hb) hcov.1 hpost
  rw [← ht] at h1 h2 h3
  have hbt : t.2.b = s0.2.b := h2.trans hcov.2
  have hread : kbiRead q t = t.1.map (quantize q.rm .WRAP t.2.k t.2.i t.2.f) := by
    simp only [kbiRead, kbiCall, hom, htr, hw, Flag.truthy, Flag.eqTracing, Flag.isTrue]
    simp [quantize]
  refine ⟨h3, hbt, ?_⟩
  rw [hread]
  refine ⟨by simp, fun j x hx => ⟨quantize q.rm .WRAP t.2.k t.2.i t.2.f x, by simp [List.getElem?_map, hx], ?_⟩⟩
  have hq := quantize_of_KBICovers (q := q) (s := t.2) (by omega) (by omega) (h1 x (List.mem_of_getElem? hx))
  have hq' : quantize q.rm .WRAP t.2.k t.2.i t.2.f x = roundAt q.rm t.2.f x := hq
  refine ⟨by rw [hq']; exact roundAt_isRounded .., ?_⟩
  have hwid : 0 < width t.2.k t.2.i t.2.f := by
    have : t.2.f = t.2.b - t.2.i := rfl
    simp only [width]
    split_ifs <;> omega
  obtain ⟨⟨-, a, b⟩, -, -⟩ := C01_output_representable q.rm .WRAP t.2.k t.2.i t.2.f x hwid
  rw [hom]; exact ⟨a, b⟩

/-- the default bias quantizer: trained, then calibrated, then called; before the calibration it wraps -/
example : let q : QOpts := ⟨.RND, .WRAP, true, false, none, some (1/100)⟩
    let st : List ℚ × KBIState := ([0], ⟨true, 8, 2⟩)
    let pre : List PEvent := [.call .true, .step [17/4] 8]
    (kbiParams q st pre).2.b = 8 ∧ kbiRead q (kbiParams q st pre) ≠ [17/4] ∧
    kbiRead q (kbiParams q st (pre ++ [.call .tracing])) = [17/4] := by decide +kernel

/-- **C92** is false for training after a calibration, also for kbi (the default of biases): see
`C92_bias_sign_violated`. -/
theorem C92_kbi_bias_sign_violated (q : QOpts) (hom : q.om = .WRAP) (htr : q.trainable = true) (hw : q.isWeight = false)
    (hic : q.ic = none) (st : List ℚ × KBIState) (hb : 1 ≤ st.2.b) (hpos : ∀ x ∈ st.1, 0 ≤ x) (evs : List PEvent)
    (hev : PEvent.call .tracing ∉ evs) :
    ∀ y ∈ kbiRead q (kbiParams q st ([.reset, .call .tracing] ++ evs)), 0 ≤ y := by
  have hk0 : (kbiParams q st [.reset, .call .tracing]).2.k = false := by
    simp only [kbiParams, List.foldl_cons, List.foldl_nil, kbiParam]
    have hr : kbiReset q st.2 = { st.2 with k := false, iw := -1000000000 } := by simp [kbiReset, hom, htr]
    rw [hr, kbiCall_tracing hom htr (KBIState.mk false st.2.bw (-1000000000)) (show 0 < st.2.b by omega) hic]
    simp only [Bool.false_or]
    rw [← Bool.not_eq_true, anyNeg_iff]
    rintro ⟨y, hy, hlt⟩
    obtain ⟨x, hx, rfl⟩ := List.mem_map.1 hy
    rw [roundAt_neg_iff] at hlt
    have h0 : roundMant q.rm (0 : ℚ) = 0 := by simpa using roundMant_int q.rm 0
    have hmono : ∀ n : ℤ, 0 ≤ roundMant q.rm (x * 2 ^ n) := fun n => by
      have := roundMant_mono q.rm (mul_nonneg (hpos x hx) (two_zpow_pos n).le)
      rwa [h0] at this
    exact absurd hlt (not_lt.2 (hmono _))
  have hstep : ∀ (evs : List PEvent) (t : List ℚ × KBIState), PEvent.call .tracing ∉ evs → t.2.k = false →
      (kbiParams q t evs).2.k = false := by
    intro evs
    induction evs with
    | nil => exact fun t _ h => h
    | cons e evs ih =>
      intro t he h
      simp only [List.mem_cons, not_or] at he
      refine ih _ he.2 ?_
      cases e with
      | step ps w => exact h
      | reset => simp [kbiParam, kbiReset, hom, htr]
      | call fl =>
        cases fl <;> first | exact absurd rfl he.1 | skip
        all_goals simp only [kbiParam, kbiCall, hom, htr, hw, Flag.truthy, Flag.eqTracing]; simp [h]
  have : kbiParams q st ([.reset, .call .tracing] ++ evs) = kbiParams q (kbiParams q st [.reset, .call .tracing]) evs := by
    simp [kbiParams]
  rw [this]
  have hk := hstep evs _ hev hk0
  set t := kbiParams q (kbiParams q st [.reset, .call .tracing]) evs
  have hread : kbiRead q t = t.1.map (quantize q.rm .WRAP t.2.k t.2.i t.2.f) := by
    simp only [kbiRead, kbiCall, hom, htr, hw, Flag.truthy, Flag.eqTracing, Flag.isTrue]
    simp [quantize]
  rw [hread]
  intro y hy
  obtain ⟨x, -, rfl⟩ := List.mem_map.1 hy
  by_cases hwid : 0 < width t.2.k t.2.i t.2.f
  · obtain ⟨⟨-, h1, -⟩, -, -⟩ := C01_output_representable q.rm .WRAP t.2.k t.2.i t.2.f x hwid
    refine le_trans ?_ h1
    simp [qmin, kq, hk]
  · have : ¬ kz t.2.k + t.2.i + t.2.f > 0 := hwid
    simp [quantize, baseCall, this]

/-- such a history of the default bias quantizer -/
example : let q : QOpts := ⟨.RND, .WRAP, true, false, none, some (1/100)⟩
    kbiRead q (kbiParams q ([1/2], ⟨true, 8, 2⟩) ([.reset, .call .tracing] ++ [.step [-1/2] 8, .call .true])) = [1/2] := by
  decide +kernel

end HGQ
