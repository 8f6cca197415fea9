import Verif.Model.Rnn
import Verif.Props.Wrapper
import Verif.Props.Spiking

/-!
# C49 (GRU state bounded), C50 (replay of recurrent layers), C51 and C63 (weight cache)
-/
namespace HGQ
open Finset Spec

/-! ## C49 -/

theorem roundAt_bounds (rm : RoundMode) (f : ℤ) (hf : 0 ≤ f ∨ rm ≠ .TRN) (x : ℚ) (h1 : -1 ≤ x) (h2 : x < 1) :
    -1 ≤ roundAt rm f x ∧ roundAt rm f x ≤ 1 := by
  by_cases h0 : 0 ≤ f
  · obtain ⟨n, rfl⟩ := Int.eq_ofNat_of_zero_le h0
    have e1 : roundAt rm n (-1) = -1 := by
      have := roundAt_grid rm n (-(2 ^ n : ℤ))
      have h3 : ((-(2 ^ n : ℤ) : ℤ) : ℚ) * 2 ^ (-(n : ℤ)) = -1 := by
        push_cast; rw [neg_mul, ← zpow_natCast, zpow_mul_neg]
      rwa [h3] at this
    have e2 : roundAt rm n 1 = 1 := by
      have := roundAt_grid rm n (2 ^ n : ℤ)
      have h3 : (((2 ^ n : ℤ) : ℤ) : ℚ) * 2 ^ (-(n : ℤ)) = 1 := by
        push_cast; rw [← zpow_natCast, zpow_mul_neg]
      rwa [h3] at this
    exact ⟨by have := roundAt_mono rm n h1; rwa [e1] at this, by have := roundAt_mono rm n h2.le; rwa [e2] at this⟩
  · have hr : rm ≠ .TRN := by tauto
    have hp : (2 : ℚ) ^ f ≤ 1 / 2 := by
      have := zpow_le_zpow_right₀ (a := (2 : ℚ)) (by norm_num) (show f ≤ -1 by omega)
      simpa using this
    have hp0 := two_zpow_pos f
    have hy1 : -(1 / 2) ≤ x * 2 ^ f := by nlinarith
    have hy2 : x * 2 ^ f < 1 / 2 := by nlinarith
    have hz : roundMant rm (x * 2 ^ f) = 0 := by
      cases rm
      · simp only [roundMant]; rw [Int.floor_eq_zero_iff]; exact ⟨by linarith, by linarith⟩
      · simp only [roundMant]
        have a := roundHalfEven_mono hy1
        have b := roundHalfEven_mono hy2.le
        have ea : roundHalfEven (-(1 / 2)) = 0 := by decide +kernel
        have eb : roundHalfEven (1 / 2) = 0 := by decide +kernel
        omega
      · exact absurd rfl hr
    unfold roundAt
    rw [hz]; simp

/-- A signed fixed-point quantizer maps `[-1, 1)` into `[-1, 1]`, whatever its widths and overflow mode. -/
theorem signed_quantize_bounds (rm : RoundMode) (om : OverflowMode) (i f : ℤ) (hf : 0 ≤ f ∨ rm ≠ .TRN) (x : ℚ)
    (h1 : -1 ≤ x) (h2 : x < 1) :
    -1 ≤ quantize rm om true i f x ∧ quantize rm om true i f x ≤ 1 := by
  obtain ⟨r1, r2⟩ := roundAt_bounds rm f hf x h1 h2
  unfold quantize baseCall
  simp only [Bool.false_eq_true, if_false]
  split
  · rename_i hw
    have hif : 0 ≤ i + f := sum_nonneg_of_width hw
    have hmax : 0 ≤ qmax i f := by
      have : (2 : ℚ) ^ (-f) ≤ 2 ^ i := zpow_le_zpow_right₀ (by norm_num) (by omega)
      unfold qmax; linarith
    have hi := two_zpow_pos i
    cases om
    · -- WRAP
      simp only [stateless, Bool.false_eq_true, if_false, wrap, kq, kz, if_true, one_mul]
      set v := roundAt rm f x
      set M : ℚ := 2 ^ (1 + i) with hM
      have hM2 : M = 2 * 2 ^ i := by rw [hM, zpow_add₀ (by norm_num)]; norm_num
      have hM0 : 0 < M := by rw [hM2]; positivity
      have fl := Int.floor_le ((v + 2 ^ i) / M)
      have fu := Int.lt_floor_add_one ((v + 2 ^ i) / M)
      rw [le_div_iff₀ hM0] at fl
      rw [div_lt_iff₀ hM0] at fu
      by_cases hi0 : 0 ≤ i
      · have hi1 : (1 : ℚ) ≤ 2 ^ i := one_le_zpow₀ (by norm_num) hi0
        by_cases hv : v < 2 ^ i
        · have : ⌊(v + 2 ^ i) / M⌋ = 0 := by
            rw [Int.floor_eq_zero_iff]
            exact ⟨div_nonneg (by linarith) hM0.le, by rw [div_lt_one hM0, hM2]; linarith⟩
          rw [this]; simp; exact ⟨by linarith, by linarith⟩
        · have hv1 : v = 2 ^ i := by linarith
          have : ⌊(v + 2 ^ i) / M⌋ = 1 := by
            rw [hv1, hM2, show (2 : ℚ) ^ i + 2 ^ i = 2 * 2 ^ i by ring, div_self (by positivity)]; simp
          rw [this, hM2]; push_cast; exact ⟨by linarith, by linarith⟩
      · have hi1 : (2 : ℚ) ^ i ≤ 1 := zpow_le_one_of_nonpos₀ (by norm_num) (by omega)
        exact ⟨by linarith, by linarith⟩
    · simp only [stateless, clip]
      have hmin : qmin .SAT true i f ≤ 0 := by simp [qmin, kq]; positivity
      exact ⟨le_min (le_max_of_le_left r1) (by linarith), (min_le_left _ _).trans (max_le r2 (by linarith))⟩
    · simp only [stateless, clip]
      have hmin : qmin .SAT_SYM true i f ≤ 0 := by
        have : (2 : ℚ) ^ (-f) ≤ 2 ^ i := zpow_le_zpow_right₀ (by norm_num) (by omega)
        simp [qmin, kq]; simpa [zpow_neg] using this
      exact ⟨le_min (le_max_of_le_left r1) (by linarith), (min_le_left _ _).trans (max_le r2 (by linarith))⟩
  · exact ⟨by norm_num, by norm_num⟩

theorem hardTanhQ_bounds (sym : Bool) (rm : RoundMode) (f : ℤ) (x : ℚ) :
    -1 ≤ hardTanhQ sym rm f x ∧ hardTanhQ sym rm f x < 1 := by
  by_cases hf : 0 ≤ f
  · obtain ⟨_, h1, h2, _⟩ := (C19_hard_tanh sym rm f hf).1 x
    have := two_zpow_pos (-f)
    exact ⟨h1, by linarith⟩
  · have : hardTanhQ sym rm f x = 0 := by
      simp only [hardTanhQ, quantizerCall]
      exact (C07_zero_width rm _ true 0 f x (by simp [width]; omega))
    rw [this]; norm_num

theorem hardSigmoidQ_bounds (rm : RoundMode) (f : ℤ) (x : ℚ) : 0 ≤ hardSigmoidQ rm f x ∧ hardSigmoidQ rm f x < 1 := by
  by_cases hf : -1 ≤ f
  · obtain ⟨h1, h2, _⟩ := (C19_hard_sigmoid rm f hf).1 x
    exact ⟨h1, h2⟩
  · have : hardSigmoidQ rm f x = 1 / 2 := by
      simp only [hardSigmoidQ, quantizerCall]
      rw [C07_zero_width rm _ true 1 f x (by simp [width]; omega)]; norm_num
    rw [this]; norm_num

/-- **C49 (partial).** GRU cell with the default hard-tanh and hard-sigmoid quantizers (any fractional widths and rounding) and a
*signed* state quantizer of any kind (any overflow mode, any widths; with truncation the fractional width must not be negative):
for every weight, activation, input sequence — from the zero state or any state in `[-1, 1)` — every output and every state is in
`[-1, 1)`.  Missing: state quantizers that lost their sign bit (`C49_unsigned_violated`). -/
theorem C49_gru_bounded_partial (c : GruCell) (symm : ℕ → Bool) (rm rm' : ℕ → RoundMode) (fp fr : ℕ → ℤ)
    (hpaq : ∀ j x, c.paq j x = hardTanhQ (symm j) (rm j) (fp j) x)
    (hpraq : ∀ j x, c.praq j x = hardSigmoidQ (rm' j) (fr j) x)
    (srm : RoundMode) (som : OverflowMode) (si sf : ℕ → ℤ) (hsf : ∀ j, 0 ≤ sf j ∨ srm ≠ .TRN)
    (hsq : ∀ j x, c.sq j x = quantize srm som true (si j) (sf j) x)
    (xs : List RVec) (h0 : RVec) (hh0 : ∀ j, -1 ≤ h0 j ∧ h0 j < 1) :
    (∀ o ∈ (rnnFold c.step xs h0).1, ∀ j, -1 ≤ o j ∧ o j < 1) ∧
    ∀ j, -1 ≤ (rnnFold c.step xs h0).2 j ∧ (rnnFold c.step xs h0).2 j < 1 := by
  have hstep : ∀ (x s : RVec), (∀ j, -1 ≤ s j ∧ s j < 1) → ∀ j, -1 ≤ (c.step x s).1 j ∧ (c.step x s).1 j < 1 := by
    intro x s hs j
    obtain ⟨q1, q2⟩ := signed_quantize_bounds srm som (si j) (sf j) (hsf j) (s j) (hs j).1 (hs j).2
    rw [← hsq] at q1 q2
    simp only [GruCell.step]
    generalize hz : c.praq j _ = z
    generalize hhh : c.paq j _ = hh
    rw [hpraq] at hz; rw [hpaq] at hhh
    have b1 := hardSigmoidQ_bounds (rm' j) (fr j)
    have b2 := hardTanhQ_bounds (symm j) (rm j) (fp j)
    have z1 : 0 ≤ z ∧ z < 1 := hz ▸ b1 _
    have t1 : -1 ≤ hh ∧ hh < 1 := hhh ▸ b2 _
    obtain ⟨z1, z2⟩ := z1
    obtain ⟨t1, t2⟩ := t1
    have a : z * c.sq j (s j) ≤ z := by nlinarith
    have b : -z ≤ z * c.sq j (s j) := by nlinarith
    have d : (1 - z) * hh < 1 - z := by nlinarith
    have e : -(1 - z) ≤ (1 - z) * hh := by nlinarith
    exact ⟨by linarith, by linarith⟩
  have heq : ∀ x s, (c.step x s).2 = (c.step x s).1 := fun _ _ => rfl
  induction xs generalizing h0 with
  | nil => exact ⟨by simp [rnnFold], hh0⟩
  | cons x xs ih =>
    have h1 := hstep x h0 hh0
    obtain ⟨i1, i2⟩ := ih (c.step x h0).2 (by rw [heq]; exact h1)
    simp only [rnnFold]
    exact ⟨fun o ho => (List.mem_cons.1 ho).elim (fun h => h ▸ h1) (i1 o), i2⟩

/-- A one-unit GRU used below: candidate = hard tanh of the input, update gate from the input. -/
def exGru (k : Bool) : GruCell :=
  { inDim := 1, units := 1, kernel := fun _ j => if j = 0 then 4 else if j = 2 then 1 else 0, rkernel := fun _ _ => 0, bias := none, resetAfter := true,
    iq := none, sq := fun _ => quantize .RND .WRAP k 2 3, rhq := fun _ x => x,
    paq := fun _ => hardTanhQ false .RND 3, praq := fun _ => hardSigmoidQ .RND 3, act := fun x => x, ract := fun x => x }

example : (∀ j x, (exGru true).paq j x = hardTanhQ false .RND 3 x) ∧ (∀ j x, (exGru true).praq j x = hardSigmoidQ .RND 3 x) ∧
    (∀ j x, (exGru true).sq j x = quantize .RND .WRAP true 2 3 x) ∧
    ((rnnFold (exGru true).step [fun _ => -1, fun _ => 1] (fun _ => 0)).1.map fun o => o 0) = [-1, -241 / 256] :=
  ⟨fun _ _ => rfl, fun _ _ => rfl, fun _ _ => rfl, by decide +kernel⟩

/-- **C49 violated** for an unsigned wrapping state quantizer (`k = 0`, as range tracing leaves it when no negative state occurred
on the calibration data): a state of -1 is read back as 3 and the next state is beyond 2. -/
theorem C49_unsigned_violated :
    ((rnnFold (exGru false).step [fun _ => -1, fun _ => 1] (fun _ => 0)).1.map fun o => o 0) = [-1, 751 / 256] ∧
    (1 : ℚ) < 751 / 256 := by decide +kernel

/-! ## C50 -/

/-- **C50.** For every simple recurrent cell and every GRU cell (both `reset_after` conventions, with or without bias, state
quantizer, input quantizer), every input sequence, initial state, direction and return option, the traced layer returns what the
Keras layer returns — given that the mirrored quantizers agree with the Keras ones at inference (C18) and the replay reads current
quantized weights (C51). -/
theorem C50_rnn_replay (o : RnnOpts) (init : RVec) (xs : List RVec) :
    (∀ c : SimpleCell, replayRnn (replaySimpleStep c) o init xs = kerasRnn c.step o init xs) ∧
    (∀ c : GruCell, replayRnn (replayGruStep c) o init xs = kerasRnn c.step o init xs) := by
  refine ⟨fun c => ?_, fun c => ?_⟩
  · rw [replayRnn_eq]; rfl
  · rw [replayRnn_eq]
    congr 1
    funext x s
    unfold replayGruStep GruCell.step
    cases c.bias <;> cases c.resetAfter <;> simp

example : ((rnnFold (replayGruStep (exGru true)) [fun _ => -1, fun _ => 1] (fun _ => 0)).1.map fun o => o 0) = [-1, -241 / 256] := by
  decide +kernel

/-! ## C51 -/

theorem fillCache_weights {W Q : Type} (quant : CacheSlot → W → Q) (ss : List CacheSlot) (st : CacheState W Q) :
    (fillCache quant ss st).weights = st.weights := by
  induction ss generalizing st with
  | nil => rfl
  | cons s ss ih => simp only [fillCache, List.foldl_cons]; exact ih _

theorem fillCache_cache {W Q : Type} (quant : CacheSlot → W → Q) (ss : List CacheSlot) (st : CacheState W Q) (t : CacheSlot) :
    (fillCache quant ss st).cache t = if t ∈ ss then some (quant t (st.weights t)) else st.cache t := by
  induction ss generalizing st with
  | nil => rfl
  | cons s ss ih =>
    have := ih { st with cache := fun t => if t = s then some (quant s (st.weights s)) else st.cache t }
    simp only [fillCache, List.foldl_cons] at this ⊢
    rw [this]
    by_cases h1 : t ∈ ss
    · simp [h1]
    · by_cases h2 : t = s
      · subst h2; simp [h1]
      · simp [h1, h2]

/-- The weights after a history, computed independently of the cache: the last assignment wins. -/
def Spec.weightsAfter {W : Type} (w0 : CacheSlot → W) (ops : List (CacheOp W)) (s : CacheSlot) : W :=
  ops.foldl (fun w o => match o with | .assign t v => if t = s then v else w | _ => w) (w0 s)

theorem cacheRun_append {W Q : Type} (quant : CacheSlot → W → Q) (ub : Bool) (a b : List (CacheOp W)) (st : CacheState W Q) :
    cacheRun quant ub (a ++ b) st =
      ((cacheRun quant ub b (cacheRun quant ub a st).1).1, (cacheRun quant ub a st).2 ++ (cacheRun quant ub b (cacheRun quant ub a st).1).2) := by
  induction a generalizing st with
  | nil => simp [cacheRun]
  | cons o a ih => simp only [List.cons_append, cacheRun]; rw [ih]

theorem cacheRun_weights {W Q : Type} (quant : CacheSlot → W → Q) (ub : Bool) (ops : List (CacheOp W)) (st : CacheState W Q)
    (s : CacheSlot) : (cacheRun quant ub ops st).1.weights s = weightsAfter st.weights ops s := by
  induction ops generalizing st with
  | nil => rfl
  | cons o ops ih =>
    simp only [cacheRun, weightsAfter, List.foldl_cons]
    rw [ih]
    unfold weightsAfter
    congr 1
    cases o with
    | assign t v => simp only [cacheStep]; by_cases h : s = t <;> simp [h, eq_comm]
    | read t => rfl
    | call e => cases e <;> simp [cacheStep, dropCache, fillCache_weights]

/-- An operation after which no cached weight is left over: anything but a call that raised after starting to fill the cache. -/
def Spec.Clean {W : Type} : CacheOp W → Prop
  | .call .late => False
  | .call (.filling done) => done = []
  | _ => True

/-- **C51.** After every history — assignments of weights, successful calls, calls that raised at any point, reads — a call
that reaches its recurrence uses exactly the quantized value of the current weights, for every weight of the cell. -/
theorem C51_calls_current {W Q : Type} (quant : CacheSlot → W → Q) (ub : Bool) (w0 : CacheSlot → W) (ops : List (CacheOp W))
    (e : CallEnd) (he : e = .ok ∨ e = .late) (s : CacheSlot) (hs : s = .bias → ub = true) :
    ∃ used, (cacheRun quant ub (ops ++ [.call e]) ⟨w0, fun _ => none⟩).2.getLast? = some (some used) ∧
      (∀ q, (s, q) ∈ used ↔ q = quant s (weightsAfter w0 ops s)) := by
  have hmem : s ∈ allSlots ub := by cases s <;> cases ub <;> simp_all [allSlots]
  rw [cacheRun_append]
  set st := (cacheRun quant ub ops ⟨w0, fun _ => none⟩).1 with hst
  have hw : st.weights s = weightsAfter w0 ops s := by rw [hst, cacheRun_weights]
  refine ⟨(allSlots ub).map fun s => (s, readQ quant (fillCache quant (allSlots ub) st) s), ?_, fun q => ?_⟩
  · rcases he with rfl | rfl <;> simp [cacheRun, cacheStep]
  · have hr : readQ quant (fillCache quant (allSlots ub) st) s = quant s (weightsAfter w0 ops s) := by
      unfold readQ; rw [fillCache_cache, if_pos hmem, hw]
    constructor
    · intro h
      obtain ⟨t, _, ht⟩ := List.mem_map.1 h
      obtain ⟨rfl, rfl⟩ := Prod.mk.injEq _ _ _ _ ▸ ht
      exact hr
    · rintro rfl
      exact List.mem_map.2 ⟨s, hmem, by rw [hr]⟩

/-- **C63 (partial).** A read of a quantized weight (as the hardware export does) returns the quantized current weight after
every history in which each call that raised once it had started was followed, later on, by a successful call.
Missing: reads after a failed call, see `C63_read_violated`. -/
theorem C63_reads_current_partial {W Q : Type} (quant : CacheSlot → W → Q) (ub : Bool) (w0 : CacheSlot → W)
    (pre post : List (CacheOp W)) (hpre : pre = [] ∨ ∃ p, pre = p ++ [.call .ok]) (hpost : ∀ o ∈ post, Clean o)
    (hslots : ∀ d, CacheOp.call (.filling d) ∈ pre → ∀ s ∈ d, s ∈ allSlots ub) (s : CacheSlot) :
    (cacheRun quant ub (pre ++ post ++ [.read s]) ⟨w0, fun _ => none⟩).2.getLast? =
      some (some [(s, quant s (weightsAfter w0 (pre ++ post) s))]) := by
  -- slots outside `allSlots` are never cached
  have houtside : ∀ (l : List (CacheOp W)) (st : CacheState W Q),
      (∀ d, CacheOp.call (.filling d) ∈ l → ∀ s ∈ d, s ∈ allSlots ub) → (∀ t, t ∉ allSlots ub → st.cache t = none) →
      ∀ t, t ∉ allSlots ub → (cacheRun quant ub l st).1.cache t = none := by
    intro l
    induction l with
    | nil => intro st _ h; exact h
    | cons o l ih =>
      intro st hl h
      simp only [cacheRun]
      refine ih _ (fun d hd => hl d (List.mem_cons_of_mem _ hd)) fun t ht => ?_
      cases o with
      | assign => exact h t ht
      | read => exact h t ht
      | call e =>
        cases e with
        | early => exact h t ht
        | ok => simp [cacheStep, dropCache, ht, fillCache_cache, h t ht]
        | late => simp [cacheStep, fillCache_cache, ht, h t ht]
        | filling d =>
          have : t ∉ d := fun hd => ht (hl d (List.mem_cons_self ..) t hd)
          simp [cacheStep, fillCache_cache, this, h t ht]
  have hempty : ∀ t, (cacheRun quant ub pre ⟨w0, fun _ => none⟩).1.cache t = none := by
    rcases hpre with rfl | ⟨p, rfl⟩
    · intro t; rfl
    · intro t
      by_cases ht : t ∈ allSlots ub
      · rw [cacheRun_append]; simp [cacheRun, cacheStep, dropCache, ht]
      · exact houtside _ _ hslots (fun _ _ => rfl) t ht
  have hclean : ∀ (l : List (CacheOp W)) (st : CacheState W Q), (∀ o ∈ l, Clean o) → (∀ t, st.cache t = none) →
      ∀ t, (cacheRun quant ub l st).1.cache t = none := by
    intro l
    induction l with
    | nil => intro st _ h; exact h
    | cons o l ih =>
      intro st hl h
      simp only [cacheRun]
      refine ih _ (fun o ho => hl o (List.mem_cons_of_mem _ ho)) fun t => ?_
      have hc := hl o (List.mem_cons_self ..)
      cases o with
      | assign => exact h t
      | read => exact h t
      | call e =>
        cases e with
        | early => exact h t
        | ok => simp only [cacheStep, dropCache, fillCache_cache]; split <;> simp_all
        | late => exact absurd hc (by simp [Clean])
        | filling d => simp only [Clean] at hc; subst hc; exact h t
  have hend : ∀ t, (cacheRun quant ub (pre ++ post) ⟨w0, fun _ => none⟩).1.cache t = none := by
    rw [cacheRun_append]; exact hclean post _ hpost hempty
  rw [cacheRun_append]
  have hw := cacheRun_weights quant ub (pre ++ post) (⟨w0, fun _ => none⟩ : CacheState W Q) s
  simp only [cacheRun, cacheStep, readQ, hend, hw]
  simp

example : (∀ o ∈ ([.assign .kernel 3, .call .early, .call .ok] : List (CacheOp ℚ)), Clean o) ∧
    (cacheRun (fun _ (w : ℚ) => 2 * w) true ([.call .late, .assign .kernel 7, .call .ok] ++ [.assign .kernel 3, .call .early, .call .ok] ++
      [.read .kernel]) ⟨fun _ => 1, fun _ => none⟩).2.getLast? = some (some [(.kernel, 6)]) := by
  refine ⟨by simp [Clean], by decide +kernel⟩

/-- **C63 violated**: a call raises inside the recurrence, the weights are updated (or loaded), and the exported
quantized kernel is the one from before the update. -/
theorem C63_read_violated :
    (cacheRun (fun _ (w : ℚ) => 2 * w) true [.call .late, .assign .kernel 3, .read .kernel] ⟨fun _ => 1, fun _ => none⟩).2.getLast? =
      some (some [(.kernel, 2)]) ∧
    weightsAfter (fun _ => (1 : ℚ)) [.call .late, .assign .kernel 3] .kernel = 3 := by decide +kernel

end HGQ
