import Mathlib.Analysis.SpecialFunctions.Trigonometric.ArctanDeriv
import Verif.Model.SpikeGrad

/-!
# C103: surrogate gradients of spiking cells

Specification: the documented surrogate (`Spec.surrogate`), the hard spike, the leaky sum of derivatives.
-/
namespace HGQ
open Dual

namespace Spec
/-- The arc-tangent surrogate as a function of the distance to the threshold. -/
noncomputable def surrogate (α x : ℝ) : ℝ := Real.arctan (Real.pi / 2 * α * x) / Real.pi + 1 / 2

/-- Its slope. -/
noncomputable def surrogateSlope (α x : ℝ) : ℝ := α / 2 / (1 + (Real.pi / 2 * α * x) ^ 2)

/-- The spike a neuron emits. -/
noncomputable def spike (x : ℝ) : ℝ := if 0 < x then 1 else 0

/-- One step of a neuron without any derivative: membrane, spike, reset. -/
noncomputable def neuron (kind : ResetKind) (β θ : ℝ) (s x hot : ℝ) : ℝ :=
  let m := β * s + x
  let z := hot * spike (m - θ)
  match kind with
  | .subtract => m - z * θ
  | .zero => m * (1 - z)
  | .none => m

/-- Its output. -/
noncomputable def neuronOut (β θ φ : ℝ) (s x hot : ℝ) : ℝ := hot * spike (β * s + x - θ) * φ

/-- Outputs of a neuron over a sequence. -/
noncomputable def neuronOuts (kind : ResetKind) (β θ φ : ℝ) : ℝ → List (ℝ × ℝ) → List ℝ
  | _, [] => []
  | s, (x, hot) :: xs => neuronOut β θ φ s x hot :: neuronOuts kind β θ φ (neuron kind β θ s x hot) xs
end Spec

variable {V : Type}

/-- The decay of a cell: 1 for integrate-and-fire. -/
noncomputable def GradCell.decay (c : GradCell V) : ℝ := match c.beta with | none => 1 | some b => b.val

theorem spikeFnD_val (sur : Option ℝ) (x : Dual V) : (spikeFnD sur x).val = Spec.spike x.val := by
  cases sur with
  | none => rfl
  | some α => simp [spikeFnD, atanSpikeD, Dual.add, Dual.sub, stopGrad, heaviside, Dual.const, Spec.spike]

theorem integrate_val (c : GradCell V) (s x : Dual V) : (c.integrate s x).val = c.decay * s.val + x.val := by
  unfold GradCell.integrate GradCell.decay
  cases c.beta <;> simp [Dual.add, Dual.mul]

theorem reset_val (c : GradCell V) (m z : Dual V) : (c.reset m z).val =
    match c.kind with
    | .subtract => m.val - z.val * c.threshold.val
    | .zero => m.val * (1 - z.val)
    | .none => m.val := by
  unfold GradCell.reset
  cases c.kind <;> cases c.detach <;> simp [Dual.sub, Dual.mul, stopGrad, Dual.const]

theorem step_state_val (c : GradCell V) (s : Dual V) (p : Dual V × ℝ) :
    (c.step s p).2.val = Spec.neuron c.kind c.decay c.threshold.val s.val p.1.val p.2 := by
  unfold GradCell.step
  simp only [reset_val, GradCell.fire, Dual.scale, spikeFnD_val, Dual.sub, integrate_val]
  rfl

/-- C103.  Surrogates concern derivatives only: over any sequence of inputs the outputs of a cell are those of the
spiking neuron with hard threshold, whatever the surrogate (`ATan` with any `alpha`, or disabled) and `detach_reset`. -/
theorem C103_forward (c : GradCell V) (s : Dual V) (xs : List (Dual V × ℝ)) :
    (c.outs s xs).map Dual.val = Spec.neuronOuts c.kind c.decay c.threshold.val c.factor.val s.val (xs.map fun p => (p.1.val, p.2)) := by
  induction xs generalizing s with
  | nil => rfl
  | cons p xs ih =>
    simp only [GradCell.outs, List.map_cons, Spec.neuronOuts, ih, step_state_val]
    congr 1
    simp [GradCell.step, GradCell.fire, Dual.mul, Dual.scale, spikeFnD_val, Dual.sub, integrate_val, Spec.neuronOut]

/-! ## The slope -/

theorem atanSoft_grad (α : ℝ) (x : Dual V) (v : V) : (atanSoftD α x).grad v = Spec.surrogateSlope α x.val * x.grad v := by
  have hp : Real.pi ≠ 0 := Real.pi_ne_zero
  simp only [atanSoftD, Dual.add, Dual.scale, Dual.arctan, Dual.const, Spec.surrogateSlope, add_zero]
  have h1 : (1 + (Real.pi / 2 * α * x.val) ^ 2) ≠ 0 := by positivity
  field_simp

theorem spikeFnD_grad (α : ℝ) (x : Dual V) (v : V) : (spikeFnD (some α) x).grad v = Spec.surrogateSlope α x.val * x.grad v := by
  simp [spikeFnD, atanSpikeD, Dual.add, stopGrad, atanSoft_grad]

/-- C103.  The derivative the spike function propagates is the slope of the documented arc-tangent curve at the distance to
the threshold; for `alpha > 0` it is positive, at most `alpha / 2`, reached exactly at the threshold, and falls with
the distance. -/
theorem C103_slope_partial (α : ℝ) (x : Dual V) (v : V) :
    (spikeFnD (some α) x).grad v = Spec.surrogateSlope α x.val * x.grad v ∧
    (∀ y, HasDerivAt (Spec.surrogate α) (Spec.surrogateSlope α y) y) ∧
    (0 < α → ∀ y, 0 < Spec.surrogateSlope α y ∧ Spec.surrogateSlope α y ≤ α / 2 ∧ (Spec.surrogateSlope α y = α / 2 ↔ y = 0) ∧
      ∀ z, |y| < |z| → Spec.surrogateSlope α z < Spec.surrogateSlope α y) := by
  refine ⟨spikeFnD_grad α x v, fun y => ?_, fun hα y => ?_⟩
  · have h1 : HasDerivAt (fun t : ℝ => Real.pi / 2 * α * t) (Real.pi / 2 * α) y := by
      simpa using (hasDerivAt_id y).const_mul (Real.pi / 2 * α)
    have h2 := ((h1.arctan).div_const Real.pi).add_const (1 / 2)
    have e : 1 / (1 + (Real.pi / 2 * α * y) ^ 2) * (Real.pi / 2 * α) / Real.pi = Spec.surrogateSlope α y := by
      have hp : Real.pi ≠ 0 := Real.pi_ne_zero
      have h1 : (1 + (Real.pi / 2 * α * y) ^ 2) ≠ 0 := by positivity
      simp only [Spec.surrogateSlope]
      field_simp
    rw [e] at h2
    exact h2
  · have hc : 0 < Real.pi / 2 * α := by positivity
    have hd : ∀ y : ℝ, 0 < 1 + (Real.pi / 2 * α * y) ^ 2 := fun y => by positivity
    refine ⟨div_pos (by positivity) (hd y), ?_, ⟨fun h => ?_, fun h => ?_⟩, fun z hz => ?_⟩
    · exact div_le_self (by positivity) (by nlinarith [sq_nonneg (Real.pi / 2 * α * y)])
    · unfold Spec.surrogateSlope at h
      rw [div_eq_iff (hd y).ne'] at h
      have : (Real.pi / 2 * α * y) ^ 2 = 0 := by nlinarith [sq_nonneg (Real.pi / 2 * α * y)]
      have := pow_eq_zero_iff (two_ne_zero) |>.mp this
      exact (mul_eq_zero.mp this).resolve_left hc.ne'
    · subst h; simp [Spec.surrogateSlope]
    · apply div_lt_div_of_pos_left (by positivity) (hd y)
      have h2 : y ^ 2 < z ^ 2 := sq_lt_sq.mpr hz
      have : (Real.pi / 2 * α) ^ 2 * y ^ 2 < (Real.pi / 2 * α) ^ 2 * z ^ 2 := by
        apply mul_lt_mul_of_pos_left h2; positivity
      nlinarith

/-- C103.  Signs: for `alpha > 0` and a non-negative spike factor, the output grows with the membrane potential and falls
with the threshold (`v` moves the membrane, `w` the threshold only). -/
theorem C103_signs_partial (c : GradCell V) (α : ℝ) (hs : c.surrogate = some α) (hα : 0 < α) (hot : ℝ) (hh : 0 ≤ hot) (hf : 0 ≤ c.factor.val)
    (mem : Dual V) (v w : V) (hv : c.threshold.grad v = 0 ∧ c.factor.grad v = 0 ∧ mem.grad v = 1)
    (hw : c.threshold.grad w = 1 ∧ c.factor.grad w = 0 ∧ mem.grad w = 0) :
    0 ≤ (c.fire hot mem).1.grad v ∧ (c.fire hot mem).1.grad w ≤ 0 := by
  have hg : ∀ u, (c.fire hot mem).1.grad u =
      hot * (Spec.surrogateSlope α (mem.val - c.threshold.val) * (mem.grad u - c.threshold.grad u)) * c.factor.val
        + hot * Spec.spike (mem.val - c.threshold.val) * c.factor.grad u := by
    intro u
    simp only [GradCell.fire, Dual.mul, Dual.scale, hs, spikeFnD_val]
    rw [spikeFnD_grad]; rfl
  have hp := ((C103_slope_partial α mem v).2.2 hα (mem.val - c.threshold.val)).1
  rw [hg, hg, hv.1, hv.2.1, hv.2.2, hw.1, hw.2.1, hw.2.2]
  have : 0 ≤ hot * Spec.surrogateSlope α (mem.val - c.threshold.val) * c.factor.val := by positivity
  constructor <;> nlinarith

/-- C103.  Without surrogate (`surrogate_disable=True`) no derivative passes through the spikes: the outputs depend on the
spike factor only. -/
theorem C103_bypass (c : GradCell V) (hs : c.surrogate = none) (hot : ℝ) (mem : Dual V) (v : V) :
    (c.fire hot mem).2.grad v = 0 ∧ (c.fire hot mem).1.grad v = hot * Spec.spike (mem.val - c.threshold.val) * c.factor.grad v := by
  constructor
  · simp [GradCell.fire, hs, spikeFnD, heaviside, Dual.scale, Dual.const]
  · simp [GradCell.fire, hs, spikeFnD, heaviside, Dual.scale, Dual.const, Dual.mul, Dual.sub, Spec.spike]

/-! ## Through time -/

theorem integrate_grad (c : GradCell V) (v : V) (hb : ∀ b ∈ c.beta, b.grad v = 0) (s x : Dual V) :
    (c.integrate s x).grad v = c.decay * s.grad v + x.grad v := by
  unfold GradCell.integrate GradCell.decay
  cases h : c.beta with
  | none => simp [Dual.add]
  | some b => simp [Dual.add, Dual.mul, hb b (by simp [h])]

/-- C103.  With `detach_reset=True` (the default) and reset by subtraction or no reset, the derivative of the membrane
potential with respect to the inputs is the leaky sum of the past: each step is weighted by `beta ^ age`, whatever the
spikes were. -/
theorem C103_detached (c : GradCell V) (hd : c.detach = true) (hk : c.kind ≠ .zero) (v : V) (hb : ∀ b ∈ c.beta, b.grad v = 0)
    (ht : c.threshold.grad v = 0) (s : Dual V) (xs : List (Dual V × ℝ)) :
    (c.run s xs).grad v = c.decay ^ xs.length * s.grad v
      + ∑ t ∈ Finset.range xs.length, c.decay ^ (xs.length - 1 - t) * ((xs.map fun p => p.1.grad v).getD t 0) := by
  induction xs generalizing s with
  | nil => simp [GradCell.run]
  | cons p xs ih =>
    have hstep : (c.step s p).2.grad v = c.decay * s.grad v + p.1.grad v := by
      unfold GradCell.step GradCell.reset
      simp only [hd, if_true]
      cases hkk : c.kind with
      | zero => exact absurd hkk hk
      | subtract => simp [Dual.sub, Dual.mul, stopGrad, ht, integrate_grad c v hb]
      | none => simp [integrate_grad c v hb]
    have e : c.run s (p :: xs) = c.run (c.step s p).2 xs := rfl
    rw [e, ih, hstep, List.length_cons, Finset.sum_range_succ']
    have e1 : ∀ t ∈ Finset.range xs.length, c.decay ^ (xs.length + 1 - 1 - (t + 1)) * (((p :: xs).map fun p => p.1.grad v).getD (t + 1) 0)
        = c.decay ^ (xs.length - 1 - t) * ((xs.map fun p => p.1.grad v).getD t 0) := by
      intro t _
      have : xs.length + 1 - 1 - (t + 1) = xs.length - 1 - t := by omega
      rw [this]; rfl
    rw [Finset.sum_congr rfl e1]
    have e2 : ((p :: xs).map fun p => p.1.grad v).getD 0 0 = p.1.grad v := rfl
    rw [e2]
    have e3 : xs.length + 1 - 1 - 0 = xs.length := by omega
    rw [e3]
    ring

/-- C103.  The product by which a derivative is carried through one step never exceeds 1 in size — training through any
number of steps cannot make derivatives explode — for resets by subtraction with attached reset as long as
`0 ≤ threshold`, `threshold * alpha ≤ 4` and `0 ≤ beta ≤ 1` (the defaults `threshold = 1`, `alpha = 2` satisfy it). -/
theorem C103_attached_bounded_partial (c : GradCell V) (α : ℝ) (hs : c.surrogate = some α) (hα : 0 < α) (hk : c.kind ≠ .zero)
    (hθ : 0 ≤ c.threshold.val) (hθα : c.threshold.val * α ≤ 4) (hβ : 0 ≤ c.decay ∧ c.decay ≤ 1) (v : V)
    (hb : ∀ b ∈ c.beta, b.grad v = 0) (ht : c.threshold.grad v = 0) (s : Dual V) (xs : List (Dual V × ℝ))
    (hh : ∀ p ∈ xs, 0 ≤ p.2 ∧ p.2 ≤ 1) (hx : ∀ p ∈ xs, p.1.grad v = 0) :
    |(c.run s xs).grad v| ≤ c.decay ^ xs.length * |s.grad v| := by
  induction xs generalizing s with
  | nil => simp [GradCell.run]
  | cons p xs ih =>
    have e : c.run s (p :: xs) = c.run (c.step s p).2 xs := rfl
    have hm : (c.integrate s p.1).grad v = c.decay * s.grad v := by rw [integrate_grad c v hb, hx p (by simp), add_zero]
    have hstep : |(c.step s p).2.grad v| ≤ c.decay * |s.grad v| := by
      have hfac : ∃ r : ℝ, |r| ≤ 1 ∧ (c.step s p).2.grad v = r * (c.decay * s.grad v) := by
        have key : ∀ z : Dual V, (∃ q : ℝ, 0 ≤ q ∧ q ≤ α / 2 ∧ z.grad v = q * (c.decay * s.grad v)) →
            ∃ r : ℝ, |r| ≤ 1 ∧ (sub (c.integrate s p.1) (mul z c.threshold)).grad v = r * (c.decay * s.grad v) := by
          rintro z ⟨q, hq0, hq1, hz⟩
          refine ⟨1 - q * c.threshold.val, ?_, ?_⟩
          · have h1 : 0 ≤ q * c.threshold.val := mul_nonneg hq0 hθ
            have h2 : q * c.threshold.val ≤ α / 2 * c.threshold.val := mul_le_mul_of_nonneg_right hq1 hθ
            rw [abs_le]; constructor <;> nlinarith
          · simp only [Dual.sub, Dual.mul, hm, ht, hz]; ring
        unfold GradCell.step GradCell.reset
        simp only
        cases hkk : c.kind with
        | zero => exact absurd hkk hk
        | none => exact ⟨1, by simp, by rw [hm, one_mul]⟩
        | subtract =>
          apply key
          cases c.detach with
          | true => exact ⟨0, le_refl _, by positivity, by simp [stopGrad]⟩
          | false =>
            obtain ⟨h0, h1⟩ := hh p (by simp)
            obtain ⟨k0, k1, _⟩ := (C103_slope_partial α s v).2.2 hα ((c.integrate s p.1).val - c.threshold.val)
            refine ⟨p.2 * Spec.surrogateSlope α ((c.integrate s p.1).val - c.threshold.val), by positivity, ?_, ?_⟩
            · nlinarith
            · have : (c.fire p.2 (c.integrate s p.1)).2.grad v
                  = p.2 * (Spec.surrogateSlope α ((c.integrate s p.1).val - c.threshold.val) * ((c.integrate s p.1).grad v - c.threshold.grad v)) := by
                simp only [GradCell.fire, Dual.scale, hs]
                rw [spikeFnD_grad]; rfl
              simp only [Bool.false_eq_true, if_false]
              rw [this, hm, ht]; ring
      obtain ⟨r, hr, he⟩ := hfac
      rw [he, abs_mul, abs_mul, abs_of_nonneg hβ.1]
      have : 0 ≤ c.decay * |s.grad v| := mul_nonneg hβ.1 (abs_nonneg _)
      nlinarith
    rw [e]
    refine (ih _ (fun q hq => hh q (by simp [hq])) (fun q hq => hx q (by simp [hq]))).trans ?_
    rw [List.length_cons, pow_succ, mul_assoc]
    exact mul_le_mul_of_nonneg_left hstep (pow_nonneg hβ.1 _)

/-! ## Where it fails -/

/-- The cell of the counterexample: threshold 4, `ATan(2)`, attached reset by subtraction, no leak. -/
noncomputable def hotCell : GradCell Unit := ⟨some 2, false, .subtract, none, const 4, const 1⟩

theorem hotCell_run (n : ℕ) (g : ℝ) : (hotCell.run ⟨4, fun _ => g⟩ (List.replicate n (const 0, 1))) = ⟨4, fun _ => (-3) ^ n * g⟩ := by
  induction n generalizing g with
  | zero => simp [GradCell.run]
  | succ n ih =>
    have hs : (hotCell.step ⟨4, fun _ => g⟩ (const 0, 1)).2 = ⟨4, fun _ => -3 * g⟩ := by
      have hv := step_state_val hotCell ⟨4, fun _ => g⟩ (const 0, 1)
      have hval : (hotCell.step ⟨4, fun _ => g⟩ (const 0, 1)).2.val = 4 := by
        rw [hv]; simp [Spec.neuron, hotCell, GradCell.decay, Dual.const, Spec.spike]
      have hgr : ∀ v, (hotCell.step ⟨4, fun _ => g⟩ (const 0, 1)).2.grad v = -3 * g := by
        intro v
        have hf : (hotCell.fire 1 (hotCell.integrate ⟨4, fun _ => g⟩ (const 0))).2.grad v = g := by
          have : (hotCell.fire 1 (hotCell.integrate ⟨4, fun _ => g⟩ (const 0))).2.grad v
              = 1 * (spikeFnD (some 2) (sub (hotCell.integrate ⟨4, fun _ => g⟩ (const 0)) hotCell.threshold)).grad v := rfl
          rw [this, spikeFnD_grad]
          simp [hotCell, GradCell.integrate, Dual.sub, Dual.add, Dual.const, Spec.surrogateSlope]
        have hvz : (hotCell.fire 1 (hotCell.integrate ⟨4, fun _ => g⟩ (const 0))).2.val = 0 := by
          simp [GradCell.fire, Dual.scale, spikeFnD_val, Dual.sub, integrate_val, hotCell, GradCell.decay, Dual.const, Spec.spike]
        have : (hotCell.step ⟨4, fun _ => g⟩ (const 0, 1)).2.grad v
            = (hotCell.integrate ⟨4, fun _ => g⟩ (const 0)).grad v
              - ((hotCell.fire 1 (hotCell.integrate ⟨4, fun _ => g⟩ (const 0))).2.grad v * 4
                + (hotCell.fire 1 (hotCell.integrate ⟨4, fun _ => g⟩ (const 0))).2.val * 0) := rfl
        rw [this, hf, hvz]
        simp [hotCell, GradCell.integrate, Dual.add, Dual.const]
        ring
      cases h : (hotCell.step ⟨4, fun _ => g⟩ (const 0, 1)).2 with
      | mk a b =>
        rw [h] at hval hgr
        simp only at hval hgr
        subst hval
        congr 1
        funext v; exact hgr v
    have e : hotCell.run ⟨4, fun _ => g⟩ (List.replicate (n + 1) (const 0, 1))
        = hotCell.run (hotCell.step ⟨4, fun _ => g⟩ (const 0, 1)).2 (List.replicate n (const 0, 1)) := rfl
    rw [e, hs, ih]
    congr 1
    funext v
    rw [pow_succ]; ring

/-- C103.  With `detach_reset=False` and `threshold * alpha > 4` derivatives do explode: for a neuron resting exactly at
threshold 4 with `alpha = 2`, the derivative with respect to the initial state grows like `3^n` in size. -/
theorem C103_attached_violated : ∃ c : GradCell Unit, c.surrogate = some 2 ∧ c.detach = false ∧ c.kind = .subtract ∧
    c.beta = none ∧ c.threshold = const 4 ∧ ∃ s : Dual Unit, s.grad () = 1 ∧
    ∀ n, |(c.run s (List.replicate n (const 0, 1))).grad ()| = 3 ^ n :=
  ⟨hotCell, rfl, rfl, rfl, rfl, rfl, ⟨4, fun _ => 1⟩, rfl, fun n => by rw [hotCell_run]; simp [abs_pow]⟩

/-- C103.  `ATan` does not check `alpha`: a negative one is accepted and turns every derivative around. -/
theorem C103_alpha_violated : ∃ α : ℝ, ∀ (x : Dual Unit), x.grad () = 1 → (spikeFnD (some α) x).grad () < 0 := by
  refine ⟨-2, fun x hx => ?_⟩
  rw [spikeFnD_grad, hx, mul_one]
  unfold Spec.surrogateSlope
  exact div_neg_of_neg_of_pos (by norm_num) (by positivity)

/-! ## Concrete cases -/

/-- The default cell satisfies the hypotheses of `C103_attached_bounded_partial`. -/
example : let c : GradCell Unit := ⟨some 2, false, .subtract, some (const (1 / 2)), const 1, const 1⟩
    0 ≤ c.threshold.val ∧ c.threshold.val * 2 ≤ 4 ∧ (0 ≤ c.decay ∧ c.decay ≤ 1) ∧ c.threshold.grad () = 0 ∧ ∀ b ∈ c.beta, b.grad () = 0 := by
  simp [GradCell.decay, Dual.const]; norm_num

/-- A detached LIF neuron: derivative with respect to the first of three inputs is `beta ^ 2 = 1/4`. -/
example : let c : GradCell Unit := ⟨some 2, true, .subtract, some (const (1 / 2)), const 1, const 1⟩
    (c.run (const 0) [(⟨3, fun _ => 1⟩, 1), (const 2, 1), (const 5, 1)]).grad () = 1 / 4 := by
  have h := C103_detached (V := Unit) ⟨some 2, true, .subtract, some (const (1 / 2)), const 1, const 1⟩ rfl (by simp) ()
    (by simp [Dual.const]) rfl (const 0) [(⟨3, fun _ => 1⟩, 1), (const 2, 1), (const 5, 1)]
  simp only at h ⊢
  rw [h]
  simp [Finset.sum_range_succ, GradCell.decay, Dual.const]
  norm_num

end HGQ
