import Verif.Model.Causal
import Mathlib.Tactic

/-!
# C84: causal convolution
-/
namespace HGQ
open Finset

namespace Spec

/-- The causal convolution at output `t`: tap `j` reads the (quantized) input `dil * (k - 1 - j)` steps before `t * stride`; before
the start there is nothing. -/
noncomputable def causalConv {c : ℕ} (k dil stride : ℕ) (kernel : Fin k → Fin c → ℝ) (bias : ℝ) (q : Fin c → ℝ → ℝ) (x : ℕ → Fin c → ℝ)
    (t : ℕ) : ℝ :=
  (∑ j : Fin k, ∑ i : Fin c,
    (if dil * (k - 1 - j) ≤ t * stride then q i (x (t * stride - dil * (k - 1 - j)) i) else 0) * kernel j i) + bias

end Spec
open Spec

theorem Conv1D.causal_value {c : ℕ} (L : Conv1D c) (q : Fin c → ℝ → ℝ) (hq : ∀ t i, L.iq t i = q i) (h0 : ∀ i, q i 0 = 0)
    (x : ℕ → Fin c → ℝ) (t : ℕ) :
    (∑ j : Fin L.k, ∑ i : Fin c, L.iq (t * L.stride + j * L.dil) i (padLeft L.left x (t * L.stride + j * L.dil) i) * L.kernel j i) + L.bias
      = causalConv L.k L.dil L.stride L.kernel L.bias q x t := by
  unfold causalConv
  congr 1
  refine Finset.sum_congr rfl (fun j _ => Finset.sum_congr rfl (fun i _ => ?_))
  congr 1
  rw [hq]
  have hj : (j : ℕ) ≤ L.k - 1 := by have := j.isLt; omega
  have e : L.left = L.dil * (L.k - 1 - j) + j * L.dil := by
    unfold Conv1D.left
    rw [mul_comm (j : ℕ), ← Nat.mul_add]
    congr 1; omega
  unfold padLeft
  rw [e]
  by_cases h : L.dil * (L.k - 1 - j) ≤ t * L.stride
  · rw [if_pos h, if_neg (by omega), Nat.add_sub_add_right]
  · rw [if_neg h, if_pos (by omega)]
    exact h0 i

/-- **C84 (partial)**: a causal `QConv1D` whose input bit widths are shared along time, called without EBOPs being computed (EBOPs off,
or inference), on every non-empty input: succeeds, returns `ceil (T / stride)` outputs equal to the causal convolution, and leaves the
layer causal. Missing: bit widths per time step (the default) and EBOPs in training (`C84_default_violated`, `C84_ebops_violated`). -/
theorem C84_causal_partial {c : ℕ} (L : Conv1D c) (hk : 0 < L.k) (hs : 0 < L.stride) (q : Fin c → ℝ → ℝ) (hq : ∀ t i, L.iq t i = q i)
    (h0 : ∀ i, q i 0 = 0) (ht : L.iqTime = none) (fl : Flag) (he : L.enableEbops = false ∨ fl = .none ∨ fl = .false)
    (T : ℕ) (hT : 0 < T) (x : ℕ → Fin c → ℝ) :
    L.call .causal T x fl = (some ((T + L.stride - 1) / L.stride, causalConv L.k L.dil L.stride L.kernel L.bias q x), .causal) := by
  have hfit : L.iqFits (T + L.left) = true := by simp [Conv1D.iqFits, ht]
  have hlen : (T + L.left - (L.dil * (L.k - 1) + 1)) / L.stride + 1 = (T + L.stride - 1) / L.stride := by
    have e1 : T + L.left - (L.dil * (L.k - 1) + 1) = T - 1 := by unfold Conv1D.left; omega
    have e2 : T + L.stride - 1 = T - 1 + L.stride := by omega
    rw [e1, e2, Nat.add_div_right _ hs]
  have hbase : L.baseCall .valid (T + L.left) (padLeft L.left x) =
      some ((T + L.stride - 1) / L.stride, causalConv L.k L.dil L.stride L.kernel L.bias q x) := by
    unfold Conv1D.baseCall Conv1D.convOp
    rw [if_pos hfit]
    have hge : ¬ (T + L.left < L.dil * (L.k - 1) + 1) := by unfold Conv1D.left; omega
    simp only [if_neg hge, Option.map_some, hlen, Option.some.injEq, Prod.mk.injEq, true_and]
    funext t
    exact L.causal_value q hq h0 x t
  have hno : ((fl.truthy || fl.eqTracing) && L.enableEbops) = false := by
    rcases he with h | h | h
    · simp [h]
    · simp [h, Flag.truthy, Flag.eqTracing]
    · simp [h, Flag.truthy, Flag.eqTracing]
  simp [Conv1D.call, Conv1D.padCall, hbase, hno]

/-- **C84**, causality: whatever succeeds on a causal layer, the output at step `t` does not depend on inputs after `t * stride`. -/
theorem C84_no_future {c : ℕ} (L : Conv1D c) (T : ℕ) (x y : ℕ → Fin c → ℝ) (fl : Flag) (t : ℕ)
    (hxy : ∀ u ≤ t * L.stride, x u = y u) (n m : ℕ) (f g : ℕ → ℝ)
    (hx : (L.call .causal T x fl).1 = some (n, f)) (hy : (L.call .causal T y fl).1 = some (m, g)) : n = m ∧ f t = g t := by
  have key : ∀ z r, (L.call .causal T z fl).1 = some r → L.baseCall .valid (T + L.left) (padLeft L.left z) = some r := by
    intro z r hz
    unfold Conv1D.call at hz
    simp only [apply_ite Prod.fst] at hz
    split at hz
    · exact absurd hz (by simp)
    · simpa [Conv1D.padCall] using hz
  have h1 := key x _ hx
  have h2 := key y _ hy
  unfold Conv1D.baseCall Conv1D.convOp at h1 h2
  by_cases hfit : L.iqFits (T + L.left) = true
  · rw [if_pos hfit] at h1 h2
    by_cases hlt : T + L.left < L.dil * (L.k - 1) + 1
    · simp [hlt] at h1
    · simp only [if_neg hlt, Option.map_some, Option.some.injEq, Prod.mk.injEq] at h1 h2
      refine ⟨h1.1.symm.trans h2.1, ?_⟩
      rw [← h1.2, ← h2.2]
      have hpad : ∀ j : Fin L.k, padLeft L.left x (t * L.stride + j * L.dil) = padLeft L.left y (t * L.stride + j * L.dil) := by
        intro j
        have hj : (j : ℕ) * L.dil ≤ L.left := by
          unfold Conv1D.left
          rw [mul_comm]
          exact Nat.mul_le_mul_left _ (by have := j.isLt; omega)
        unfold padLeft
        by_cases hp : t * L.stride + j * L.dil < L.left
        · rw [if_pos hp, if_pos hp]
        · rw [if_neg hp, if_neg hp, hxy _ (by omega)]
      have : L.window (fun u i => L.iq u i (padLeft L.left x u i)) t = L.window (fun u i => L.iq u i (padLeft L.left y u i)) t := by
        unfold Conv1D.window
        refine Finset.sum_congr rfl (fun j _ => Finset.sum_congr rfl (fun i _ => ?_))
        simp only [hpad j]
      simp only [this]
  · simp [hfit] at h1

/-- **C84 violated**, default quantizer: bit widths per time step built for length `T ≠ 1`, and a kernel that looks back at all. Every
call on that length raises and leaves the layer with padding 'valid'; a second, identical call then succeeds (if a window fits) as a
'valid' convolution, with fewer outputs. -/
theorem C84_default_violated {c : ℕ} (L : Conv1D c) (T : ℕ) (hT : T ≠ 1) (ht : L.iqTime = some T) (hp : 0 < L.left)
    (x : ℕ → Fin c → ℝ) (fl fl' : Flag) :
    L.call .causal T x fl = (none, .valid) ∧
    (L.left < T → ∃ f, L.call (L.run .causal [(T, x, fl)]) T x fl' = (some ((T - L.left - 1) / L.stride + 1, f), .valid)) := by
  have hfit : L.iqFits (T + L.left) = false := by
    simp only [Conv1D.iqFits, ht, Bool.or_eq_false_iff, decide_eq_false_iff_not]
    exact ⟨by omega, hT⟩
  have h1 : L.call .causal T x fl = (none, .valid) := by
    simp [Conv1D.call, Conv1D.padCall, Conv1D.baseCall, hfit]
  refine ⟨h1, fun hlt => ?_⟩
  have hrun : L.run .causal [(T, x, fl)] = .valid := by simp [Conv1D.run, h1]
  rw [hrun]
  have hfit2 : L.iqFits T = true := by simp [Conv1D.iqFits, ht]
  have hge : ¬ T < L.dil * (L.k - 1) + 1 := by unfold Conv1D.left at hlt; omega
  have hlen : T - (L.dil * (L.k - 1) + 1) = T - L.left - 1 := by unfold Conv1D.left; omega
  have hb : ∃ f, L.baseCall .valid T x = some ((T - L.left - 1) / L.stride + 1, f) := by
    refine ⟨fun t => L.window (fun t i => L.iq t i (x t i)) t + L.bias, ?_⟩
    simp only [Conv1D.baseCall, hfit2, Conv1D.convOp, if_true, if_neg hge, Option.map_some, hlen]
  obtain ⟨f, hf⟩ := hb
  have hok : L.ebopsOk .valid T = true := by simp [Conv1D.ebopsOk, hfit2, Conv1D.convOp, hge]
  exact ⟨f, by simp [Conv1D.call, Conv1D.padCall, hf, hok]⟩

/-- **C84 violated**, EBOPs: with EBOPs enabled every training or calibration call of a causal layer raises, for every input. -/
theorem C84_ebops_violated {c : ℕ} (L : Conv1D c) (he : L.enableEbops = true) (T : ℕ) (x : ℕ → Fin c → ℝ) (fl : Flag)
    (hf : fl = .true ∨ fl = .tracing) : (L.call .causal T x fl).1 = none := by
  have hno : ((fl.truthy || fl.eqTracing) && L.enableEbops) = true := by
    rcases hf with h | h <;> simp [h, he, Flag.truthy, Flag.eqTracing]
  unfold Conv1D.call
  rcases hb : L.baseCall .valid (T + L.left) (padLeft L.left x) with _ | r
  · simp [Conv1D.padCall, hb]
  · simp [Conv1D.padCall, hb, hno, Conv1D.ebopsOk, Conv1D.convOp]

/-- **C84**: 'valid' and 'same' layers keep their padding over every history of calls, including raising ones. -/
theorem C84_padding_kept {c : ℕ} (L : Conv1D c) (p : Pad) (hp : p ≠ .causal) (h : List (ℕ × (ℕ → Fin c → ℝ) × Flag)) : L.run p h = p := by
  induction h with
  | nil => rfl
  | cons e h ih =>
    have : (L.call p e.1 e.2.1 e.2.2).2 = p := by
      simp only [Conv1D.call, Conv1D.padCall, if_neg hp]
      split <;> rfl
    simp only [Conv1D.run, List.foldl_cons, this]
    exact ih

/-- Concrete case of `C84_causal_partial`: kernel `[1, 10]`, dilation 2, stride 1, no quantization, inputs 1, 2, 3, …: 10, 20, 31. -/
example : let L : Conv1D 1 := ⟨2, 2, 1, ![fun _ => 1, fun _ => 10], 0, false, none, fun _ _ v => v⟩
    ∃ f, L.call .causal 3 (fun t _ => t + 1) .true = (some (3, f), .causal) ∧ f 0 = 10 ∧ f 1 = 20 ∧ f 2 = 31 := by
  intro L
  have h := C84_causal_partial L (by decide) (by decide) (fun _ v => v) (fun _ _ => rfl) (fun _ => rfl) rfl .true (Or.inl rfl) 3
    (by decide) (fun t _ => t + 1)
  have e : (3 + L.stride - 1) / L.stride = 3 := by simp [L]
  rw [e] at h
  refine ⟨_, h, ?_, ?_, ?_⟩ <;> simp [L, causalConv, Fin.sum_univ_two] <;> norm_num

/-- Concrete case of the violations: kernel size 2, length 6, default quantizer. -/
example : let L : Conv1D 1 := ⟨2, 1, 1, fun _ _ => 1, 0, true, some 6, fun _ _ v => v⟩
    (6 : ℕ) ≠ 1 ∧ L.iqTime = some 6 ∧ 0 < L.left ∧ L.left < 6 := by simp [Conv1D.left]

end HGQ
