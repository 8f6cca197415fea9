import Verif.Model.Callbacks
import Mathlib.Data.List.Sort
import Mathlib.Tactic.Positivity
import Mathlib.Tactic.Linarith
import Mathlib.Tactic.FieldSimp

/-! # C30: beta schedule -/
namespace HGQ

namespace Spec
/-- Consecutive key points `p`, `q` of a schedule. -/
def Consecutive (s : List KeyPt) (p q : KeyPt) : Prop := ∃ i, s[i]? = some p ∧ s[i + 1]? = some q
/-- Logarithmic segments start at a positive beta and end at a non-negative one. -/
def LogOk (s : List KeyPt) : Prop :=
  (∀ p ∈ s, p.interp = .log → 0 < p.beta) ∧ ∀ p q, Consecutive s p q → p.interp = .log → 0 ≤ q.beta
end Spec
open Spec

theorem eps_pos : 0 < schedEps := by unfold schedEps; norm_num

theorem count_le (s : List KeyPt) (hs : s.Pairwise (fun a b => a.epoch ≤ b.epoch)) (e : ℤ) (i : ℕ) (p : KeyPt)
    (hp : s[i]? = some p) (h1 : p.epoch ≤ e) (h2 : ∀ q, s[i + 1]? = some q → e < q.epoch) :
    s.countP (fun p => p.epoch ≤ e) = i + 1 := by
  obtain ⟨hi, rfl⟩ := List.getElem?_eq_some_iff.1 hp
  rw [← List.take_append_drop (i + 1) s, List.countP_append]
  have hA : (s.take (i + 1)).countP (fun p => p.epoch ≤ e) = i + 1 := by
    have : (s.take (i + 1)).length = i + 1 := by simp; omega
    conv_rhs => rw [← this]
    rw [List.countP_eq_length]
    intro a ha
    obtain ⟨j, hj, rfl⟩ := List.mem_iff_getElem.1 ha
    simp only [List.length_take] at hj
    rw [List.getElem_take]
    simp only [decide_eq_true_eq]
    rcases Nat.lt_or_ge j i with g | g
    · exact le_trans ((List.pairwise_iff_getElem.1 hs) j i (by omega) hi g) h1
    · have : j = i := by omega
      subst this; exact h1
  have hB : (s.drop (i + 1)).countP (fun p => p.epoch ≤ e) = 0 := by
    rw [List.countP_eq_zero]
    intro a ha
    obtain ⟨j, hj, rfl⟩ := List.mem_iff_getElem.1 ha
    simp only [List.length_drop] at hj
    rw [List.getElem_drop]
    simp only [decide_eq_true_eq, not_le]
    have h3 := h2 s[i + 1] (by rw [List.getElem?_eq_getElem (by omega)])
    rcases Nat.eq_zero_or_pos j with g | g
    · subst g; exact h3
    · exact lt_of_lt_of_le h3 ((List.pairwise_iff_getElem.1 hs) (i + 1) (i + 1 + j) (by omega) (by omega) (by omega))
  rw [hA, hB]

/-- Value inside segment `i`. -/
theorem call_segment (s : List KeyPt) (hs : s.Pairwise (fun a b => a.epoch ≤ b.epoch)) (e : ℤ) (i : ℕ) (p q : KeyPt)
    (hp : s[i]? = some p) (hq : s[i + 1]? = some q) (h1 : p.epoch ≤ e) (h2 : e < q.epoch) :
    schedCall s e = interpolate p.interp p.beta q.beta p.epoch q.epoch e := by
  unfold schedCall
  rw [count_le s hs e i p hp h1 (by intro q' hq'; rw [hq] at hq'; cases hq'; exact h2)]
  have hi := (List.getElem?_eq_some_iff.1 hq).1
  have e1 : clipIdx s.length (((i + 1 : ℕ) : ℤ) - 1) = i := by unfold clipIdx; omega
  have e2 : clipIdx s.length (((i + 1 : ℕ) : ℤ) - 1 + 1) = i + 1 := by unfold clipIdx; omega
  simp only [e1, e2, hp, hq]

/-- Value after the last key point. -/
theorem call_last (s : List KeyPt) (hs : s.Pairwise (fun a b => a.epoch ≤ b.epoch)) (e : ℤ) (p : KeyPt)
    (hp : s.getLast? = some p) (h1 : p.epoch ≤ e) :
    schedCall s e = interpolate p.interp p.beta p.beta p.epoch p.epoch e := by
  have hp' : s[s.length - 1]? = some p := by rw [← List.getLast?_eq_getElem?]; exact hp
  have hi := (List.getElem?_eq_some_iff.1 hp').1
  unfold schedCall
  rw [count_le s hs e (s.length - 1) p hp' h1 (by
    intro q hq; have := (List.getElem?_eq_some_iff.1 hq).1; omega)]
  have e1 : clipIdx s.length (((s.length - 1 + 1 : ℕ) : ℤ) - 1) = s.length - 1 := by unfold clipIdx; omega
  have e2 : clipIdx s.length (((s.length - 1 + 1 : ℕ) : ℤ) - 1 + 1) = s.length - 1 := by unfold clipIdx; omega
  simp only [e1, e2, hp']

/-- Value before the first key point. -/
theorem call_first (s : List KeyPt) (hs : s.Pairwise (fun a b => a.epoch ≤ b.epoch)) (e : ℤ) (p : KeyPt)
    (hp : s.head? = some p) (h1 : e < p.epoch) :
    schedCall s e = interpolate p.interp p.beta p.beta p.epoch p.epoch e := by
  cases s with
  | nil => simp at hp
  | cons a r =>
    simp at hp
    subst hp
    have hc : (a :: r).countP (fun p => p.epoch ≤ e) = 0 := by
      rw [List.countP_eq_zero]
      intro b hb
      simp only [decide_eq_true_eq, not_le]
      rcases List.mem_cons.1 hb with rfl | hb'
      · exact h1
      · exact lt_of_lt_of_le h1 ((List.pairwise_cons.1 hs).1 b hb')
    unfold schedCall
    rw [hc]
    have e1 : clipIdx (a :: r).length (((0 : ℕ) : ℤ) - 1) = 0 := by unfold clipIdx; omega
    have e2 : clipIdx (a :: r).length (((0 : ℕ) : ℤ) - 1 + 1) = 0 := by unfold clipIdx; simp
    simp only [e1, e2, List.getElem?_cons_zero]

theorem interp_const (m : Interp) (b : ℝ) (e0 e : ℤ) (h : m = .log → 0 < b) :
    interpolate m b b e0 e0 e = some b := by
  cases m with
  | linear => simp [interpolate]
  | const => rfl
  | log =>
    have hb := h rfl
    unfold interpolate
    simp only
    rw [div_self hb.ne', if_neg (by rw [not_or]; exact ⟨hb.ne', by norm_num⟩), Real.one_rpow, mul_one]

/-- Behaviour on one segment. -/
theorem interp_segment (m : Interp) (b0 b1 : ℝ) (e0 e1 : ℤ) (hlog : m = .log → 0 < b0 ∧ 0 ≤ b1) :
    ∃ f : ℤ → ℝ, (∀ e, e0 ≤ e → e < e1 → interpolate m b0 b1 e0 e1 e = some (f e) ∧ min b0 b1 ≤ f e ∧ f e ≤ max b0 b1) ∧
      (e0 < e1 → f e0 = b0) ∧
      (∀ e e', e0 ≤ e → e ≤ e' → e' < e1 → (b0 ≤ b1 → f e ≤ f e') ∧ (b1 ≤ b0 → f e' ≤ f e)) := by
  have hd : ∀ e : ℤ, e0 ≤ e → e < e1 → 0 < ((e1 : ℝ) - e0 + schedEps) := by
    intro e h1 h2
    have : (e0 : ℝ) < e1 := by exact_mod_cast lt_of_le_of_lt h1 h2
    have := eps_pos
    linarith
  have ht : ∀ e : ℤ, e0 ≤ e → e < e1 → 0 ≤ ((e : ℝ) - e0) / ((e1 : ℝ) - e0 + schedEps) ∧
      ((e : ℝ) - e0) / ((e1 : ℝ) - e0 + schedEps) ≤ 1 := by
    intro e h1 h2
    have h3 := hd e h1 h2
    have h4 : (e0 : ℝ) ≤ e := by exact_mod_cast h1
    have h5 : (e : ℝ) < e1 := by exact_mod_cast h2
    have := eps_pos
    exact ⟨div_nonneg (by linarith) h3.le, by rw [div_le_one h3]; linarith⟩
  have htm : ∀ e e' : ℤ, e0 ≤ e → e ≤ e' → e' < e1 → ((e : ℝ) - e0) / ((e1 : ℝ) - e0 + schedEps) ≤
      ((e' : ℝ) - e0) / ((e1 : ℝ) - e0 + schedEps) := by
    intro e e' h1 h2 h3
    have h4 : (e : ℝ) ≤ e' := by exact_mod_cast h2
    exact div_le_div_of_nonneg_right (by linarith) (hd e h1 (lt_of_le_of_lt h2 h3)).le
  cases m with
  | const =>
    exact ⟨fun _ => b0, fun e _ _ => ⟨rfl, min_le_left _ _, le_max_left _ _⟩, fun _ => rfl, fun e e' _ _ _ => ⟨fun _ => le_refl _, fun _ => le_refl _⟩⟩
  | linear =>
    refine ⟨fun e => b0 + (b1 - b0) * (((e : ℝ) - e0) / ((e1 : ℝ) - e0 + schedEps)), ?_, ?_, ?_⟩
    · intro e h1 h2
      refine ⟨by simp [interpolate, mul_div_assoc], ?_⟩
      obtain ⟨t0, t1⟩ := ht e h1 h2
      set t := ((e : ℝ) - e0) / ((e1 : ℝ) - e0 + schedEps)
      rcases le_total b0 b1 with h | h
      · rw [min_eq_left h, max_eq_right h]; constructor <;> nlinarith
      · rw [min_eq_right h, max_eq_left h]; constructor <;> nlinarith
    · intro _; simp
    · intro e e' h1 h2 h3
      have := htm e e' h1 h2 h3
      constructor <;> intro h <;> simp only <;> nlinarith
  | log =>
    obtain ⟨hb0, hb1⟩ := hlog rfl
    have hr : 0 ≤ b1 / b0 := div_nonneg hb1 hb0.le
    refine ⟨fun e => b0 * (b1 / b0) ^ (((e : ℝ) - e0) / ((e1 : ℝ) - e0 + schedEps)), ?_, ?_, ?_⟩
    · intro e h1 h2
      refine ⟨by simp only [interpolate]; rw [if_neg (by rw [not_or]; exact ⟨hb0.ne', not_lt.2 hr⟩)], ?_⟩
      obtain ⟨t0, t1⟩ := ht e h1 h2
      simp only
      set t := ((e : ℝ) - e0) / ((e1 : ℝ) - e0 + schedEps)
      have hmul : b0 * (b1 / b0) = b1 := by field_simp
      rcases le_total b0 b1 with h | h
      · have h1' : 1 ≤ b1 / b0 := by rw [le_div_iff₀ hb0]; linarith
        have p1 := Real.one_le_rpow h1' t0
        have p2 := Real.rpow_le_rpow_of_exponent_le h1' t1
        rw [Real.rpow_one] at p2
        rw [min_eq_left h, max_eq_right h]
        constructor <;> nlinarith
      · have h1' : b1 / b0 ≤ 1 := by rw [div_le_one hb0]; exact h
        have p1 := Real.rpow_le_one hr h1' t0
        have p2 : b1 / b0 ≤ (b1 / b0) ^ t := by
          have := Real.rpow_le_rpow_of_exponent_ge' hr h1' t0 t1
          rwa [Real.rpow_one] at this
        rw [min_eq_right h, max_eq_left h]
        constructor <;> nlinarith
    · intro _; simp
    · intro e e' h1 h2 h3
      have hm := htm e e' h1 h2 h3
      have t0 := (ht e h1 (lt_of_le_of_lt h2 h3)).1
      constructor
      · intro h
        have h1' : 1 ≤ b1 / b0 := by rw [le_div_iff₀ hb0]; linarith
        exact mul_le_mul_of_nonneg_left (Real.rpow_le_rpow_of_exponent_le h1' hm) hb0.le
      · intro h
        have h1' : b1 / b0 ≤ 1 := by rw [div_le_one hb0]; exact h
        exact mul_le_mul_of_nonneg_left (Real.rpow_le_rpow_of_exponent_ge' hr h1' t0 hm) hb0.le

/-- **C30** (partial: `LogOk`) For the key points in the order the constructor puts them: constant before the first and after
the last key epoch; on every segment defined, between the two betas, monotone, and exactly the key beta at its start.
Missing: logarithmic segments starting at beta 0, `C30_log_zero_violated`. -/
theorem C30_schedule_partial (pts : List KeyPt) (hl : LogOk (mkSchedule pts)) :
    (mkSchedule pts).Perm pts ∧ (mkSchedule pts).Pairwise (fun a b => a.epoch ≤ b.epoch) ∧
    (∀ p e, (mkSchedule pts).head? = some p → e < p.epoch → schedCall (mkSchedule pts) e = some p.beta) ∧
    (∀ p e, (mkSchedule pts).getLast? = some p → p.epoch ≤ e → schedCall (mkSchedule pts) e = some p.beta) ∧
    (∀ p q, Consecutive (mkSchedule pts) p q → ∃ f : ℤ → ℝ,
      (∀ e, p.epoch ≤ e → e < q.epoch → schedCall (mkSchedule pts) e = some (f e) ∧
        min p.beta q.beta ≤ f e ∧ f e ≤ max p.beta q.beta) ∧
      (p.epoch < q.epoch → f p.epoch = p.beta) ∧
      (∀ e e', p.epoch ≤ e → e ≤ e' → e' < q.epoch →
        (p.beta ≤ q.beta → f e ≤ f e') ∧ (q.beta ≤ p.beta → f e' ≤ f e))) := by
  have hperm : (mkSchedule pts).Perm pts := List.mergeSort_perm _ _
  have hs : (mkSchedule pts).Pairwise (fun a b => a.epoch ≤ b.epoch) := by
    have := List.pairwise_mergeSort (le := fun a b : KeyPt => decide (a.epoch ≤ b.epoch))
      (by intro a b c h1 h2; simp at *; omega) (by intro a b; simp; omega) pts
    simpa [mkSchedule] using this
  refine ⟨hperm, hs, ?_, ?_, ?_⟩
  · intro p e hp he
    rw [call_first _ hs e p hp he]
    exact interp_const _ _ _ _ (hl.1 p (List.mem_of_mem_head? hp))
  · intro p e hp he
    rw [call_last _ hs e p hp he]
    exact interp_const _ _ _ _ (hl.1 p (List.mem_of_mem_getLast? hp))
  · rintro p q ⟨i, hp, hq⟩
    obtain ⟨f, h1, h2, h3⟩ := interp_segment p.interp p.beta q.beta p.epoch q.epoch
      (fun h => ⟨hl.1 p (List.mem_of_getElem? hp) h, hl.2 p q ⟨i, hp, hq⟩ h⟩)
    refine ⟨f, ?_, h2, h3⟩
    intro e he1 he2
    rw [call_segment _ hs e i p q hp hq he1 he2]
    exact h1 e he1 he2

/-- **C30** is false for a `log` point with beta 0 (the docstring warns of nothing): every epoch of its segment raises
`ZeroDivisionError`, whatever comes next. -/
theorem C30_log_zero_violated (q : KeyPt) (e0 e : ℤ) (h1 : e0 ≤ e) (h2 : e < q.epoch) :
    schedCall [⟨e0, 0, .log⟩, q] e = none := by
  rw [call_segment [⟨e0, 0, .log⟩, q] (by simp; omega) e 0 ⟨e0, 0, .log⟩ q rfl rfl h1 h2]
  simp [interpolate]

/-- The docstring's schedule, `[(0, 0, linear), (10, 1e-5, log), (20, 1e-3, constant)]`, meets the hypotheses. -/
example : LogOk (mkSchedule [⟨0, 0, .linear⟩, ⟨10, 1e-5, .log⟩, ⟨20, 1e-3, .const⟩]) := by
  rw [mkSchedule, List.mergeSort_of_pairwise (by simp)]
  constructor
  · intro p hp
    simp at hp
    rcases hp with rfl | rfl | rfl <;> simp; norm_num
  · rintro p q ⟨i, hp, hq⟩ h
    match i with
    | 0 => simp at hp; subst hp; simp at h
    | 1 => simp at hq; subst hq; norm_num
    | (n + 2) => simp at hq

end HGQ
