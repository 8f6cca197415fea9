import Verif.Model.Callbacks
import Mathlib.Analysis.Convex.SpecificFunctions.Basic
import Mathlib.Tactic.Positivity
import Mathlib.Tactic.Linarith
import Mathlib.Tactic.FieldSimp

/-! # C31–C33, C58: the PID controllers of beta -/
namespace HGQ

namespace Spec
/-- `b` lies within the bounds given to `BetaPID`. -/
def InBounds (cfg : PidCfg) (b : ℝ) : Prop := cfg.minBeta ≤ b ∧ ∀ m, cfg.maxBeta = some m → b ≤ m
/-- The bounds are not contradictory. -/
def BoundsOk (cfg : PidCfg) : Prop := ∀ m, cfg.maxBeta = some m → cfg.minBeta ≤ m
/-- Clamping to the bounds. -/
noncomputable def clamp (cfg : PidCfg) (b : ℝ) : ℝ :=
  max (match cfg.maxBeta with | some m => min b m | none => b) cfg.minBeta
end Spec
open Spec

theorem clamp_inBounds (cfg : PidCfg) (h : BoundsOk cfg) (b : ℝ) : InBounds cfg (max (capMax cfg.maxBeta b) cfg.minBeta) := by
  refine ⟨le_max_right _ _, ?_⟩
  intro m hm
  rw [hm]
  exact max_le (min_le_right _ _) (h m hm)

theorem pidUpdate_bounds (cfg : PidCfg) (h : BoundsOk cfg) (pid : PID) (e : ℝ) (r : PID × ℝ)
    (hr : pidUpdate cfg pid e = some r) : InBounds cfg r.2 := by
  unfold pidUpdate at hr
  simp only [Option.map_eq_some_iff] at hr
  obtain ⟨⟨a, b⟩, -, rfl⟩ := hr
  exact clamp_inBounds cfg h _

/-- **C31** (partial) In every run, whatever EBOPs are measured and from whatever controller state, every beta assigned by
`BetaPID` lies in `[min_beta, max_beta]`, provided the initial beta given by the user does.  `BaseBetaPID` never assigns a
negative beta.  Missing: an initial beta outside the bounds, `C31_warmup_violated`. -/
theorem C31_bounds_partial (cfg : PidCfg) (h : BoundsOk cfg) (hinit : ∀ b, cfg.initBeta = some b → InBounds cfg b) :
    (∀ (es : List ℝ) (e : ℕ) (st : PidState) (l : List (Option ℝ)), pidRun cfg e st es = some l →
      l.length = es.length ∧ ∀ b, some b ∈ l → InBounds cfg b) ∧
    (∀ (c : PID) (target ebops : ℝ), 0 ≤ (basePidEpoch c target ebops).2) := by
  constructor
  · intro es
    induction es with
    | nil => intro e st l hl; simp [pidRun] at hl; subst hl; simp
    | cons x xs ih =>
      intro e st l hl
      simp only [pidRun, Option.bind_eq_some_iff, Option.map_eq_some_iff] at hl
      obtain ⟨r, hr, l', hl', rfl⟩ := hl
      obtain ⟨h1, h2⟩ := ih _ _ _ hl'
      refine ⟨by simp [h1], ?_⟩
      intro b hb
      rcases List.mem_cons.1 hb with hb | hb
      · unfold pidEpochBegin at hr
        split_ifs at hr with hw
        · simp only [Option.some.injEq] at hr
          subst hr
          exact hinit b hb.symm
        all_goals
          simp only [Option.bind_eq_some_iff, Option.map_eq_some_iff] at hr
          obtain ⟨pid, -, ⟨p', b'⟩, hu, rfl⟩ := hr
          simp only [Option.some.injEq] at hb
          subst hb
          exact pidUpdate_bounds cfg h pid _ _ hu
      · exact h2 b hb
  · intro c t e; exact le_max_right _ _

/-- **C31** is false during warm-up: an initial beta above `max_beta` is assigned as it is, in every warm-up epoch. -/
theorem C31_warmup_violated (cfg : PidCfg) (b m : ℝ) (hb : cfg.initBeta = some b) (hm : cfg.maxBeta = some m) (hbm : m < b)
    (st : PidState) (e : ℕ) (he : e < cfg.warmup) :
    pidEpochBegin cfg st e = some (st, some b) ∧ ¬ InBounds cfg b := by
  refine ⟨by unfold pidEpochBegin; rw [if_pos he, hb], ?_⟩
  rintro ⟨-, h⟩
  linarith [h m hm]

/-! ## C32 -/

theorem capMax_clamp (cfg : PidCfg) (b : ℝ) : max (capMax cfg.maxBeta b) cfg.minBeta = clamp cfg b := by
  unfold clamp capMax; rfl

/-- **C32** (partial: log mode, `d = 0`, no damping, EBOPs > 0) In the first epoch after warm-up the assigned beta is the
clamped value of `beta0·(r/(r+1e-9))^(p+i)`, `r = EBOPs/target`, `beta0` the initial beta; with `p + i ≥ 1` this is below
`beta0` by a relative `(p+i)·1e-9/r` at most.  Missing: exact equality, and the linear mode, `C32_linear_violated`. -/
theorem C32_first_epoch_partial (cfg : PidCfg) (st : PidState) (hlog : cfg.log = true) (hi : st.pid.i ≠ 0) (hd : st.pid.d = 0)
    (hneg : st.pid.neg = true) (hdamp : cfg.damp = 0) (ht : 0 < cfg.target) (he : 0 < st.ebops) (hb : 0 < st.beta) :
    ∃ st' u, pidEpochBegin cfg st cfg.warmup = some (st', some (clamp cfg u)) ∧ st'.beta = clamp cfg u ∧
      u = st.beta * ((st.ebops / cfg.target) / (st.ebops / cfg.target + 1e-9)) ^ (st.pid.p + st.pid.i) ∧
      (1 ≤ st.pid.p + st.pid.i →
        st.beta * (1 - (st.pid.p + st.pid.i) * (1e-9 / (st.ebops / cfg.target))) ≤ u ∧ u ≤ st.beta) := by
  obtain ⟨pid, beta, ebops⟩ := st
  obtain ⟨p, i, d, integ, prev, neg⟩ := pid
  simp only at hi hd hneg he hb ⊢
  subst hd hneg
  set r := ebops / cfg.target with hr
  have hr0 : 0 < r := div_pos he ht
  have hre : 0 < r + 1e-9 := by positivity
  set u := beta * (r / (r + 1e-9)) ^ (p + i) with hu
  have hl1 : log10? (r + 1e-9) = some (Real.logb 10 (r + 1e-9)) := by unfold log10?; rw [if_neg (not_le.2 hre)]
  have hl2 : log10? beta = some (Real.logb 10 beta) := by unfold log10?; rw [if_neg (not_le.2 hb)]
  have hl3 : log10? r = some (Real.logb 10 r) := by unfold log10?; rw [if_neg (not_le.2 hr0)]
  have hpow : ∀ integ', (10 : ℝ) ^ (p * (Real.logb 10 r - 0) + i * (((Real.logb 10 beta - p * Real.logb 10 (r + 1e-9)) / i
      - Real.logb 10 (r + 1e-9)) + (Real.logb 10 r - 0)) + 0 * (Real.logb 10 r - 0 - integ')) = u := by
    intro integ'
    have e1 : (p * (Real.logb 10 r - 0) + i * (((Real.logb 10 beta - p * Real.logb 10 (r + 1e-9)) / i
      - Real.logb 10 (r + 1e-9)) + (Real.logb 10 r - 0)) + 0 * (Real.logb 10 r - 0 - integ')) =
      Real.logb 10 beta + (Real.logb 10 r - Real.logb 10 (r + 1e-9)) * (p + i) := by
      field_simp; ring
    rw [e1, ← Real.logb_div hr0.ne' hre.ne', Real.rpow_add (by norm_num), Real.rpow_logb (by norm_num) (by norm_num) hb,
      Real.rpow_mul (by norm_num), Real.rpow_logb (by norm_num) (by norm_num) (div_pos hr0 hre)]
  have hbeg : ∃ pid', pidEpochBegin cfg ⟨⟨p, i, 0, integ, prev, true⟩, beta, ebops⟩ cfg.warmup =
      some (⟨pid', clamp cfg u, ebops⟩, some (clamp cfg u)) := by
    refine ⟨(⟨p, i, 0, (Real.logb 10 beta - p * Real.logb 10 (r + 1e-9)) / i - Real.logb 10 (r + 1e-9) + Real.logb 10 r,
      Real.logb 10 r, true⟩ : PID), ?_⟩
    unfold pidEpochBegin
    rw [if_neg (lt_irrefl _)]
    simp only [if_true]
    unfold pidInitIntegral
    simp only [if_neg hi, hlog, Bool.true_eq_false, if_false, ← hr, hl1, hl2, Option.bind_some]
    unfold pidUpdate
    simp only [hlog, if_true, ← hr, hl3, Option.map_some, PID.step, hdamp, sub_zero, mul_one, ite_self]
    have := hpow prev
    simp only [sub_zero] at this
    rw [this, capMax_clamp]
  obtain ⟨pid', hbeg⟩ := hbeg
  refine ⟨_, u, hbeg, rfl, rfl, ?_⟩
  · intro h1
    have hq : r / (r + 1e-9) = 1 + (-(1e-9 / (r + 1e-9))) := by field_simp; ring
    have hx0 : 0 ≤ 1e-9 / (r + 1e-9) := by positivity
    have hx1 : 1e-9 / (r + 1e-9) ≤ 1 := by rw [div_le_one hre]; linarith
    have hb1 := one_add_mul_self_le_rpow_one_add (s := -(1e-9 / (r + 1e-9))) (by linarith) h1
    rw [← hq] at hb1
    have hle : (r / (r + 1e-9)) ^ (p + i) ≤ 1 := Real.rpow_le_one (by positivity) (by rw [div_le_one hre]; norm_num) (by linarith)
    have hdiv : 1e-9 / (r + 1e-9) ≤ 1e-9 / r := by
      apply div_le_div_of_nonneg_left (by norm_num) hr0 (by norm_num)
    rw [hu]
    constructor
    · apply mul_le_mul_of_nonneg_left _ hb.le
      nlinarith
    · nlinarith

/-- **C32** is false with `log=False`: the sign of the error used to initialise the integral (L144) is opposite to the one
the controller uses (L28), so the first beta is off by `-2 (p+i) (1 - EBOPs/target)` before clamping. -/
theorem C32_linear_violated (cfg : PidCfg) (st : PidState) (hlog : cfg.log = false) (hi : st.pid.i ≠ 0) (hd : st.pid.d = 0)
    (hneg : st.pid.neg = true) (hdamp : cfg.damp = 0) :
    ∃ st', pidEpochBegin cfg st cfg.warmup =
      some (st', some (clamp cfg (st.beta - 2 * (st.pid.p + st.pid.i) * (1 - st.ebops / cfg.target)))) := by
  obtain ⟨pid, beta, ebops⟩ := st
  obtain ⟨p, i, d, integ, prev, neg⟩ := pid
  simp only at hi hd hneg ⊢
  subst hd hneg
  refine ⟨⟨⟨p, i, 0, (beta - p * (1 - ebops / cfg.target)) / i - (1 - ebops / cfg.target) + (ebops / cfg.target - 1),
    ebops / cfg.target - 1, true⟩, clamp cfg (beta - 2 * (p + i) * (1 - ebops / cfg.target)), ebops⟩, ?_⟩
  · unfold pidEpochBegin
    rw [if_neg (lt_irrefl _)]
    simp only [if_true]
    unfold pidInitIntegral
    simp only [if_neg hi, hlog, if_true, Option.bind_some]
    unfold pidUpdate
    simp only [hlog, Bool.false_eq_true, if_false, Option.map_some, PID.step, if_true, hdamp, sub_zero, mul_one, ite_self]
    have e : p * (ebops / cfg.target - 1) + i * ((beta - p * (1 - ebops / cfg.target)) / i - (1 - ebops / cfg.target) +
        (ebops / cfg.target - 1)) + 0 * (ebops / cfg.target - 1 - prev) =
        beta - 2 * (p + i) * (1 - ebops / cfg.target) := by
      field_simp; ring
    rw [e, capMax_clamp]

/-- Instance of the violation: `BetaPID(target=100, init_beta=1, p=1, i=1, log=False)` on a model with 50 EBOPs, bounds
`[0, ∞)`: the first beta after warm-up is 0 instead of 1. -/
example : ∃ st', pidEpochBegin ⟨100, some 1, 0, false, none, 0, 0⟩ ⟨⟨1, 1, 0, 0, 0, true⟩, 1, 50⟩ 0 = some (st', some 0) := by
  obtain ⟨st', h⟩ := C32_linear_violated ⟨100, some 1, 0, false, none, 0, 0⟩ ⟨⟨1, 1, 0, 0, 0, true⟩, 1, 50⟩ rfl
    (by norm_num) rfl rfl rfl
  refine ⟨st', ?_⟩
  simp only at h
  rw [h]
  norm_num [clamp]

/-! ## C33 -/

/-- **C33** With gains `p, i ≥ 0`, `d = 0`, damping in `[0,1]` and `min_beta ≥ 0`, for one and the same history (controller
state) a larger current EBOPs value never gives a smaller beta; both modes, all bounds. -/
theorem C33_monotone (cfg : PidCfg) (pid : PID) (hp : 0 ≤ pid.p) (hi : 0 ≤ pid.i) (hd : pid.d = 0) (hneg : pid.neg = true)
    (hdamp : 0 ≤ cfg.damp ∧ cfg.damp ≤ 1) (hmin : 0 ≤ cfg.minBeta) (ht : 0 < cfg.target)
    (e e' : ℝ) (hee : e ≤ e') (r r' : PID × ℝ) (hr : pidUpdate cfg pid e = some r) (hr' : pidUpdate cfg pid e' = some r') :
    r.2 ≤ r'.2 := by
  -- raw controller outputs are ordered
  have key : ∃ u u' : ℝ, u ≤ u' ∧ r.2 = clamp cfg (open Classical in if e < cfg.target then u * (1 - cfg.damp) else u) ∧
      r'.2 = clamp cfg (open Classical in if e' < cfg.target then u' * (1 - cfg.damp) else u') := by
    unfold pidUpdate at hr hr'
    have hdiv : e / cfg.target ≤ e' / cfg.target := div_le_div_of_nonneg_right hee ht.le
    have hstep : ∀ sv pv pv' : ℝ, pv ≤ pv' → (pid.step sv pv).2 ≤ (pid.step sv pv').2 := by
      intro sv pv pv' h
      simp only [PID.step, hneg, if_true, hd, zero_mul, add_zero]
      nlinarith
    cases hlog : cfg.log with
    | false =>
      simp only [hlog, Bool.false_eq_true, if_false, Option.map_some, Option.some.injEq] at hr hr'
      subst hr hr'
      exact ⟨_, _, hstep 1 _ _ hdiv, capMax_clamp _ _, capMax_clamp _ _⟩
    | true =>
      simp only [hlog, if_true, Option.map_map, Option.map_eq_some_iff] at hr hr'
      obtain ⟨a, ha, rfl⟩ := hr
      obtain ⟨a', ha', rfl⟩ := hr'
      have haa : a ≤ a' := by
        unfold log10? at ha ha'
        split_ifs at ha ha' with h1 h2
        simp only [Option.some.injEq] at ha ha'
        subst ha ha'
        exact Real.logb_le_logb_of_le (by norm_num) (not_le.1 h1) hdiv
      exact ⟨_, _, Real.rpow_le_rpow_of_exponent_le (by norm_num) (hstep 0 _ _ haa), capMax_clamp _ _, capMax_clamp _ _⟩
  obtain ⟨u, u', huu, h1, h2⟩ := key
  rw [h1, h2]
  have cm : ∀ x y : ℝ, x ≤ y ∨ x ≤ cfg.minBeta → clamp cfg x ≤ clamp cfg y := by
    intro x y h
    unfold clamp
    rcases h with h | h
    · apply max_le_max_right
      cases cfg.maxBeta with
      | none => exact h
      | some m => exact min_le_min_right _ h
    · refine max_le ?_ (le_max_right _ _)
      cases cfg.maxBeta with
      | none => exact le_max_of_le_right h
      | some m => exact le_max_of_le_right (le_trans (min_le_left _ _) h)
  apply cm
  by_cases g1 : e < cfg.target
  · rw [if_pos g1]
    by_cases g2 : e' < cfg.target
    · rw [if_pos g2]; left; exact mul_le_mul_of_nonneg_right huu (by linarith)
    · rw [if_neg g2]
      rcases le_total 0 u with h | h
      · left; nlinarith
      · right; nlinarith
  · rw [if_neg g1, if_neg (by linarith)]; left; exact huu

/-- **C33** While EBOPs stay constant the beta moves towards the target: with `i ≥ 0` and `d = 0`, after any first step,
another step with the same EBOPs above (below) target gives a controller output at least (at most) as large. -/
theorem C33_direction (c : PID) (hi : 0 ≤ c.i) (hd : c.d = 0) (hneg : c.neg = true) (target e : ℝ) :
    (target ≤ e → (c.step target e).2 ≤ ((c.step target e).1.step target e).2) ∧
    (e ≤ target → ((c.step target e).1.step target e).2 ≤ (c.step target e).2) := by
  simp only [PID.step, hneg, if_true, hd]
  constructor <;> intro h <;> nlinarith

/-! ## C58 -/

/-- **C58** (partial) With positive EBOPs, positive initial beta and `i ≠ 0`, no epoch of any run raises (log mode). -/
theorem C58_no_crash_partial (cfg : PidCfg) (hlog : cfg.log = true) (ht : 0 < cfg.target)
    (es : List ℝ) (hes : ∀ x ∈ es, 0 < x) (e : ℕ) (st : PidState) (hi : st.pid.i ≠ 0) (he : 0 < st.ebops)
    (hb : e ≤ cfg.warmup → 0 < st.beta) : (pidRun cfg e st es).isSome := by
  induction es generalizing e st with
  | nil => rfl
  | cons x xs ih =>
    simp only [pidRun]
    have hr0 : 0 < st.ebops / cfg.target := div_pos he ht
    have hl : ∀ y : ℝ, 0 < y → log10? y = some (Real.logb 10 y) := by
      intro y hy; unfold log10?; rw [if_neg (not_le.2 hy)]
    have hx := hes x (by simp)
    have hxs : ∀ y ∈ xs, 0 < y := fun y hy => hes y (by simp [hy])
    have hupd : ∀ pid : PID, pid.i = st.pid.i → ∃ r, pidUpdate cfg pid st.ebops = some r ∧ r.1.i = st.pid.i := by
      intro pid hpi
      unfold pidUpdate
      simp only [hlog, if_true, hl _ hr0, Option.map_some]
      exact ⟨_, rfl, hpi⟩
    by_cases hlt : e < cfg.warmup
    · have hbeg : pidEpochBegin cfg st e = some (st, cfg.initBeta) := by unfold pidEpochBegin; rw [if_pos hlt]
      rw [hbeg]
      simp only [Option.bind_some, Option.isSome_map]
      exact ih hxs (e + 1) _ hi hx (fun _ => hb hlt.le)
    · have : ∃ r, pidEpochBegin cfg st e = some r ∧ r.1.pid.i = st.pid.i := by
        unfold pidEpochBegin
        rw [if_neg hlt]
        by_cases hew : e = cfg.warmup
        · simp only [hew, if_true]
          unfold pidInitIntegral
          simp only [if_neg hi, hlog, Bool.true_eq_false, if_false, hl _ (show 0 < st.ebops / cfg.target + 1e-9 by positivity),
            hl _ (hb hew.le), Option.bind_some]
          obtain ⟨r, hr, hri⟩ := hupd ⟨st.pid.p, st.pid.i, st.pid.d, (Real.logb 10 st.beta -
            st.pid.p * Real.logb 10 (st.ebops / cfg.target + 1e-9)) / st.pid.i - Real.logb 10 (st.ebops / cfg.target + 1e-9),
            st.pid.prev, st.pid.neg⟩ rfl
          rw [hr]
          exact ⟨_, rfl, hri⟩
        · simp only [if_neg hew, Option.bind_some]
          obtain ⟨r, hr, hri⟩ := hupd st.pid rfl
          rw [hr]
          exact ⟨_, rfl, hri⟩
      obtain ⟨r, hr, hri⟩ := this
      rw [hr]
      simp only [Option.bind_some, Option.isSome_map]
      exact ih hxs (e + 1) _ (by simpa [pidEpochEnd, hri] using hi) hx (fun h => by omega)

/-- **C58** is false when the EBOPs reach 0 (a collapsed model): every later epoch raises `ValueError` in log mode (the
default), since L151 lacks the `1e-9` of L147. -/
theorem C58_zero_ebops_violated (cfg : PidCfg) (hlog : cfg.log = true) (st : PidState) (h0 : st.ebops = 0) (e : ℕ)
    (he : cfg.warmup ≤ e) : pidEpochBegin cfg st e = none := by
  have hu : ∀ pid, pidUpdate cfg pid st.ebops = none := by
    intro pid
    unfold pidUpdate
    simp [hlog, h0, log10?]
  unfold pidEpochBegin
  rw [if_neg (by omega)]
  simp only [hu, Option.map_none]
  split_ifs <;> simp

/-- The library's default gains and bounds, `BetaPID(1000, init_beta=1e-6)` on a model with 2000 EBOPs, meet the hypotheses of
C31, C32, C33 and C58. -/
example :
    let cfg : PidCfg := ⟨1000, some 1e-6, 10, true, none, 0, 0⟩
    let pid : PID := ⟨1, 2e-3, 0, 0, 0, true⟩
    let st : PidState := pidTrainBegin cfg pid 0 2000
    BoundsOk cfg ∧ (∀ b, cfg.initBeta = some b → InBounds cfg b) ∧ st.pid.i ≠ 0 ∧ 0 < st.ebops ∧ 0 < st.beta ∧
    1 ≤ st.pid.p + st.pid.i ∧ (∃ r, pidUpdate cfg pid 2000 = some r) := by
  refine ⟨by simp [BoundsOk], ?_, ?_, ?_, ?_, ?_, ?_⟩
  · intro b hb
    simp at hb
    subst hb
    exact ⟨by norm_num, by simp⟩
  · norm_num [pidTrainBegin]
  · norm_num [pidTrainBegin]
  · norm_num [pidTrainBegin]
  · norm_num [pidTrainBegin]
  · unfold pidUpdate log10?
    simp only [if_true]
    rw [if_neg (by norm_num)]
    exact ⟨_, rfl⟩

end HGQ
