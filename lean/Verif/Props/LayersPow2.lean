import Verif.Model.Layers
import Mathlib.Tactic
import Mathlib.Analysis.SpecialFunctions.Sqrt
import Mathlib.NumberTheory.Real.Irrational

/-!
# C41 (power-of-two means), C42 (`QEinsum` ellipsis)
-/
namespace HGQ
open Finset

/-! ## C41 -/

/-- `log2 n` is never exactly half-way between two integers, so every rounding convention gives the same scale. -/
theorem logb_not_half (n : ℕ) (hn : 0 < n) (k : ℤ) : Real.logb 2 n ≠ k + 1 / 2 := by
  intro h
  have hn' : (0 : ℝ) < n := by exact_mod_cast hn
  have h2 : Real.logb 2 ((n : ℝ) ^ 2) = ((2 * k + 1 : ℤ) : ℝ) := by
    rw [Real.logb_pow, h]; push_cast; ring
  have h3 : ((n : ℝ) ^ 2) = (2 : ℝ) ^ (2 * k + 1) := by
    rw [← Real.rpow_intCast, ← h2, Real.rpow_logb (by norm_num) (by norm_num) (by positivity)]
  -- sqrt 2 would be rational
  have h4 : (2 : ℝ) = ((n : ℝ) / 2 ^ k) ^ 2 := by
    rw [div_pow, h3, zpow_add₀ (by norm_num), ← zpow_natCast ((2 : ℝ) ^ k), ← zpow_mul]
    have : (2 : ℝ) ^ (2 * k) ≠ 0 := by positivity
    rw [mul_comm k]; field_simp; norm_num
  have h5 : Real.sqrt 2 = (n : ℝ) / 2 ^ k := by
    conv_lhs => rw [h4]
    rw [Real.sqrt_sq (by positivity)]
  exact irrational_sqrt_two ⟨(n : ℚ) / 2 ^ k, by rw [h5]; push_cast; rfl⟩

/-- **C41.** For every number of summands `n ≥ 1`: the scale is a power of two; `scale · n` lies in `[1/√2, √2]`, so the result is
within a factor `√2` of the true mean; it *is* the mean for every input iff `n` is a power of two; the integer chosen is the
unique nearest one (any tie-breaking convention gives the same); `QSum` accepts exactly the powers of two. -/
theorem C41_pow2_mean (n : ℕ) (hn : 0 < n) :
    (∃ k : ℤ, pow2Scale n = 2 ^ k) ∧
    1 / Real.sqrt 2 ≤ pow2Scale n * n ∧ pow2Scale n * n ≤ Real.sqrt 2 ∧
    ((∀ x : Fin n → ℝ, meanPow2 x = (∑ i, x i) / n) ↔ ∃ k : ℕ, n = 2 ^ k) ∧
    (∀ k : ℤ, |Real.logb 2 (1 / n) - k| ≤ 1 / 2 → pow2Scale n = 2 ^ k) ∧
    (∀ s : ℝ, qsumAccepts s ↔ ∃ k : ℤ, s = 2 ^ k) := by
  have hn' : (0 : ℝ) < n := by exact_mod_cast hn
  have hpow : ∀ t : ℝ, (2 : ℝ) ^ t = Real.exp (Real.log 2 * t) := fun t => Real.rpow_def_of_pos (by norm_num) t
  have hs2 : Real.sqrt 2 = (2 : ℝ) ^ (1 / 2 : ℝ) := Real.sqrt_eq_rpow 2
  have hprod : pow2Scale n * n = (2 : ℝ) ^ ((round (Real.logb 2 (1 / n)) : ℝ) - Real.logb 2 (1 / n)) := by
    rw [Real.rpow_sub (by norm_num), Real.rpow_logb (by norm_num) (by norm_num) (by positivity), Real.rpow_intCast]
    unfold pow2Scale; field_simp
  have hr := abs_le.1 (abs_sub_round (Real.logb 2 (1 / (n : ℝ))))
  refine ⟨⟨_, rfl⟩, ?_, ?_, ?_, ?_, ?_⟩
  · rw [hprod, hs2, one_div, ← Real.rpow_neg (by norm_num)]
    exact Real.rpow_le_rpow_of_exponent_le (by norm_num) (by linarith [hr.2])
  · rw [hprod, hs2]
    exact Real.rpow_le_rpow_of_exponent_le (by norm_num) (by linarith [hr.1])
  · constructor
    · intro h
      have h1 := h fun i => if i = ⟨0, hn⟩ then 1 else 0
      simp only [meanPow2, sum_ite_eq', mem_univ, if_true, one_mul] at h1
      -- n = 2 ^ (-k) with integer exponent
      have h2 : (n : ℝ) = 2 ^ (-round (Real.logb 2 (1 / (n : ℝ))) : ℤ) := by
        unfold pow2Scale at h1
        rw [zpow_neg, h1]; simp
      generalize -round (Real.logb 2 (1 / (n : ℝ))) = k at h2
      obtain ⟨m, hm⟩ | ⟨m, hm⟩ : (∃ m : ℕ, k = m) ∨ ∃ m : ℕ, k = -(m + 1 : ℕ) := by
        rcases k with m | m
        · exact .inl ⟨m, rfl⟩
        · exact .inr ⟨m, rfl⟩
      · refine ⟨m, ?_⟩
        rw [hm, zpow_natCast] at h2; exact_mod_cast h2
      · exfalso
        rw [hm, zpow_neg, zpow_natCast] at h2
        have : (n : ℝ) < 1 := by
          rw [h2]; exact inv_lt_one_of_one_lt₀ (one_lt_pow₀ (by norm_num) (by omega))
        have : (1 : ℝ) ≤ n := by exact_mod_cast hn
        linarith
    · rintro ⟨k, rfl⟩ x
      have : pow2Scale (2 ^ k) = 1 / ((2 ^ k : ℕ) : ℝ) := by
        unfold pow2Scale
        have : Real.logb 2 (1 / ((2 ^ k : ℕ) : ℝ)) = ((-k : ℤ) : ℝ) := by
          rw [one_div, Real.logb_inv]; push_cast; rw [Real.logb_pow]; simp
        rw [this, round_intCast]; simp
      unfold meanPow2; rw [this]; ring
  · intro k hk
    unfold pow2Scale
    congr 1
    have hk' := abs_le.1 hk
    rw [round_eq, Int.floor_eq_iff]
    refine ⟨by linarith [hk'.1], ?_⟩
    by_contra hc
    push Not at hc
    apply logb_not_half n hn (-k - 1)
    have e : Real.logb 2 (1 / (n : ℝ)) = -Real.logb 2 n := by rw [one_div, Real.logb_inv]
    rw [e] at hc hk'
    push_cast; linarith [hk'.2]
  · intro s
    constructor
    · rintro ⟨hs, k, hk⟩
      refine ⟨k, ?_⟩
      rw [← Real.rpow_intCast, ← hk, Real.rpow_logb (by norm_num) (by norm_num) hs]
    · rintro ⟨k, rfl⟩
      refine ⟨by positivity, k, ?_⟩
      rw [← Real.rpow_intCast, Real.logb_rpow (by norm_num) (by norm_num)]

/-- Four summands: the mean; three: scale 1/4 or 1/2 (`scale·3 ≠ 1`). -/
example : meanPow2 (n := 4) ![1, 2, 3, 6] = 3 ∧ pow2Scale 3 * 3 ≠ 1 := by
  constructor
  · rw [((C41_pow2_mean 4 (by norm_num)).2.2.2.1.2 ⟨2, rfl⟩)]; simp [Fin.sum_univ_four]; norm_num
  · intro h
    have h2 : ∀ x : Fin 3 → ℝ, meanPow2 x = (∑ i, x i) / (3 : ℕ) := by
      intro x; unfold meanPow2; push_cast; rw [eq_div_iff (by norm_num), mul_assoc, h, mul_one]
    obtain ⟨k, hk⟩ := (C41_pow2_mean 3 (by norm_num)).2.2.2.1.1 h2
    rcases k with _ | _ | k
    · omega
    · omega
    · rw [pow_succ, pow_succ] at hk; omega

/-! ## C42 -/

theorem mem_labels_scan : ∀ (ins : List (Operand × ℕ)) (w : Option ℕ) (used : List Char) (w' : Option ℕ) (used' : List Char),
    ellipsisScan ins w used = .ok (w', used') → (∀ p ∈ ins, p.1.dots = true → p.1.len ≠ p.2) →
    (∀ c, c ∈ used' ↔ c ∈ used ∨ ∃ p ∈ ins, p.1.dots = true ∧ c ∈ p.1.labels) ∧
    (∀ p ∈ ins, p.1.dots = true → ∃ k, w' = some k ∧ p.2 = k + p.1.labels.length) ∧
    (∀ p ∈ ins, p.1.dots = false → p.2 = p.1.labels.length) ∧
    (∀ k, w = some k → w' = some k) ∧ (w = none → (∀ p ∈ ins, p.1.dots = false) → w' = none) := by
  intro ins
  induction ins with
  | nil =>
    intro w used w' used' h _
    simp only [ellipsisScan, Except.ok.injEq, Prod.mk.injEq] at h
    obtain ⟨rfl, rfl⟩ := h
    simp
  | cons p r ih =>
    obtain ⟨o, nd⟩ := p
    intro w used w' used' h hne
    have hlen : o.len = o.labels.length + (if o.dots then 3 else 0) := by simp [Operand.len, Operand.labels]; omega
    have ih' := fun w used w' used' h => ih w used w' used' h (fun p hp => hne p (List.mem_cons_of_mem _ hp))
    rw [ellipsisScan] at h
    by_cases hd : o.dots = true
    · have hl : o.len ≠ nd := hne (o, nd) List.mem_cons_self hd
      simp only [hl, ne_eq, not_false_eq_true, if_true, hd] at h
      have hcase : ∃ k, (w = none ∨ w = some k) ∧ nd = k + o.labels.length ∧
          ellipsisScan r (some k) (used ++ o.labels) = .ok (w', used') := by
        rw [hd, if_pos rfl] at hlen
        cases w with
        | none =>
          simp only at h
          split at h
          · rename_i hk
            exact ⟨_, .inl rfl, by omega, h⟩
          · cases h
        | some w0 =>
          simp only at h
          split at h
          · rename_i hk
            exact ⟨w0, .inr rfl, by omega, h⟩
          · cases h
      obtain ⟨k, hw, hnd, hr⟩ := hcase
      obtain ⟨i1, i2, i3, i4, _⟩ := ih' _ _ _ _ hr
      have hw' := i4 k rfl
      refine ⟨fun c => ?_, ?_, ?_, ?_, ?_⟩
      · rw [i1 c, List.mem_append]
        simp only [List.mem_cons, exists_eq_or_imp, hd, true_and]
        tauto
      · intro p hp hpd
        rcases List.mem_cons.1 hp with rfl | hp
        · exact ⟨k, hw', hnd⟩
        · exact i2 p hp hpd
      · intro p hp hpd
        rcases List.mem_cons.1 hp with rfl | hp
        · rw [hd] at hpd; cases hpd
        · exact i3 p hp hpd
      · intro k' hk'
        rcases hw with hw | hw
        · rw [hw] at hk'; cases hk'
        · rw [hw] at hk'; cases hk'; exact hw'
      · intro _ hall
        have := hall (o, nd) List.mem_cons_self
        rw [hd] at this; cases this
    · simp only [Bool.not_eq_true] at hd
      by_cases hl : o.len = nd
      · simp only [hl, ne_eq, not_true_eq_false, if_false] at h
        obtain ⟨i1, i2, i3, i4, i5⟩ := ih' _ _ _ _ h
        refine ⟨fun c => ?_, ?_, ?_, i4, fun hw hall => i5 hw fun p hp => hall p (List.mem_cons_of_mem _ hp)⟩
        · rw [i1 c]; simp only [List.mem_cons, exists_eq_or_imp, hd, Bool.false_eq_true, false_and, false_or]
        · intro p hp hpd
          rcases List.mem_cons.1 hp with rfl | hp
          · rw [hd] at hpd; cases hpd
          · exact i2 p hp hpd
        · intro p hp hpd
          rcases List.mem_cons.1 hp with rfl | hp
          · rw [hd] at hlen; simp only [Bool.false_eq_true, if_false] at hlen; simp only; omega
          · exact i3 p hp hpd
      · simp [hl, hd] at h

/-- **C42 (partial).** For every iteration order of the letter set: if no ellipsis stands for exactly three dimensions and every
label of the equation occurs in some operand that has an ellipsis, then an accepted equation is expanded by replacing each
ellipsis by the same list of distinct letters that occur nowhere in the equation, and every expanded operand has as many labels as its tensor has dimensions.
Missing: the two excluded cases, which are false (`C42_capture_violated`, `C42_three_violated`); more than 52 labels. -/
theorem C42_ellipsis_partial (order : List Char) (horder : order.Perm letters) (ins : List (Operand × ℕ)) (out : Operand)
    (h3 : ∀ p ∈ ins, p.1.dots = true → p.1.len ≠ p.2)
    (hlab : ∀ c, ((∃ p ∈ ins, c ∈ p.1.labels) ∨ c ∈ out.labels) → ∃ p ∈ ins, p.1.dots = true ∧ c ∈ p.1.labels)
    (hsome : ∃ p ∈ ins, p.1.dots = true)
    (res : List (List Char) × List Char) (hres : qeinsumBuild order ins out = some res)
    (hfit : ∀ p ∈ ins, p.2 - p.1.labels.length + (ins.flatMap (·.1.labels)).dedup.length ≤ 52) :
    ∃ rep : List Char, rep.Nodup ∧ (∀ c ∈ rep, c ∉ out.labels ∧ ∀ p ∈ ins, c ∉ p.1.labels) ∧
      res = (ins.map (fun p => p.1.expand rep), out.expand rep) ∧
      ∀ p ∈ ins, (p.1.expand rep).length = p.2 := by
  unfold qeinsumBuild at hres
  cases hs : ellipsisScan ins none [] with
  | error e => rw [hs] at hres; cases hres
  | ok v =>
    obtain ⟨w', used'⟩ := v
    obtain ⟨i1, i2, i3, _, _⟩ := mem_labels_scan ins none [] w' used' hs h3
    obtain ⟨p0, hp0, hd0⟩ := hsome
    obtain ⟨k, rfl, hk0⟩ := i2 p0 hp0 hd0
    rw [hs] at hres
    simp only [Option.some.injEq] at hres
    set rep := ((order.filter (fun c => !used'.contains c)).take k).mergeSort (fun a b => decide (a ≤ b)) with hrep
    have hletn : letters.Nodup := by decide +kernel
    have hperm : rep.Perm ((order.filter (fun c => !used'.contains c)).take k) := List.mergeSort_perm _ _
    have hnd : ((order.filter (fun c => !used'.contains c)).take k).Nodup :=
      ((horder.nodup_iff.2 hletn).filter _).sublist (List.take_sublist _ _)
    have hmem : ∀ c ∈ rep, c ∉ used' := by
      intro c hc
      have := List.mem_of_mem_take (hperm.mem_iff.1 hc)
      have := (List.mem_filter.1 this).2
      simpa using this
    have hlen : rep.length = k := by
      rw [hperm.length_eq, List.length_take]
      apply min_eq_left
      have h52 : order.length = 52 := by rw [horder.length_eq]; decide +kernel
      have hsplit := List.length_eq_length_filter_add (l := order) (fun c => !used'.contains c)
      have hfit' := hfit p0 hp0
      have hle : (order.filter (fun c => !(!used'.contains c))).length ≤ (ins.flatMap (·.1.labels)).dedup.length := by
        apply List.Subperm.length_le
        apply List.subperm_of_subset ((horder.nodup_iff.2 hletn).filter _)
        intro c hc
        have := (List.mem_filter.1 hc).2
        simp only [Bool.not_not, List.contains_iff_mem] at this
        rw [List.mem_dedup, List.mem_flatMap]
        rcases (i1 c).1 this with h | ⟨p, hp, _, hm⟩
        · cases h
        · exact ⟨p, hp, hm⟩
      omega
    have hexp : ∀ p ∈ ins, (p.1.expand rep).length = p.2 := by
      intro p hp
      by_cases hd : p.1.dots = true
      · obtain ⟨k', hk', he⟩ := i2 p hp hd
        cases hk'
        simp only [Operand.expand, hd, if_true, List.length_append, hlen]
        rw [he]; simp [Operand.labels]; omega
      · simp only [Bool.not_eq_true] at hd
        rw [i3 p hp hd]; simp [Operand.expand, hd, Operand.labels]
    refine ⟨rep, hperm.nodup_iff.2 hnd, fun c hc => ⟨?_, ?_⟩, hres.symm, hexp⟩
    · intro hcl
      obtain ⟨p, hp, hd, hm⟩ := hlab c (.inr hcl)
      exact hmem c hc ((i1 c).2 (.inr ⟨p, hp, hd, hm⟩))
    · intro p hp hcl
      obtain ⟨p, hp, hd, hm⟩ := hlab c (.inl ⟨p, hp, hcl⟩)
      exact hmem c hc ((i1 c).2 (.inr ⟨p, hp, hd, hm⟩))

/-- A concrete equation: `...ab,...bc->...ac` on tensors of rank 3; the letters are taken in alphabetical order. -/
example : qeinsumBuild letters [(⟨[], true, ['a', 'b']⟩, 3), (⟨[], true, ['b', 'c']⟩, 3)] ⟨[], true, ['a', 'c']⟩ =
    some ([['d', 'a', 'b'], ['d', 'b', 'c']], ['d', 'a', 'c']) := by decide +kernel

/-- The hypotheses of the theorem hold for it. -/
example : let ins : List (Operand × ℕ) := [(⟨[], true, ['a', 'b']⟩, 3), (⟨[], true, ['b', 'c']⟩, 3)]
    (∀ p ∈ ins, p.1.dots = true → p.1.len ≠ p.2) ∧ (∃ p ∈ ins, p.1.dots = true) ∧
    (∀ c ∈ ['a', 'c'], ∃ p ∈ ins, p.1.dots = true ∧ c ∈ p.1.labels) ∧
    ∀ p ∈ ins, p.2 - p.1.labels.length + (ins.flatMap (·.1.labels)).dedup.length ≤ 52 := by decide +kernel

/-- **C42 violated**, capture: labels of operands without ellipsis are not reserved.  For every iteration order of the letter
set there is a label `b` such that `...a,b->...ab` (ranks 2 and 1) is accepted and expanded to `ba,b->bab`. -/
theorem C42_capture_violated (order : List Char) (horder : order.Perm letters) :
    ∃ b : Char, b ≠ 'a' ∧ b ∈ letters ∧
      qeinsumBuild order [(⟨[], true, ['a']⟩, 2), (⟨[b], false, []⟩, 1)] ⟨[], true, ['a', b]⟩ =
        some ([[b, 'a'], [b]], [b, 'a', b]) := by
  have hne : order.filter (fun c => !(['a'] : List Char).contains c) ≠ [] := by
    have : 'b' ∈ order.filter (fun c => !(['a'] : List Char).contains c) := by
      rw [List.mem_filter]; exact ⟨horder.mem_iff.2 (by decide +kernel), by decide⟩
    exact List.ne_nil_of_mem this
  obtain ⟨b, t, hbt⟩ := List.exists_cons_of_ne_nil hne
  have hb : b ∈ order.filter (fun c => !(['a'] : List Char).contains c) := by rw [hbt]; exact List.mem_cons_self
  rw [List.mem_filter] at hb
  refine ⟨b, by simpa using hb.2, horder.mem_iff.1 hb.1, ?_⟩
  simp [qeinsumBuild, ellipsisScan, Operand.len, Operand.labels, Operand.expand]
  rw [show (order.filter fun c => !decide (c = 'a')) = b :: t by rw [← hbt]; congr 1; funext c; simp]
  simp

/-- **C42 violated**, three wildcard dimensions: an operand whose ellipsis stands for exactly three dimensions is taken to be
explicit (its string length equals its rank).  `...a,...b->...ab` on ranks 4 and 3 is accepted and the first operand is
expanded to three labels although its tensor has four dimensions; alone, the ellipsis is left in place. -/
theorem C42_three_violated (order : List Char) (horder : order.Perm letters) :
    (∃ x y, qeinsumBuild order [(⟨[], true, ['a']⟩, 4), (⟨[], true, ['b']⟩, 3)] ⟨[], true, ['a', 'b']⟩ =
      some ([[x, y, 'a'], [x, y, 'b']], [x, y, 'a', 'b'])) ∧
    qeinsumBuild order [(⟨[], true, ['a']⟩, 4)] ⟨[], true, ['a']⟩ = some ([['.', '.', '.', 'a']], ['.', '.', '.', 'a']) := by
  constructor
  · have hl : 2 ≤ (order.filter (fun c => !(['b'] : List Char).contains c)).length := by
      rw [(horder.filter _).length_eq]; decide +kernel
    have hlen : (((order.filter (fun c => !(['b'] : List Char).contains c)).take 2).mergeSort (fun a b => decide (a ≤ b))).length = 2 := by
      rw [List.length_mergeSort, List.length_take, min_eq_left hl]
    obtain ⟨x, y, hxy⟩ := List.length_eq_two.1 hlen
    refine ⟨x, y, ?_⟩
    have : qeinsumBuild order [(⟨[], true, ['a']⟩, 4), (⟨[], true, ['b']⟩, 3)] ⟨[], true, ['a', 'b']⟩ =
      some ([(⟨[], true, ['a']⟩ : Operand), ⟨[], true, ['b']⟩].map (fun o => o.expand (((order.filter (fun c => !(['b'] : List Char).contains c)).take 2).mergeSort (fun a b => decide (a ≤ b)))),
        (⟨[], true, ['a', 'b']⟩ : Operand).expand (((order.filter (fun c => !(['b'] : List Char).contains c)).take 2).mergeSort (fun a b => decide (a ≤ b)))) := rfl
    rw [this, hxy]; rfl
  · rfl

end HGQ
