import Verif.Props.Trace

/-! # C27: bit-width constraints are projections -/
namespace HGQ
open Spec

/-- **C27** Every constraint with a non-empty admissible set (`MinMax(lo, hi)` with `lo ≤ hi`; always for `Min`, `Max`,
`Constant`) maps every weight into its admissible set, fixes exactly the admissible weights, is idempotent and monotone,
and maps a weight to an admissible value nearest to it. -/
theorem C27_projection (c : Constraint) (hs : Sane (some c)) :
    (∀ w, Satisfies (some c) (c.apply w)) ∧
    (∀ w, c.apply w = w ↔ Satisfies (some c) w) ∧
    (∀ w, c.apply (c.apply w) = c.apply w) ∧
    (∀ w w', w ≤ w' → c.apply w ≤ c.apply w') ∧
    (∀ w v, Satisfies (some c) v → |w - c.apply w| ≤ |w - v|) := by
  cases c with
  | minMax lo hi =>
    have h : lo ≤ hi := by simpa [Sane] using hs
    simp only [Satisfies, Constraint.apply]
    refine ⟨?_, ?_, ?_, ?_, ?_⟩
    · intro w; exact ⟨le_min (le_max_right _ _) h, min_le_right _ _⟩
    · intro w
      constructor
      · intro e; rw [← e]; exact ⟨le_min (le_max_right _ _) h, min_le_right _ _⟩
      · rintro ⟨h1, h2⟩; rw [max_eq_left h1, min_eq_left h2]
    · intro w
      rw [max_eq_left (le_min (le_max_right _ _) h), min_eq_left (min_le_right _ _)]
    · intro w w' hw; exact min_le_min_right _ (max_le_max_right _ hw)
    · rintro w v ⟨h1, h2⟩
      rcases le_total w lo with g | g
      · rw [max_eq_right g, min_eq_left h, abs_of_nonpos (by linarith), abs_of_nonpos (by linarith)]; linarith
      · rw [max_eq_left g]
        rcases le_total w hi with g' | g'
        · rw [min_eq_left g', sub_self, abs_zero]; exact abs_nonneg _
        · rw [min_eq_right g', abs_of_nonneg (by linarith), abs_of_nonneg (by linarith)]; linarith
  | constant v =>
    simp only [Satisfies, Constraint.apply]
    refine ⟨fun _ => trivial, fun w => eq_comm, fun _ => trivial, fun _ _ _ => le_refl _, ?_⟩
    rintro w v' rfl; exact le_refl _
  | min lo =>
    simp only [Satisfies, Constraint.apply]
    refine ⟨fun w => le_max_right _ _, fun w => max_eq_left_iff, fun w => by simp, fun w w' hw => max_le_max_right _ hw, ?_⟩
    intro w v hv
    rcases le_total w lo with g | g
    · rw [max_eq_right g, abs_of_nonpos (by linarith), abs_of_nonpos (by linarith)]; linarith
    · rw [max_eq_left g, sub_self, abs_zero]; exact abs_nonneg _
  | max hi =>
    simp only [Satisfies, Constraint.apply]
    refine ⟨fun w => min_le_right _ _, fun w => min_eq_left_iff, fun w => by simp, fun w w' hw => min_le_min_right _ hw, ?_⟩
    intro w v hv
    rcases le_total w hi with g | g
    · rw [min_eq_left g, sub_self, abs_zero]; exact abs_nonneg _
    · rw [min_eq_right g, abs_of_nonneg (by linarith), abs_of_nonneg (by linarith)]; linarith

/-- The hypothesis is met by the library's defaults, and is needed: with `lo > hi` the result violates the constraint. -/
example : Sane (some (.minMax (-23) 23)) ∧ Sane (some (.min 0)) ∧ (Constraint.minMax (-23) 23).apply 30 = 23 ∧
    ¬ Satisfies (some (.minMax 2 1)) ((Constraint.minMax 2 1).apply 0) := by
  refine ⟨by norm_num [Sane], trivial, by decide +kernel, ?_⟩
  simp only [Satisfies]; decide +kernel

end HGQ
