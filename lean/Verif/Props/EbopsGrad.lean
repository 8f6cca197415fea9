import Mathlib.Analysis.SpecialFunctions.Pow.Deriv
import Verif.Model.EbopsGrad

/-!
# C102: the EBOPs loss and the regularizers only push bit widths down

Specification: what a layer must satisfy (`Spec.LegalLayer`), what the unrounded cost of a dense layer and of a lookup
table is as an ordinary function of the widths (`Spec.denseRelaxed`, `Spec.lutRelaxed`).  Theorems: the derivatives used
in training are the derivatives of that function at the integer widths; they are never negative; a run driven by them
never raises a bit-width variable, nor (for unchanged integer bits) the EBOPs of any layer.
-/

namespace HGQ
open Dual

/-! ## Specification -/
namespace Spec

/-- The quantizers whose widths a layer reads. -/
def layerQuantizers {V : Type} : CostLayer V → List (BwQ V)
  | .dense _ _ _ iq kq bq _ => iq :: kq :: bq.toList
  | .conv _ iq kq bq _ _ _ => iq :: kq :: bq.toList
  | .einsumDense _ iq kq bq _ _ _ => iq :: kq :: bq.toList
  | .bn _ _ _ iq kq bq => [iq, kq, bq]
  | .multiply _ q qs => q :: qs
  | .einsum terms => terms.flatten.map Prod.fst
  | .merge _ _ _ q qs => q :: qs
  | .subtract _ _ q0 q1 => [q0, q1]
  | .accum _ _ q => [q]
  | .pool _ q _ => [q]
  | .lut _ iq oq => [iq, oq]
  | .denseT _ iq toq _ _ _ => [iq, toq]
  | .rnn _ _ _ iq kq sq rkq bq _ => iq :: kq :: sq :: rkq :: bq.toList
  | .attn _ _ q k a v _ => [q, k, a, v]
  | .softmax _ _ _ _ _ s e i _ => [s, e, i]
  | .gru _ _ _ sq iq kq rkq rhq zrq paq bq _ => sq :: iq :: kq :: rkq :: rhq :: zrq :: paq :: bq.toList

/-- Scalar arguments of a layer are not negative, the table size is positive, ties are shared in proportions. -/
def LegalArgs {V : Type} : CostLayer V → Prop
  | .dense _ _ _ _ _ _ r => 0 ≤ r
  | .conv _ _ _ _ _ s r => 0 ≤ s ∧ 0 ≤ r
  | .einsumDense _ _ _ _ _ s r => 0 ≤ s ∧ 0 ≤ r
  | .merge f t _ _ _ => 0 ≤ f ∧ ∀ e n, 0 ≤ t e n ∧ t e n ≤ 1
  | .subtract t _ _ _ => ∀ e, 0 ≤ t e ∧ t e ≤ 1
  | .accum t _ _ => ∀ g n, 0 ≤ t g n ∧ t g n ≤ 1
  | .pool _ _ r => 0 ≤ r
  | .denseT _ _ _ b bB r => 0 < b ∧ 0 ≤ bB ∧ 0 ≤ r
  | .rnn _ _ _ _ _ _ _ _ pf => 0 ≤ pf
  | .attn _ _ _ _ _ _ pf => 0 ≤ pf
  | .softmax _ t _ _ _ _ _ _ r => 0 ≤ r ∧ ∀ g n, 0 ≤ t g n ∧ t g n ≤ 1
  | .gru _ _ _ _ _ _ _ _ _ _ _ pf => 0 ≤ pf
  | _ => True

/-- Widths are not negative: signs count `0` or more, and the `b` of a KBI quantizer is not negative. -/
def WidthsOk {V : Type} (q : BwQ V) (θ : V → ℝ) : Prop := (∀ c, 0 ≤ q.k c) ∧ (q.kbi = true → ∀ c, 0 ≤ θ (q.pv c))

/-- A layer in a state where its cost makes sense. -/
def LegalLayer {V : Type} (l : CostLayer V) (θ : V → ℝ) : Prop := LegalArgs l ∧ ∀ q ∈ layerQuantizers l, WidthsOk q θ

/-- The variable value respects its constraint. -/
def BwInBounds (i : BwVar) (x : ℝ) : Prop := (∀ a, i.lo = some a → a ≤ x) ∧ (∀ b, i.hi = some b → x ≤ b)

/-- A pruned cell: KIF with no bits left. -/
def DeadCell {V : Type} (q : BwQ V) (θ : V → ℝ) (c : ℕ) : Prop :=
  q.kbi = false ∧ roundEvenR (θ (q.iv c)) + roundEvenR (θ (q.pv c)) ≤ 0

/-- The width of a cell as an ordinary function of real-valued parameters (no rounding). -/
noncomputable def relaxedWidth {V : Type} (q : BwQ V) (ρ : V → ℝ) (c : ℕ) : ℝ :=
  (if q.kbi then ρ (q.pv c) else max (ρ (q.iv c) + ρ (q.pv c)) 0) + (if q.mode = .SAT then q.k c else 0)

/-- Cost of the bias additions: the mean bias width times the number `size` of additions. -/
noncomputable def biasRelaxed {V : Type} (ρ : V → ℝ) (bq : Option (BwQ V)) (U : ℕ) (size : ℝ) : ℝ :=
  match bq with
  | none => 0
  | some q => size * ((∑ u ∈ Finset.range U, relaxedWidth q ρ (q.cell u)) / U)

/-- Cost of a dense layer: bits × bits of every executed product plus the bits of every added bias, scaled. -/
noncomputable def denseRelaxed {V : Type} (ρ : V → ℝ) (P C U : ℕ) (iq kq : BwQ V) (bq : Option (BwQ V)) (ratio : ℝ) : ℝ :=
  ratio * ((∑ p ∈ Finset.range P, ∑ u ∈ Finset.range U, ∑ c ∈ Finset.range C,
      relaxedWidth iq ρ (iq.cell (p * C + c)) * relaxedWidth kq ρ (kq.cell (c * U + u)))
    + biasRelaxed ρ bq U (P * U))

/-- Cost of a list of products between the elements of two tensors. -/
noncomputable def macsRelaxed {V : Type} (ρ : V → ℝ) (macs : List (ℕ × ℕ)) (iq kq : BwQ V) : ℝ :=
  (macs.map fun p => relaxedWidth iq ρ (iq.cell p.1) * relaxedWidth kq ρ (kq.cell p.2)).sum

/-- Cost of a lookup table layer. -/
noncomputable def lutRelaxed {V : Type} (ρ : V → ℝ) (E : ℕ) (iq oq : BwQ V) : ℝ :=
  1e-4 * ∑ e ∈ Finset.range E, (2 : ℝ) ^ relaxedWidth iq ρ (iq.cell e) * relaxedWidth oq ρ (oq.cell e)

/-- No KIF cell sits exactly at zero bits. -/
def NoKink {V : Type} (q : BwQ V) (ρ : V → ℝ) : Prop := q.kbi = false → ∀ c, ρ (q.iv c) + ρ (q.pv c) ≠ 0

/-- A model whose bit-width losses are set up sensibly: non-negative factors, `beta` and `l1`; KBI widths are trainable
and constrained to be non-negative (the default `bc`). -/
structure GoodNet {V : Type} (info : V → BwVar) (net : ℕ → List (LossLayer V)) : Prop where
  l1 : ∀ v, 0 ≤ (info v).l1
  args : ∀ n, ∀ l ∈ net n, LegalArgs l.layer ∧ 0 ≤ l.factor ∧ 0 ≤ l.beta
  sign : ∀ n, ∀ l ∈ net n, ∀ q ∈ layerQuantizers l.layer, ∀ c, 0 ≤ q.k c
  kbi : ∀ n, ∀ l ∈ net n, ∀ q ∈ layerQuantizers l.layer, q.kbi = true → ∀ c,
    (info (q.pv c)).trainable = true ∧ ∃ a, (info (q.pv c)).lo = some a ∧ 0 ≤ a

/-- Plain gradient descent as an optimizer history: the newest gradient times the learning rate. -/
noncomputable def sgd {V : Type} (lr : ℝ) : ℕ → ℕ → V → ℝ := fun _ s _ => if s = 0 then lr else 0

end Spec

/-! ## Rounding -/

theorem roundEvenR_cases (x : ℝ) : roundEvenR x = ⌊x⌋ ∧ x - ⌊x⌋ ≤ 1 / 2 ∨ roundEvenR x = ⌊x⌋ + 1 ∧ 1 / 2 ≤ x - ⌊x⌋ := by
  unfold roundEvenR
  split_ifs with h1 h2 h3
  · exact Or.inl ⟨rfl, le_of_lt h1⟩
  · exact Or.inr ⟨rfl, le_of_lt h2⟩
  · exact Or.inl ⟨rfl, not_lt.mp h2⟩
  · exact Or.inr ⟨rfl, not_lt.mp h1⟩

theorem roundEvenR_mono {x y : ℝ} (h : x ≤ y) : roundEvenR x ≤ roundEvenR y := by
  have hf : ⌊x⌋ ≤ ⌊y⌋ := Int.floor_le_floor h
  rcases lt_or_eq_of_le hf with hlt | heq
  · have : (⌊x⌋ : ℝ) + 1 ≤ ⌊y⌋ := by exact_mod_cast hlt
    rcases roundEvenR_cases x with hx | hx <;> rcases roundEvenR_cases y with hy | hy <;> rw [hx.1, hy.1] <;> linarith
  · unfold roundEvenR
    rw [heq]
    have hr : x - ⌊y⌋ ≤ y - ⌊y⌋ := by linarith
    split_ifs <;> linarith

theorem roundEvenR_int (n : ℤ) : roundEvenR n = n := by simp [roundEvenR]

theorem roundEvenR_nonneg {x : ℝ} (h : 0 ≤ x) : 0 ≤ roundEvenR x := by
  have := roundEvenR_mono h
  rwa [show roundEvenR 0 = 0 by simpa using roundEvenR_int 0] at this

theorem roundEvenR_idem (x : ℝ) : roundEvenR (roundEvenR x) = roundEvenR x := by
  rcases roundEvenR_cases x with h | h <;> rw [h.1]
  · exact roundEvenR_int _
  · exact_mod_cast roundEvenR_int (⌊x⌋ + 1)

/-! ## Costs that only push down -/

variable {V : Type} [DecidableEq V]

/-- Closure invariant: on the domain `D`, non-negative value and derivatives, monotone; no derivative where `Z` holds. -/
structure Pushes (D : (V → ℝ) → Prop) (Z : (V → ℝ) → V → Prop) (C : (V → ℝ) → Dual V) : Prop where
  nn : ∀ θ, D θ → 0 ≤ (C θ).val
  gn : ∀ θ, D θ → ∀ v, 0 ≤ (C θ).grad v
  mono : ∀ θ θ', D θ → D θ' → (∀ v, θ v ≤ θ' v) → (C θ).val ≤ (C θ').val
  zg : ∀ θ v, D θ → Z θ v → (C θ).grad v = 0

section closure
variable {D : (V → ℝ) → Prop} {Z : (V → ℝ) → V → Prop}
omit [DecidableEq V]

theorem Pushes.const {c : ℝ} (h : 0 ≤ c) : Pushes D Z fun _ => (Dual.const c : Dual V) :=
  ⟨fun _ _ => h, fun _ _ _ => le_refl _, fun _ _ _ _ _ => le_refl _, fun _ _ _ _ => rfl⟩

theorem Pushes.add {A B : (V → ℝ) → Dual V} (a : Pushes D Z A) (b : Pushes D Z B) : Pushes D Z fun θ => Dual.add (A θ) (B θ) :=
  ⟨fun θ h => add_nonneg (a.nn θ h) (b.nn θ h), fun θ h v => add_nonneg (a.gn θ h v) (b.gn θ h v),
   fun θ θ' h h' hv => add_le_add (a.mono θ θ' h h' hv) (b.mono θ θ' h h' hv),
   fun θ v h z => by simp [Dual.add, a.zg θ v h z, b.zg θ v h z]⟩

theorem Pushes.mul {A B : (V → ℝ) → Dual V} (a : Pushes D Z A) (b : Pushes D Z B) : Pushes D Z fun θ => Dual.mul (A θ) (B θ) :=
  ⟨fun θ h => mul_nonneg (a.nn θ h) (b.nn θ h),
   fun θ h v => add_nonneg (mul_nonneg (a.gn θ h v) (b.nn θ h)) (mul_nonneg (a.nn θ h) (b.gn θ h v)),
   fun θ θ' h h' hv => mul_le_mul (a.mono θ θ' h h' hv) (b.mono θ θ' h h' hv) (b.nn θ h) (a.nn θ' h'),
   fun θ v h z => by simp [Dual.mul, a.zg θ v h z, b.zg θ v h z]⟩

theorem Pushes.scale {A : (V → ℝ) → Dual V} {c : ℝ} (hc : 0 ≤ c) (a : Pushes D Z A) : Pushes D Z fun θ => Dual.scale c (A θ) :=
  ⟨fun θ h => mul_nonneg hc (a.nn θ h), fun θ h v => mul_nonneg hc (a.gn θ h v),
   fun θ θ' h h' hv => mul_le_mul_of_nonneg_left (a.mono θ θ' h h' hv) hc,
   fun θ v h z => by simp [Dual.scale, a.zg θ v h z]⟩

theorem Pushes.pow2 {A : (V → ℝ) → Dual V} (a : Pushes D Z A) : Pushes D Z fun θ => Dual.pow2 (A θ) :=
  ⟨fun _ _ => Real.rpow_nonneg (by norm_num) _,
   fun θ h v => mul_nonneg (mul_nonneg (Real.log_nonneg (by norm_num)) (Real.rpow_nonneg (by norm_num) _)) (a.gn θ h v),
   fun θ θ' h h' hv => Real.rpow_le_rpow_of_exponent_le (by norm_num) (a.mono θ θ' h h' hv),
   fun θ v h z => by simp [Dual.pow2, a.zg θ v h z]⟩

theorem Pushes.maximum {A B : (V → ℝ) → Dual V} {t : ℝ} (ht : 0 ≤ t ∧ t ≤ 1) (a : Pushes D Z A) (b : Pushes D Z B) :
    Pushes D Z fun θ => Dual.maximum t (A θ) (B θ) := by
  refine ⟨fun θ h => le_max_of_le_left (a.nn θ h), fun θ h v => ?_,
    fun θ θ' h h' hv => max_le_max (a.mono θ θ' h h' hv) (b.mono θ θ' h h' hv), fun θ v h z => ?_⟩
  · have h1 := a.gn θ h v
    have h2 := b.gn θ h v
    simp only [Dual.maximum]
    split_ifs
    · exact h1
    · exact h2
    · exact add_nonneg (mul_nonneg ht.1 h1) (mul_nonneg (by linarith [ht.2]) h2)
  · simp [Dual.maximum, a.zg θ v h z, b.zg θ v h z]

theorem Pushes.sum {ι : Type} (l : List ι) (A : ι → (V → ℝ) → Dual V) (h : ∀ i ∈ l, Pushes D Z (A i)) :
    Pushes D Z fun θ => Dual.sum (l.map fun i => A i θ) := by
  induction l with
  | nil => exact Pushes.const le_rfl
  | cons i l ih => exact (h i (by simp)).add (ih fun j hj => h j (by simp [hj]))

theorem Pushes.mean {ι : Type} (l : List ι) (A : ι → (V → ℝ) → Dual V) (h : ∀ i ∈ l, Pushes D Z (A i)) :
    Pushes D Z fun θ => Dual.mean (l.map fun i => A i θ) := by
  have := (Pushes.sum l A h).scale (c := 1 / l.length) (by positivity)
  simpa [Dual.mean] using this

theorem Pushes.foldlMul {ι : Type} (l : List ι) (A : ι → (V → ℝ) → Dual V) (h : ∀ i ∈ l, Pushes D Z (A i))
    (B : (V → ℝ) → Dual V) (hB : Pushes D Z B) : Pushes D Z fun θ => (l.map fun i => A i θ).foldl Dual.mul (B θ) := by
  induction l generalizing B with
  | nil => exact hB
  | cons i l ih => exact ih (fun j hj => h j (by simp [hj])) _ (hB.mul (h i (by simp)))

/-! Sum minus minimum -/

theorem sum_val_cons (a : Dual V) (l : List (Dual V)) : (Dual.sum (a :: l)).val = a.val + (Dual.sum l).val := rfl
theorem sum_grad_cons (a : Dual V) (l : List (Dual V)) (v : V) : (Dual.sum (a :: l)).grad v = a.grad v + (Dual.sum l).grad v := rfl

theorem minChain_val_le (t : ℕ → ℝ) (l : List (Dual V)) : ∀ n a, (minChain t n a l).val ≤ a.val ∧ ∀ b ∈ l, (minChain t n a l).val ≤ b.val := by
  induction l with
  | nil => intro n a; exact ⟨le_refl _, by simp⟩
  | cons b l ih =>
    intro n a
    obtain ⟨h1, h2⟩ := ih (n + 1) (minimum (t n) a b)
    refine ⟨h1.trans (min_le_left _ _), fun c hc => ?_⟩
    rcases List.mem_cons.mp hc with rfl | hc
    · exact h1.trans (min_le_right _ _)
    · exact h2 c hc

theorem minChain_val_mem (t : ℕ → ℝ) (l : List (Dual V)) : ∀ n a, (minChain t n a l).val = a.val ∨ ∃ b ∈ l, (minChain t n a l).val = b.val := by
  induction l with
  | nil => intro n a; exact Or.inl rfl
  | cons b l ih =>
    intro n a
    rcases ih (n + 1) (minimum (t n) a b) with h | ⟨c, hc, h⟩
    · rcases min_choice a.val b.val with h' | h'
      · exact Or.inl (h.trans h')
      · exact Or.inr ⟨b, by simp, h.trans h'⟩
    · exact Or.inr ⟨c, by simp [hc], h⟩

/-- The gradient of the minimum is at most the sum of the gradients, and not negative. -/
theorem minChain_grad_le (t : ℕ → ℝ) (ht : ∀ n, 0 ≤ t n ∧ t n ≤ 1) (v : V) (l : List (Dual V)) :
    ∀ n a, 0 ≤ a.grad v → (∀ b ∈ l, 0 ≤ b.grad v) → (minChain t n a l).grad v ≤ a.grad v + (Dual.sum l).grad v := by
  induction l with
  | nil => intro n a _ _; simp [minChain, Dual.sum, Dual.const]
  | cons b l ih =>
    intro n a ha hb
    have hb0 : 0 ≤ b.grad v := hb b (by simp)
    have hm : 0 ≤ (minimum (t n) a b).grad v ∧ (minimum (t n) a b).grad v ≤ a.grad v + b.grad v := by
      have t0 := (ht n).1
      have t1 := (ht n).2
      simp only [minimum]
      split_ifs
      · exact ⟨ha, by linarith⟩
      · exact ⟨hb0, by linarith⟩
      · have p1 := mul_nonneg t0 ha
        have p2 := mul_nonneg (sub_nonneg.mpr t1) hb0
        have p3 := mul_nonneg (sub_nonneg.mpr t1) ha
        have p4 := mul_nonneg t0 hb0
        constructor <;> nlinarith
    have := ih (n + 1) (minimum (t n) a b) hm.1 (fun c hc => hb c (by simp [hc]))
    rw [sum_grad_cons]
    simp only [minChain]
    linarith [hm.2]

theorem minChain_grad_zero (t : ℕ → ℝ) (v : V) (l : List (Dual V)) :
    ∀ n a, a.grad v = 0 → (∀ b ∈ l, b.grad v = 0) → (minChain t n a l).grad v = 0 := by
  induction l with
  | nil => intro n a h _; exact h
  | cons b l ih =>
    intro n a ha hb
    exact ih (n + 1) _ (by simp [minimum, ha, hb b (by simp)]) (fun c hc => hb c (by simp [hc]))

theorem sum_diff_ge {ι : Type} (l : List ι) (A B : ι → Dual V) (h : ∀ i ∈ l, (A i).val ≤ (B i).val) :
    ∀ i ∈ l, (B i).val - (A i).val ≤ (Dual.sum (l.map B)).val - (Dual.sum (l.map A)).val := by
  induction l with
  | nil => simp
  | cons j l ih =>
    have ih' := ih (fun i hi => h i (by simp [hi]))
    have hj := h j (by simp)
    have hs : (Dual.sum (l.map A)).val ≤ (Dual.sum (l.map B)).val := by
      clear ih ih'
      induction l with
      | nil => exact le_refl _
      | cons k l ih2 =>
        simp only [List.map_cons, sum_val_cons]
        have := h k (by simp)
        have := ih2 (fun i hi => h i (by simp at hi ⊢; tauto))
        linarith
    intro i hi
    simp only [List.map_cons, sum_val_cons]
    rcases List.mem_cons.mp hi with rfl | hi
    · linarith
    · have := ih' i hi
      linarith

/-- One element of "sum of the widths minus the smallest". -/
theorem Pushes.exclMin {ι : Type} (i0 : ι) (l : List ι) (A : ι → (V → ℝ) → Dual V) (h : ∀ i ∈ i0 :: l, Pushes D Z (A i))
    (t : ℕ → ℝ) (ht : ∀ n, 0 ≤ t n ∧ t n ≤ 1) :
    Pushes D Z fun θ => Dual.sub (Dual.sum ((i0 :: l).map fun i => A i θ)) (minChain t 0 (A i0 θ) (l.map fun i => A i θ)) := by
  have hs : ∀ θ, D θ → 0 ≤ (Dual.sum (l.map fun i => A i θ)).val := fun θ hd =>
    (Pushes.sum l A (fun i hi => h i (by simp [hi]))).nn θ hd
  refine ⟨fun θ hd => ?_, fun θ hd v => ?_, fun θ θ' hd hd' hv => ?_, fun θ v hd z => ?_⟩
  · have := (minChain_val_le t (l.map fun i => A i θ) 0 (A i0 θ)).1
    have := hs θ hd
    simp only [Dual.sub, List.map_cons, sum_val_cons]
    linarith
  · have := minChain_grad_le t ht v (l.map fun i => A i θ) 0 (A i0 θ) ((h i0 (by simp)).gn θ hd v)
      (fun b hb => by
        obtain ⟨i, hi, rfl⟩ := List.mem_map.mp hb
        exact (h i (by simp [hi])).gn θ hd v)
    simp only [Dual.sub, List.map_cons, sum_grad_cons]
    linarith
  · have hdiff := sum_diff_ge (i0 :: l) (fun i => A i θ) (fun i => A i θ') (fun i hi => (h i hi).mono θ θ' hd hd' hv)
    simp only [Dual.sub]
    have hle := minChain_val_le t (l.map fun i => A i θ') 0 (A i0 θ')
    rcases minChain_val_mem t (l.map fun i => A i θ) 0 (A i0 θ) with hm | ⟨b, hb, hm⟩
    · have h1 := hdiff i0 (by simp)
      have h2 := hle.1
      rw [hm]; linarith
    · obtain ⟨i, hi, rfl⟩ := List.mem_map.mp hb
      have h1 := hdiff i (by simp [hi])
      have h2 := hle.2 _ (List.mem_map.mpr ⟨i, hi, rfl⟩)
      rw [hm]; linarith
  · have h0 := (Pushes.sum (i0 :: l) A h).zg θ v hd z
    have h1 := minChain_grad_zero t v (l.map fun i => A i θ) 0 (A i0 θ) ((h i0 (by simp)).zg θ v hd z)
      (fun b hb => by
        obtain ⟨i, hi, rfl⟩ := List.mem_map.mp hb
        exact (h i (by simp [hi])).zg θ v hd z)
    show (Dual.sum ((i0 :: l).map fun i => A i θ)).grad v - _ = 0
    rw [h0, h1, sub_zero]

theorem Dual.ext' {a b : Dual V} (h : a.val = b.val) (hg : ∀ v, a.grad v = b.grad v) : a = b := by
  cases a; cases b; simp only [Dual.mk.injEq] at *; exact ⟨h, funext hg⟩

/-- Sum of sums minus sum of minima, element by element. -/
theorem sum_sub_sum {ι : Type} (l : List ι) (A B : ι → Dual V) :
    Dual.sub (Dual.sum (l.map A)) (Dual.sum (l.map B)) = Dual.sum (l.map fun i => Dual.sub (A i) (B i)) := by
  induction l with
  | nil => exact Dual.ext' (by simp [Dual.sub, Dual.sum, Dual.const]) (fun v => by simp [Dual.sub, Dual.sum, Dual.const])
  | cons i l ih =>
    have e1 := congrArg Dual.val ih
    have e2 := fun v => congrArg (fun d => Dual.grad d v) ih
    refine Dual.ext' ?_ (fun v => ?_)
    · simp only [List.map_cons, Dual.sub, sum_val_cons] at *; linarith
    · have := e2 v
      simp only [List.map_cons, Dual.sub, sum_grad_cons] at *; linarith

theorem Pushes.congr {A B : (V → ℝ) → Dual V} (h : Pushes D Z A) (e : ∀ θ, A θ = B θ) : Pushes D Z B := by
  have : A = B := funext e
  exact this ▸ h

theorem Pushes.smallLut {A : (V → ℝ) → Dual V} {b : ℝ} (hb : 0 < b) (a : Pushes D Z A) : Pushes D Z fun θ => smallLutCost b (A θ) := by
  refine ⟨fun θ h => ?_, fun θ h v => ?_, fun θ θ' h h' hv => ?_, fun θ v h z => ?_⟩
  · unfold smallLutCost; split_ifs
    · exact Real.rpow_nonneg (by norm_num) _
    · exact mul_nonneg (by positivity) (a.nn θ h)
  · have := a.gn θ h v
    unfold smallLutCost; split_ifs
    · simp only [Dual.pow2, Dual.sub, Dual.const, sub_zero]
      exact mul_nonneg (mul_nonneg (Real.log_nonneg (by norm_num)) (Real.rpow_nonneg (by norm_num) _)) this
    · exact mul_nonneg (by positivity) this
  · have hm := a.mono θ θ' h h' hv
    unfold smallLutCost
    split_ifs with h1 h2 h2
    · exact Real.rpow_le_rpow_of_exponent_le (by norm_num) (by simpa [Dual.sub, Dual.const] using hm)
    · linarith
    · have e1 : (1 / b) * (A θ).val ≤ 1 := by
        rw [one_div, inv_mul_le_iff₀ hb]; linarith
      have e2 : (1 : ℝ) ≤ (2 : ℝ) ^ ((A θ').val - b) := Real.one_le_rpow (by norm_num) (by linarith)
      exact e1.trans e2
    · exact mul_le_mul_of_nonneg_left hm (by positivity)
  · have := a.zg θ v h z
    unfold smallLutCost; split_ifs <;> simp [Dual.pow2, Dual.sub, Dual.const, Dual.scale, this]
end closure

/-! ## The widths and the layers -/

/-- `v` only belongs to pruned cells of the quantizers `qs`. -/
def OnlyDead (qs : List (BwQ V)) (θ : V → ℝ) (v : V) : Prop :=
  ∀ q ∈ qs, ∀ c, v = q.iv c ∨ v = q.pv c → Spec.DeadCell q θ c

/-- The domain of a list of quantizers. -/
def QsOk (qs : List (BwQ V)) (θ : V → ℝ) : Prop := ∀ q ∈ qs, Spec.WidthsOk q θ

theorem relu_grad_pos {a : Dual V} (h : 0 < a.val) (v : V) : (relu a).grad v = a.grad v := if_pos h
theorem relu_grad_neg {a : Dual V} (h : a.val ≤ 0) (v : V) : (relu a).grad v = 0 := if_neg (not_lt.mpr h)

theorem b_kif {q : BwQ V} (hk : q.kbi = false) (θ : V → ℝ) (c : ℕ) :
    q.b θ c = relu (add (roundConv (var θ (q.iv c))) (roundConv (var θ (q.pv c)))) := by simp [BwQ.b, hk]
theorem b_kbi {q : BwQ V} (hk : q.kbi = true) (θ : V → ℝ) (c : ℕ) : q.b θ c = roundConv (var θ (q.pv c)) := by simp [BwQ.b, hk]

theorem pushes_b {qs : List (BwQ V)} {q : BwQ V} (hq : q ∈ qs) (c : ℕ) : Pushes (QsOk qs) (OnlyDead qs) fun θ => q.b θ c := by
  cases hk : q.kbi with
  | true =>
    simp only [b_kbi hk]
    refine ⟨fun θ h => roundEvenR_nonneg ((h q hq).2 hk c), fun θ _ v => ?_, fun θ θ' _ _ hv => roundEvenR_mono (hv _), fun θ v _ z => ?_⟩
    · simp only [roundConv, var]; split_ifs <;> norm_num
    · simp only [roundConv, var]
      rw [if_neg]
      intro e
      have := (z q hq c (Or.inr e)).1
      rw [hk] at this; cases this
  | false =>
    simp only [b_kif hk]
    have hg : ∀ (θ : V → ℝ) v, (add (roundConv (var θ (q.iv c))) (roundConv (var θ (q.pv c)))).grad v
        = (if v = q.iv c then 1 else 0) + (if v = q.pv c then 1 else 0) := fun _ _ => rfl
    refine ⟨fun θ _ => le_max_right _ _, fun θ _ v => ?_, fun θ θ' _ _ hv => ?_, fun θ v _ z => ?_⟩
    · rcases lt_or_ge 0 (add (roundConv (var θ (q.iv c))) (roundConv (var θ (q.pv c)))).val with hp | hp
      · rw [relu_grad_pos hp, hg]; split_ifs <;> norm_num
      · rw [relu_grad_neg hp]
    · exact max_le_max (add_le_add (roundEvenR_mono (hv _)) (roundEvenR_mono (hv _))) le_rfl
    · by_cases e : v = q.iv c ∨ v = q.pv c
      · exact relu_grad_neg (z q hq c e).2 v
      · push Not at e
        rcases lt_or_ge 0 (add (roundConv (var θ (q.iv c))) (roundConv (var θ (q.pv c)))).val with hp | hp
        · rw [relu_grad_pos hp, hg]; simp [e.1, e.2]
        · rw [relu_grad_neg hp]

theorem pushes_bits {qs : List (BwQ V)} {q : BwQ V} (hq : q ∈ qs) (e : ℕ) : Pushes (QsOk qs) (OnlyDead qs) fun θ => q.bits_ θ e := by
  unfold BwQ.bits_ BwQ.bits
  have hb := pushes_b hq (q.cell e)
  split_ifs
  · refine ⟨fun θ h => add_nonneg (hb.nn θ h) ((h q hq).1 _), fun θ h v => ?_, fun θ θ' h h' hv => ?_, fun θ v h z => ?_⟩
    · simpa [Dual.add, Dual.const] using hb.gn θ h v
    · simpa [Dual.add, Dual.const] using hb.mono θ θ' h h' hv
    · simpa [Dual.add, Dual.const] using hb.zg θ v h z
  · exact hb

theorem pushes_fbits {qs : List (BwQ V)} {q : BwQ V} (hq : q ∈ qs) (e : ℕ) : Pushes (QsOk qs) (OnlyDead qs) fun θ => q.fbits_ θ e := by
  unfold BwQ.fbits_ BwQ.fbits
  have hb := pushes_b hq (q.cell e)
  split_ifs with hm
  · refine ⟨fun θ h => add_nonneg (hb.nn θ h) (mul_nonneg ((h q hq).1 _) (by split_ifs <;> norm_num)), fun θ h v => ?_,
      fun θ θ' h h' hv => ?_, fun θ v h z => ?_⟩
    · simpa [Dual.add, Dual.const] using hb.gn θ h v
    · have h1 := hb.mono θ θ' h h' hv
      have hk := (h q hq).1 (q.cell e)
      simp only [Dual.add, Dual.const]
      split_ifs with a1 a2 a2 <;> linarith
    · simpa [Dual.add, Dual.const] using hb.zg θ v h z
  · refine ⟨fun θ h => add_nonneg (hb.nn θ h) ((h q hq).1 _), fun θ h v => ?_, fun θ θ' h h' hv => ?_, fun θ v h z => ?_⟩
    · simpa [Dual.add, Dual.const] using hb.gn θ h v
    · simpa [Dual.add, Dual.const] using hb.mono θ θ' h h' hv
    · simpa [Dual.add, Dual.const] using hb.zg θ v h z

section
variable {qs : List (BwQ V)}

theorem pushes_matmul (R C U : ℕ) {a b : ℕ → (V → ℝ) → Dual V} (ha : ∀ i, Pushes (QsOk qs) (OnlyDead qs) (a i))
    (hb : ∀ i, Pushes (QsOk qs) (OnlyDead qs) (b i)) :
    Pushes (QsOk qs) (OnlyDead qs) fun θ => Dual.sum (dualMatmul R C U (fun i => a i θ) (fun i => b i θ)) := by
  have e : ∀ θ : V → ℝ, dualMatmul R C U (fun i => a i θ) (fun i => b i θ)
      = ((List.range R).flatMap fun p => (List.range U).map fun u => (p, u)).map
          fun pu => Dual.sum ((List.range C).map fun c => Dual.mul (a (pu.1 * C + c) θ) (b (c * U + pu.2) θ)) := by
    intro θ
    simp only [dualMatmul, List.map_flatMap, List.map_map]
    rfl
  simp only [e]
  exact Pushes.sum _ (fun (pu : ℕ × ℕ) θ => Dual.sum ((List.range C).map fun c => Dual.mul (a (pu.1 * C + c) θ) (b (c * U + pu.2) θ)))
    (fun pu _ => Pushes.sum _ (fun c θ => Dual.mul (a (pu.1 * C + c) θ) (b (c * U + pu.2) θ)) (fun c _ => (ha _).mul (hb _)))

theorem pushes_bias {bq : Option (BwQ V)} (h : ∀ q ∈ bq.toList, q ∈ qs) (U : ℕ) {size : ℝ} (hs : 0 ≤ size) :
    Pushes (QsOk qs) (OnlyDead qs) fun θ => biasCost θ bq U size := by
  cases bq with
  | none => exact Pushes.const le_rfl
  | some q => exact (Pushes.mean (List.range U) (fun e θ => q.bits_ θ e) (fun e _ => pushes_bits (h q (by simp)) e)).scale hs

theorem pushes_macs {q k : BwQ V} (hq : q ∈ qs) (hk : k ∈ qs) (macs : List (ℕ × ℕ)) :
    Pushes (QsOk qs) (OnlyDead qs) fun θ => Dual.sum (macs.map fun p => Dual.mul (q.bits_ θ p.1) (k.bits_ θ p.2)) :=
  Pushes.sum macs (fun p θ => Dual.mul (q.bits_ θ p.1) (k.bits_ θ p.2)) (fun p _ => (pushes_bits hq _).mul (pushes_bits hk _))

theorem pushes_sumBits {q : BwQ V} (hq : q ∈ qs) (l : List ℕ) :
    Pushes (QsOk qs) (OnlyDead qs) fun θ => Dual.sum (l.map (q.bits_ θ)) :=
  Pushes.sum l (fun e θ => q.bits_ θ e) (fun e _ => pushes_bits hq e)

theorem pushes_groups {q : BwQ V} (hq : q ∈ qs) (t : ℕ × List ℕ → ℕ → ℝ) (ht : ∀ g n, 0 ≤ t g n ∧ t g n ≤ 1)
    (groups : List (ℕ × List ℕ)) : Pushes (QsOk qs) (OnlyDead qs) fun θ =>
      Dual.sub (Dual.sum (groups.map fun g => Dual.sum ((g.1 :: g.2).map (q.bits_ θ))))
        (Dual.sum (groups.map fun g => minChain (t g) 0 (q.bits_ θ g.1) (g.2.map (q.bits_ θ)))) := by
  have := Pushes.sum groups (fun g θ => Dual.sub (Dual.sum ((g.1 :: g.2).map (q.bits_ θ)))
      (minChain (t g) 0 (q.bits_ θ g.1) (g.2.map (q.bits_ θ))))
    (fun g _ => Pushes.exclMin (D := QsOk qs) (Z := OnlyDead qs) g.1 g.2 (fun e θ => q.bits_ θ e) (fun e _ => pushes_bits hq e) (t g) (ht g))
  exact this.congr fun θ => (sum_sub_sum groups _ _).symm

theorem pushes_lut {iq oq : BwQ V} (hi : iq ∈ qs) (ho : oq ∈ qs) (E : ℕ) :
    Pushes (QsOk qs) (OnlyDead qs) fun θ => lutCost θ E iq oq :=
  (Pushes.sum (List.range E) (fun e θ => Dual.mul (Dual.pow2 (iq.bits_ θ e)) (oq.bits_ θ e))
    (fun e _ => (pushes_bits hi e).pow2.mul (pushes_bits ho e))).scale (by norm_num)
end

/-- Every layer's EBOPs only push down. -/
theorem pushes_layer (l : CostLayer V) (h : Spec.LegalArgs l) :
    Pushes (QsOk (Spec.layerQuantizers l)) (OnlyDead (Spec.layerQuantizers l)) fun θ => l.ebops θ := by
  cases l with
  | dense P C U iq kq bq r =>
    exact ((pushes_matmul P C U (fun i => pushes_bits (by simp [Spec.layerQuantizers]) i)
      (fun i => pushes_bits (by simp [Spec.layerQuantizers]) i)).add
      (pushes_bias (fun q hq => by simp [Spec.layerQuantizers] at hq ⊢; tauto) U (by positivity))).scale h
  | conv macs iq kq bq U s r =>
    exact ((pushes_macs (by simp [Spec.layerQuantizers]) (by simp [Spec.layerQuantizers]) macs).scale h.2).add
      (pushes_bias (fun q hq => by simp [Spec.layerQuantizers] at hq ⊢; tauto) U h.1)
  | einsumDense macs iq kq bq U s r =>
    exact ((pushes_macs (by simp [Spec.layerQuantizers]) (by simp [Spec.layerQuantizers]) macs).add
      (pushes_bias (fun q hq => by simp [Spec.layerQuantizers] at hq ⊢; tauto) U h.1)).scale h.2
  | bn E U ch iq kq bq =>
    exact (Pushes.sum (List.range E) (fun e θ => Dual.mul (iq.bits_ θ e) (kq.bits_ θ (ch e)))
      (fun e _ => (pushes_bits (by simp [Spec.layerQuantizers]) _).mul (pushes_bits (by simp [Spec.layerQuantizers]) _))).add
      (pushes_bias (bq := some bq) (fun q hq => by simp [Spec.layerQuantizers] at hq ⊢; tauto) U (by positivity))
  | multiply E q qs =>
    refine Pushes.sum (List.range E) (fun e θ => qs.foldl (fun acc q' => Dual.mul acc (q'.bits_ θ e)) (q.bits_ θ e)) (fun e _ => ?_)
    have := Pushes.foldlMul qs (fun q' θ => q'.bits_ θ e) (fun q' hq' => pushes_bits (qs := Spec.layerQuantizers (.multiply E q qs)) (by simp [Spec.layerQuantizers, hq']) e)
      (fun θ => q.bits_ θ e) (pushes_bits (by simp [Spec.layerQuantizers]) e)
    exact this.congr fun θ => by rw [List.foldl_map]
  | einsum terms =>
    refine Pushes.sum terms (fun t θ => (t.map fun p => p.1.bits_ θ p.2).foldl Dual.mul (Dual.const 1)) (fun t ht => ?_)
    exact Pushes.foldlMul t (fun p θ => p.1.bits_ θ p.2)
      (fun p hp => pushes_bits (by
        simp only [Spec.layerQuantizers, List.mem_map, List.mem_flatten]
        exact ⟨p, ⟨t, ht, hp⟩, rfl⟩) _) _ (Pushes.const zero_le_one)
  | merge f t E q qs =>
    have := Pushes.sum (List.range E) (fun e θ => Dual.sub (Dual.sum ((q :: qs).map fun q' => q'.bits_ θ e))
        (minChain (t e) 0 (q.bits_ θ e) (qs.map fun q' => q'.bits_ θ e)))
      (fun e _ => Pushes.exclMin (D := QsOk (q :: qs)) (Z := OnlyDead (q :: qs)) q qs (fun q' θ => q'.bits_ θ e)
        (fun q' hq' => pushes_bits hq' e) (t e) (h.2 e))
    exact (this.congr fun θ => (sum_sub_sum (List.range E) _ _).symm).scale h.1
  | subtract t E q0 q1 =>
    exact Pushes.sum (List.range E) (fun e θ => Dual.maximum (t e) (q0.bits_ θ e) (q1.bits_ θ e))
      (fun e _ => Pushes.maximum (h e) (pushes_bits (by simp [Spec.layerQuantizers]) e) (pushes_bits (by simp [Spec.layerQuantizers]) e))
  | accum t g q => exact (pushes_groups (by simp [Spec.layerQuantizers]) t h g).scale (by norm_num)
  | pool E q r => exact (pushes_sumBits (by simp [Spec.layerQuantizers]) _).scale h
  | lut E iq oq => exact pushes_lut (by simp [Spec.layerQuantizers]) (by simp [Spec.layerQuantizers]) E
  | denseT E iq toq b bB r =>
    exact (((Pushes.sum (List.range E) (fun e θ => Dual.mul (smallLutCost b (iq.fbits_ θ e)) (toq.fbits_ θ e))
      (fun e _ => ((pushes_fbits (by simp [Spec.layerQuantizers]) e).smallLut h.1).mul (pushes_fbits (by simp [Spec.layerQuantizers]) e))).scale h.2.1).add
      (Pushes.sum (List.range E) (fun e θ => toq.fbits_ θ e) (fun e _ => pushes_fbits (by simp [Spec.layerQuantizers]) e))).scale h.2.2
  | rnn R C U iq kq sq rkq bq pf =>
    exact (((pushes_matmul R C U (fun i => pushes_bits (by simp [Spec.layerQuantizers]) i)
      (fun i => pushes_bits (by simp [Spec.layerQuantizers]) i)).add
      (pushes_matmul 1 U U (fun i => pushes_bits (by simp [Spec.layerQuantizers]) i)
      (fun i => pushes_bits (by simp [Spec.layerQuantizers]) i))).add
      (pushes_bias (fun q hq => by simp [Spec.layerQuantizers] at hq ⊢; tauto) U (by positivity))).scale h
  | attn qk av q k a v pf =>
    exact ((pushes_macs (by simp [Spec.layerQuantizers]) (by simp [Spec.layerQuantizers]) qk).add
      (pushes_macs (by simp [Spec.layerQuantizers]) (by simp [Spec.layerQuantizers]) av)).scale h
  | softmax st t E g grp s' ex iv r =>
    have hacc := pushes_groups (qs := [s', ex, iv]) (q := ex) (by simp) t h.2 g
    have hmul := Pushes.sum (D := QsOk [s', ex, iv]) (Z := OnlyDead [s', ex, iv]) (List.range E)
      (fun e θ => Dual.mul (ex.bits_ θ e) (iv.bits_ θ (grp e)))
      (fun e _ => (pushes_bits (by simp) _).mul (pushes_bits (by simp) _))
    have hsub := pushes_sumBits (qs := [s', ex, iv]) (q := s') (by simp) (List.range E)
    have hlut := pushes_lut (qs := [s', ex, iv]) (iq := s') (oq := ex) (by simp) (by simp) E
    cases st with
    | true => exact ((hsub.add hacc).add hmul).scale h.1
    | false => exact ((((Pushes.const le_rfl).add hacc).add hmul).add hlut).scale h.1
  | gru ra C U sq iq kq rkq rhq zrq paq bq pf =>
    have hb : ∀ n, Pushes (QsOk (Spec.layerQuantizers (.gru ra C U sq iq kq rkq rhq zrq paq bq pf)))
        (OnlyDead (Spec.layerQuantizers (.gru ra C U sq iq kq rkq rhq zrq paq bq pf)))
        fun θ => gruBiasCost θ bq n := by
      intro n
      cases bq with
      | none => exact Pushes.const le_rfl
      | some q => exact pushes_sumBits (by simp [Spec.layerQuantizers]) _
    have hp : ∀ q ∈ [sq, iq, kq, rkq, rhq, zrq, paq], ∀ e, Pushes (QsOk (Spec.layerQuantizers (.gru ra C U sq iq kq rkq rhq zrq paq bq pf)))
        (OnlyDead (Spec.layerQuantizers (.gru ra C U sq iq kq rkq rhq zrq paq bq pf))) fun θ => q.bits_ θ e :=
      fun q hq e => pushes_bits (by simp [Spec.layerQuantizers] at hq ⊢; tauto) e
    have h3 := Pushes.sum (List.range U) (fun j θ => Dual.mul (zrq.bits_ θ j) (Dual.add (paq.bits_ θ j) (sq.bits_ θ j)))
      (fun j _ => (hp zrq (by simp) j).mul ((hp paq (by simp) j).add (hp sq (by simp) j)))
    have h0 := pushes_matmul 1 C (3 * U) (hp iq (by simp)) (hp kq (by simp))
    cases ra with
    | true =>
      have h1 := pushes_matmul 1 U (3 * U) (hp sq (by simp)) (hp rkq (by simp))
      have h2 := Pushes.sum (List.range U) (fun j θ => Dual.mul (zrq.bits_ θ (U + j)) (rhq.bits_ θ j))
        (fun j _ => (hp zrq (by simp) (U + j)).mul (hp rhq (by simp) j))
      exact ((((h0.add h1).add h2).add h3).add (hb _)).scale h
    | false =>
      have h1 := pushes_matmul 1 U (2 * U) (hp sq (by simp)) (fun j => hp rkq (by simp) (j / (2 * U) * (3 * U) + j % (2 * U)))
      have h2 := pushes_matmul 1 U U (hp rhq (by simp)) (fun j => hp rkq (by simp) (j / U * (3 * U) + 2 * U + j % U))
      have h2' := Pushes.sum (List.range U) (fun j θ => Dual.mul (zrq.bits_ θ (U + j)) (sq.bits_ θ j))
        (fun j _ => (hp zrq (by simp) (U + j)).mul (hp sq (by simp) j))
      exact ((((h0.add h1).add (h2.add h2')).add h3).add (hb _)).scale h


/-! ## Theorems: sign of the derivatives -/

/-- C102.  In any state with legal widths, the EBOPs of a layer are not negative and no derivative of them with
respect to any bit-width variable is negative. -/
theorem C102_nonneg_partial (l : CostLayer V) (θ : V → ℝ) (h : Spec.LegalLayer l θ) :
    0 ≤ (l.ebops θ).val ∧ ∀ v, 0 ≤ (l.ebops θ).grad v :=
  ⟨(pushes_layer l h.1).nn θ h.2, (pushes_layer l h.1).gn θ h.2⟩

/-- C102.  EBOPs are monotone: lowering bit-width variables never raises the EBOPs of a layer. -/
theorem C102_monotone_partial (l : CostLayer V) (θ θ' : V → ℝ) (h : Spec.LegalLayer l θ) (h' : Spec.LegalLayer l θ')
    (hle : ∀ v, θ v ≤ θ' v) : (l.ebops θ).val ≤ (l.ebops θ').val :=
  (pushes_layer l h.1).mono θ θ' h.2 h'.2 hle

/-- C102.  A pruned cell receives no gradient from the EBOPs: if every cell of the layer a variable belongs to is a KIF
cell without bits, the derivative is exactly zero. -/
theorem C102_dead_cell_partial (l : CostLayer V) (θ : V → ℝ) (h : Spec.LegalLayer l θ) (v : V)
    (hd : ∀ q ∈ Spec.layerQuantizers l, ∀ c, v = q.iv c ∨ v = q.pv c → Spec.DeadCell q θ c) : (l.ebops θ).grad v = 0 :=
  (pushes_layer l h.1).zg θ v h.2 hd

/-! ## Theorems: training runs -/

omit [DecidableEq V] in
theorem project_le {i : BwVar} {x y : ℝ} (hy : Spec.BwInBounds i y) (h : x ≤ y) : i.project x ≤ y ∧ Spec.BwInBounds i (i.project x) := by
  rcases i with ⟨tr, lo, hi, l1⟩
  unfold BwVar.project
  cases lo with
  | none =>
    cases hi with
    | none => exact ⟨h, by simp [Spec.BwInBounds]⟩
    | some b => exact ⟨(min_le_left _ _).trans h, by simp [Spec.BwInBounds]⟩
  | some a =>
    have ha : a ≤ y := hy.1 a rfl
    cases hi with
    | none => exact ⟨max_le h ha, by simp [Spec.BwInBounds]⟩
    | some b =>
      have hb : y ≤ b := hy.2 b rfl
      refine ⟨(min_le_left _ _).trans (max_le h ha), ?_⟩
      simp only [Spec.BwInBounds, Option.some.injEq, forall_eq']
      exact ⟨le_min (le_max_right _ _) (ha.trans hb), min_le_right _ _⟩

theorem qsOk_of_bounds {info : V → BwVar} {net : ℕ → List (LossLayer V)} (hg : Spec.GoodNet info net) {θ : V → ℝ}
    (hb : ∀ v, (info v).trainable = true → Spec.BwInBounds (info v) (θ v)) (n : ℕ) (l : LossLayer V) (hl : l ∈ net n) :
    QsOk (Spec.layerQuantizers l.layer) θ := by
  intro q hq
  refine ⟨hg.sign n l hl q hq, fun hk c => ?_⟩
  obtain ⟨ht, a, ha, h0⟩ := hg.kbi n l hl q hq hk c
  exact h0.trans ((hb _ ht).1 a ha)

theorem bwGrad_nonneg {info : V → BwVar} {net : ℕ → List (LossLayer V)} (hg : Spec.GoodNet info net) {θ : V → ℝ}
    (hb : ∀ v, (info v).trainable = true → Spec.BwInBounds (info v) (θ v)) (n : ℕ) (v : V) : 0 ≤ bwGrad info (net n) θ v := by
  refine add_nonneg ?_ (hg.l1 v)
  have : ∀ ls : List (LossLayer V), (∀ l ∈ ls, l ∈ net n) → 0 ≤ (Dual.sum (ls.map (LossLayer.loss θ))).grad v := by
    intro ls
    induction ls with
    | nil => intro _; exact le_refl _
    | cons l ls ih =>
      intro h
      obtain ⟨h1, h2, h3⟩ := hg.args n l (h l (by simp))
      have := (pushes_layer l.layer h1).gn θ (qsOk_of_bounds hg hb n l (h l (by simp))) v
      have h4 : 0 ≤ (l.loss θ).grad v := mul_nonneg h3 (mul_nonneg h2 this)
      simp only [List.map_cons, sum_grad_cons]
      exact add_nonneg h4 (ih fun l' hl' => h l' (by simp [hl']))
  exact this _ fun l hl => hl

theorem history_sum_nonneg (w : ℕ → V → ℝ) (hw : ∀ s v, 0 ≤ w s v) (h : List (V → ℝ)) (hh : ∀ g ∈ h, ∀ v, 0 ≤ g v) (v : V) :
    0 ≤ (h.zipIdx.map fun p => w p.2 v * p.1 v).sum := by
  apply List.sum_nonneg
  intro x hx
  obtain ⟨p, hp, rfl⟩ := List.mem_map.mp hx
  exact mul_nonneg (hw _ _) (hh _ (by obtain ⟨i, j⟩ := p; exact List.fst_mem_of_mem_zipIdx hp) v)

theorem bwRun_inv {info : V → BwVar} {net : ℕ → List (LossLayer V)} (hg : Spec.GoodNet info net) {w : ℕ → ℕ → V → ℝ}
    (hw : ∀ n s v, 0 ≤ w n s v) (data : ℕ → V → ℝ) {θ0 : V → ℝ} (h0 : ∀ v, (info v).trainable = true → Spec.BwInBounds (info v) (θ0 v)) (n : ℕ) :
    (∀ v, (info v).trainable = true → Spec.BwInBounds (info v) ((bwRun info net w data θ0 n).1 v)) ∧
    (∀ g ∈ (bwRun info net w data θ0 n).2, ∀ v, 0 ≤ g v) ∧
    (∀ v, (info v).trainable = true → (bwRun info net w data θ0 (n + 1)).1 v ≤ (bwRun info net w data θ0 n).1 v) := by
  have key : ∀ n, (∀ v, (info v).trainable = true → Spec.BwInBounds (info v) ((bwRun info net w data θ0 n).1 v)) →
      (∀ g ∈ (bwRun info net w data θ0 n).2, ∀ v, 0 ≤ g v) →
      (∀ g ∈ (bwRun info net w data θ0 (n + 1)).2, ∀ v, 0 ≤ g v) ∧
      ∀ v, (info v).trainable = true → (bwRun info net w data θ0 (n + 1)).1 v ≤ (bwRun info net w data θ0 n).1 v ∧
        Spec.BwInBounds (info v) ((bwRun info net w data θ0 (n + 1)).1 v) := by
    intro n hb hh
    have hh' : ∀ g ∈ (bwRun info net w data θ0 (n + 1)).2, ∀ v, 0 ≤ g v := by
      intro g hg' v
      rcases List.mem_cons.mp hg' with rfl | hg'
      · exact bwGrad_nonneg hg hb n v
      · exact hh g hg' v
    refine ⟨hh', fun v hv => ?_⟩
    have hs := history_sum_nonneg (w n) (hw n) _ hh' v
    have e : (bwRun info net w data θ0 (n + 1)).1 v = (info v).project ((bwRun info net w data θ0 n).1 v
        - ((bwRun info net w data θ0 (n + 1)).2.zipIdx.map fun p => w n p.2 v * p.1 v).sum) := if_pos hv
    rw [e]
    exact project_le (hb v hv) (by linarith)
  have inv : ∀ n, (∀ v, (info v).trainable = true → Spec.BwInBounds (info v) ((bwRun info net w data θ0 n).1 v)) ∧
      (∀ g ∈ (bwRun info net w data θ0 n).2, ∀ v, 0 ≤ g v) := by
    intro n
    induction n with
    | zero => exact ⟨h0, by simp [bwRun]⟩
    | succ n ih => exact ⟨fun v hv => ((key n ih.1 ih.2).2 v hv).2, (key n ih.1 ih.2).1⟩
  exact ⟨(inv n).1, (inv n).2, fun v hv => ((key n (inv n).1 (inv n).2).2 v hv).1⟩

/-- C102.  A training run driven by the EBOPs losses and `MonoL1` regularizers alone — any optimizer that moves against
a non-negative combination of past gradients, any schedule of `beta ≥ 0`, any values the data assign to the
non-trainable integer bits — never raises a trainable bit-width variable and keeps it within its constraint. -/
theorem C102_run_partial {info : V → BwVar} {net : ℕ → List (LossLayer V)} (hg : Spec.GoodNet info net) {w : ℕ → ℕ → V → ℝ}
    (hw : ∀ n s v, 0 ≤ w n s v) (data : ℕ → V → ℝ) {θ0 : V → ℝ}
    (h0 : ∀ v, (info v).trainable = true → Spec.BwInBounds (info v) (θ0 v)) (v : V) (hv : (info v).trainable = true) :
    (∀ m n, m ≤ n → (bwRun info net w data θ0 n).1 v ≤ (bwRun info net w data θ0 m).1 v) ∧
    ∀ n, Spec.BwInBounds (info v) ((bwRun info net w data θ0 n).1 v) :=
  ⟨fun _ _ h => antitone_nat_of_succ_le (f := fun n => (bwRun info net w data θ0 n).1 v)
      (fun n => (bwRun_inv hg hw data h0 n).2.2 v hv) h,
   fun n => (bwRun_inv hg hw data h0 n).1 v hv⟩

/-- C102.  In such a run, as long as the data do not raise the non-trainable integer bits, the EBOPs of every layer of
the model never increase. -/
theorem C102_ebops_run_partial {info : V → BwVar} {net : ℕ → List (LossLayer V)} (hg : Spec.GoodNet info net) {w : ℕ → ℕ → V → ℝ}
    (hw : ∀ n s v, 0 ≤ w n s v) (data : ℕ → V → ℝ) {θ0 : V → ℝ}
    (h0 : ∀ v, (info v).trainable = true → Spec.BwInBounds (info v) (θ0 v))
    (hdata : ∀ n v, (info v).trainable = false → data n v ≤ (bwRun info net w data θ0 n).1 v)
    (k : ℕ) (l : LossLayer V) (hl : l ∈ net k) (m n : ℕ) (h : m ≤ n) :
    (l.layer.ebops (bwRun info net w data θ0 n).1).val ≤ (l.layer.ebops (bwRun info net w data θ0 m).1).val := by
  refine antitone_nat_of_succ_le (f := fun n => (l.layer.ebops (bwRun info net w data θ0 n).1).val) (fun n => ?_) h
  refine C102_monotone_partial l.layer _ _ ⟨(hg.args k l hl).1, qsOk_of_bounds hg (bwRun_inv hg hw data h0 (n + 1)).1 k l hl⟩
    ⟨(hg.args k l hl).1, qsOk_of_bounds hg (bwRun_inv hg hw data h0 n).1 k l hl⟩ (fun v => ?_)
  cases hv : (info v).trainable with
  | true => exact (bwRun_inv hg hw data h0 n).2.2 v hv
  | false =>
    have e : (bwRun info net w data θ0 (n + 1)).1 v = data n v := if_neg (by simp [hv])
    rw [e]; exact hdata n v hv

/-- C102.  Under WRAP the optimizer never touches the integer bits: whatever the gradients, they are what the data
assigned. -/
theorem C102_wrap_int_bits_partial {info : V → BwVar} (q : BwQ V) (hq : q.mode = .WRAP) (c : ℕ) (lo hi : Option ℝ) (l1 : ℝ)
    (hi' : info (q.iv c) = q.mkI lo hi l1) (w : ℕ → V → ℝ) (g : List (V → ℝ)) (data θ : V → ℝ) :
    optStep info w g data θ (q.iv c) = data (q.iv c) := by
  simp [optStep, hi', BwQ.mkI, hq]

/-- C102.  A bit-width variable that only feels its `MonoL1` regularizer descends by `lr * l1` per step of plain gradient
descent until it sits on the lower bound of its constraint: the state after `n` steps. -/
theorem C102_monoL1_partial {info : V → BwVar} (lr : ℝ) (hlr : 0 ≤ lr) (data : ℕ → V → ℝ) (θ0 : V → ℝ) (v : V)
    (hv : (info v).trainable = true) (a : ℝ) (ha : (info v).lo = some a) (hl1 : 0 ≤ (info v).l1)
    (h0 : Spec.BwInBounds (info v) (θ0 v)) (n : ℕ) :
    (bwRun info (fun _ => []) (Spec.sgd lr) data θ0 n).1 v = max a (θ0 v - n * (lr * (info v).l1)) := by
  have ha0 : a ≤ θ0 v := h0.1 a ha
  have hd : 0 ≤ lr * (info v).l1 := mul_nonneg hlr hl1
  induction n with
  | zero => simp [bwRun, ha0]
  | succ n ih =>
    have e : (bwRun info (fun _ => []) (Spec.sgd lr) data θ0 (n + 1)).1 v
        = (info v).project ((bwRun info (fun _ => []) (Spec.sgd lr) data θ0 n).1 v
          - ((bwRun info (fun _ => []) (Spec.sgd lr) data θ0 (n + 1)).2.zipIdx.map fun p => Spec.sgd lr n p.2 v * p.1 v).sum) := if_pos hv
    have hs : ((bwRun info (fun _ => []) (Spec.sgd lr) data θ0 (n + 1)).2.zipIdx.map fun p => Spec.sgd lr n p.2 v * p.1 v).sum
        = lr * (info v).l1 := by
      have h2 : (bwRun info (fun _ => []) (Spec.sgd lr) data θ0 (n + 1)).2
          = bwGrad info [] (bwRun info (fun _ => []) (Spec.sgd lr) data θ0 n).1 :: (bwRun info (fun _ => []) (Spec.sgd lr) data θ0 n).2 := rfl
      rw [h2, List.zipIdx_cons, List.map_cons, List.sum_cons]
      have hz : ∀ (L : List (V → ℝ)) k, 0 < k → ((L.zipIdx k).map fun p => Spec.sgd lr n p.2 v * p.1 v).sum = 0 := by
        intro L
        induction L with
        | nil => intros; rfl
        | cons g L ihL =>
          intro k hk
          rw [List.zipIdx_cons, List.map_cons, List.sum_cons, ihL (k + 1) (by omega)]
          simp [Spec.sgd, Nat.pos_iff_ne_zero.mp hk]
      rw [hz _ _ (by norm_num)]
      simp [Spec.sgd, bwGrad, Dual.sum, Dual.const]
    rw [e, hs, ih]
    have hx : max a (θ0 v - n * (lr * (info v).l1)) - lr * (info v).l1 ≤ θ0 v := by
      have : 0 ≤ (n : ℝ) * (lr * (info v).l1) := by positivity
      have : max a (θ0 v - n * (lr * (info v).l1)) ≤ θ0 v := max_le ha0 (by linarith)
      linarith
    have hproj : ∀ x, x ≤ θ0 v → (info v).project x = max x a := by
      intro x hx
      unfold BwVar.project
      rw [ha]
      cases hh : (info v).hi with
      | none => rfl
      | some b =>
        have := h0.2 b hh
        exact min_eq_left (max_le (hx.trans this) (ha0.trans this))
    rw [hproj _ hx]
    push_cast
    rcases le_total a (θ0 v - n * (lr * (info v).l1)) with h | h
    · rw [max_eq_right h, max_comm]; congr 1; ring
    · rw [max_eq_left h, max_eq_right (by linarith), max_eq_left (by linarith)]

/-! ## Theorems: the derivatives are the true ones -/

/-- A dual number carries value and partial derivative of `F` at `ρ`. -/
def IsGrad (C : Dual V) (F : (V → ℝ) → ℝ) (ρ : V → ℝ) (v : V) : Prop :=
  C.val = F ρ ∧ HasDerivAt (fun x => F (Function.update ρ v x)) (C.grad v) (ρ v)

section grad
variable {ρ : V → ℝ} {v : V}

theorem IsGrad.const (c : ℝ) : IsGrad (Dual.const c : Dual V) (fun _ => c) ρ v := ⟨rfl, hasDerivAt_const _ _⟩

theorem IsGrad.add {A B : Dual V} {F G : (V → ℝ) → ℝ} (a : IsGrad A F ρ v) (b : IsGrad B G ρ v) :
    IsGrad (Dual.add A B) (fun ρ => F ρ + G ρ) ρ v := ⟨by simp [Dual.add, a.1, b.1], a.2.add b.2⟩

theorem IsGrad.mul {A B : Dual V} {F G : (V → ℝ) → ℝ} (a : IsGrad A F ρ v) (b : IsGrad B G ρ v) :
    IsGrad (Dual.mul A B) (fun ρ => F ρ * G ρ) ρ v := by
  refine ⟨by simp [Dual.mul, a.1, b.1], ?_⟩
  have := a.2.mul b.2
  simp only [Function.update_eq_self] at this
  simp only [Dual.mul, a.1, b.1]
  exact this

theorem IsGrad.scale (c : ℝ) {A : Dual V} {F : (V → ℝ) → ℝ} (a : IsGrad A F ρ v) :
    IsGrad (Dual.scale c A) (fun ρ => c * F ρ) ρ v := ⟨by simp [Dual.scale, a.1], a.2.const_mul c⟩

theorem IsGrad.pow2 {A : Dual V} {F : (V → ℝ) → ℝ} (a : IsGrad A F ρ v) :
    IsGrad (Dual.pow2 A) (fun ρ => (2 : ℝ) ^ F ρ) ρ v := by
  refine ⟨by simp [Dual.pow2, a.1], ?_⟩
  have := a.2.const_rpow (a := 2) (by norm_num)
  simp only [Function.update_eq_self] at this
  simp only [Dual.pow2, a.1]
  rw [mul_right_comm]
  exact this

theorem IsGrad.sum (n : ℕ) {A : ℕ → Dual V} {F : ℕ → (V → ℝ) → ℝ} (h : ∀ i, IsGrad (A i) (F i) ρ v) :
    IsGrad (Dual.sum ((List.range n).map A)) (fun ρ => ∑ i ∈ Finset.range n, F i ρ) ρ v := by
  have hl : ∀ l : List ℕ, IsGrad (Dual.sum (l.map A)) (fun ρ => (l.map fun i => F i ρ).sum) ρ v := by
    intro l
    induction l with
    | nil => exact IsGrad.const 0
    | cons i l ih => exact (h i).add ih
  exact hl (List.range n)

theorem isGrad_var (w : V) : IsGrad (var ρ w) (fun ρ => ρ w) ρ v := by
  refine ⟨rfl, ?_⟩
  by_cases h : v = w
  · subst h
    simp only [Function.update_self, var, if_true]
    exact hasDerivAt_id _
  · simp only [Function.update_of_ne (Ne.symm h), var, h, if_false]
    exact hasDerivAt_const _ _

theorem IsGrad.relu {A : Dual V} {F : (V → ℝ) → ℝ} (a : IsGrad A F ρ v) (h : A.val ≠ 0) :
    IsGrad (Dual.relu A) (fun ρ => max (F ρ) 0) ρ v := by
  refine ⟨by simp [Dual.relu, a.1], ?_⟩
  have hc : ContinuousAt (fun x => F (Function.update ρ v x)) (ρ v) := a.2.continuousAt
  have hv : F (Function.update ρ v (ρ v)) = A.val := by rw [Function.update_eq_self, a.1]
  rcases lt_or_gt_of_ne h with hn | hp
  · rw [relu_grad_neg (le_of_lt hn)]
    refine (hasDerivAt_const (ρ v) (0 : ℝ)).congr_of_eventuallyEq ?_
    have := hc.eventually (gt_mem_nhds (show F (Function.update ρ v (ρ v)) < 0 by rw [hv]; exact hn))
    exact this.mono fun x hx => max_eq_right (le_of_lt hx)
  · rw [relu_grad_pos hp]
    refine a.2.congr_of_eventuallyEq ?_
    have := hc.eventually (lt_mem_nhds (show 0 < F (Function.update ρ v (ρ v)) by rw [hv]; exact hp))
    exact this.mono fun x hx => max_eq_left (le_of_lt hx)

theorem isGrad_roundVar (θ : V → ℝ) (w : V) : IsGrad (roundConv (var θ w)) (fun ρ => ρ w) (fun v => roundEvenR (θ v)) v :=
  ⟨rfl, (isGrad_var (ρ := fun v => roundEvenR (θ v)) w).2⟩

theorem isGrad_bits {q : BwQ V} {θ : V → ℝ} (hk : Spec.NoKink q fun v => roundEvenR (θ v)) (e : ℕ) :
    IsGrad (q.bits_ θ e) (fun ρ => Spec.relaxedWidth q ρ (q.cell e)) (fun v => roundEvenR (θ v)) v := by
  have hb : IsGrad (q.b θ (q.cell e)) (fun ρ => if q.kbi then ρ (q.pv (q.cell e)) else max (ρ (q.iv (q.cell e)) + ρ (q.pv (q.cell e))) 0)
      (fun v => roundEvenR (θ v)) v := by
    cases h : q.kbi with
    | true => rw [b_kbi h]; exact isGrad_roundVar θ _
    | false =>
      rw [b_kif h]
      exact ((isGrad_roundVar θ _).add (isGrad_roundVar θ _)).relu (hk h _)
  unfold BwQ.bits_ BwQ.bits Spec.relaxedWidth
  by_cases hm : q.mode = .SAT
  · simp only [hm, if_true]
    exact hb.add (IsGrad.const _)
  · simp only [hm, if_false, add_zero]
    exact hb
end grad

theorem sum_append (l m : List (Dual V)) : Dual.sum (l ++ m) = Dual.add (Dual.sum l) (Dual.sum m) := by
  induction l with
  | nil => exact Dual.ext' (by simp [Dual.sum, Dual.add, Dual.const]) (fun v => by simp [Dual.sum, Dual.add, Dual.const])
  | cons a l ih =>
    have e : Dual.sum (a :: l ++ m) = Dual.add a (Dual.sum (l ++ m)) := rfl
    rw [e, ih]
    refine Dual.ext' ?_ (fun v => ?_)
    · simp only [Dual.add, sum_val_cons]; ring
    · simp only [Dual.add, sum_grad_cons]; ring

theorem sum_flatMap {ι : Type} (l : List ι) (A : ι → List (Dual V)) :
    Dual.sum (l.flatMap A) = Dual.sum (l.map fun i => Dual.sum (A i)) := by
  induction l with
  | nil => rfl
  | cons i l ih => rw [List.flatMap_cons, sum_append, ih]; rfl

theorem isGrad_bias {θ : V → ℝ} {v : V} (bq : Option (BwQ V)) (U : ℕ) (size : ℝ)
    (hk : ∀ q ∈ bq.toList, Spec.NoKink q fun v => roundEvenR (θ v)) :
    IsGrad (biasCost θ bq U size) (fun ρ => Spec.biasRelaxed ρ bq U size) (fun v => roundEvenR (θ v)) v := by
  cases bq with
  | none => exact IsGrad.const 0
  | some q =>
    have hq := fun e => isGrad_bits (v := v) (hk q (by simp)) e
    have h3 := ((IsGrad.sum U hq).scale (1 / U)).scale size
    unfold biasCost Dual.mean
    simp only [List.length_map, List.length_range]
    have e : (fun ρ : V → ℝ => size * (1 / U * ∑ u ∈ Finset.range U, Spec.relaxedWidth q ρ (q.cell u)))
        = fun ρ => size * ((∑ u ∈ Finset.range U, Spec.relaxedWidth q ρ (q.cell u)) / U) := by
      funext ρ; ring
    rw [e] at h3
    exact h3

/-- C102.  The derivative that training uses for a dense layer is the partial derivative of its cost — every product
`bits × bits`, every bias bit, as a smooth function of the width parameters — taken at the current integer widths,
whenever no cell sits exactly at zero bits. -/
theorem C102_dense_derivative_partial (θ : V → ℝ) (P C U : ℕ) (iq kq : BwQ V) (bq : Option (BwQ V)) (ratio : ℝ)
    (hk : ∀ q ∈ iq :: kq :: bq.toList, Spec.NoKink q fun v => roundEvenR (θ v)) (v : V) :
    ((CostLayer.dense P C U iq kq bq ratio).ebops θ).val = Spec.denseRelaxed (fun v => roundEvenR (θ v)) P C U iq kq bq ratio ∧
    HasDerivAt (fun x => Spec.denseRelaxed (Function.update (fun v => roundEvenR (θ v)) v x) P C U iq kq bq ratio)
      (((CostLayer.dense P C U iq kq bq ratio).ebops θ).grad v) (roundEvenR (θ v)) := by
  have hi := fun e => isGrad_bits (v := v) (hk iq (by simp)) e
  have hkk := fun e => isGrad_bits (v := v) (hk kq (by simp)) e
  have h1 : IsGrad (Dual.sum (dualMatmul P C U (iq.bits_ θ) (kq.bits_ θ)))
      (fun ρ => ∑ p ∈ Finset.range P, ∑ u ∈ Finset.range U, ∑ c ∈ Finset.range C,
        Spec.relaxedWidth iq ρ (iq.cell (p * C + c)) * Spec.relaxedWidth kq ρ (kq.cell (c * U + u))) (fun v => roundEvenR (θ v)) v := by
    unfold dualMatmul
    rw [sum_flatMap]
    exact IsGrad.sum P fun p => IsGrad.sum U fun u => IsGrad.sum C fun c => (hi _).mul (hkk _)
  have h2 := isGrad_bias (v := v) bq U (P * U) (fun q hq => hk q (by simp at hq ⊢; tauto))
  exact (h1.add h2).scale ratio

theorem isGrad_macs {θ : V → ℝ} {v : V} (macs : List (ℕ × ℕ)) {iq kq : BwQ V} (hi : Spec.NoKink iq fun v => roundEvenR (θ v))
    (hk : Spec.NoKink kq fun v => roundEvenR (θ v)) :
    IsGrad (Dual.sum (macs.map fun p => Dual.mul (iq.bits_ θ p.1) (kq.bits_ θ p.2))) (fun ρ => Spec.macsRelaxed ρ macs iq kq)
      (fun v => roundEvenR (θ v)) v := by
  unfold Spec.macsRelaxed
  induction macs with
  | nil => exact IsGrad.const 0
  | cons p l ih => exact ((isGrad_bits hi _).mul (isGrad_bits hk _)).add ih

/-- C102.  Same for a convolution (any set of products; the parallelization ratio applies to the products only), an
einsum-dense layer (the ratio applies to the biases too) and attention. -/
theorem C102_products_derivative_partial (θ : V → ℝ) (macs macs2 : List (ℕ × ℕ)) (iq kq aq vq : BwQ V) (bq : Option (BwQ V)) (U : ℕ) (size ratio : ℝ)
    (hk : ∀ q ∈ iq :: kq :: aq :: vq :: bq.toList, Spec.NoKink q fun v => roundEvenR (θ v)) (v : V) :
    HasDerivAt (fun x => let ρ := Function.update (fun v => roundEvenR (θ v)) v x
        ratio * Spec.macsRelaxed ρ macs iq kq + Spec.biasRelaxed ρ bq U size)
      (((CostLayer.conv macs iq kq bq U size ratio).ebops θ).grad v) (roundEvenR (θ v)) ∧
    HasDerivAt (fun x => let ρ := Function.update (fun v => roundEvenR (θ v)) v x
        ratio * (Spec.macsRelaxed ρ macs iq kq + Spec.biasRelaxed ρ bq U size))
      (((CostLayer.einsumDense macs iq kq bq U size ratio).ebops θ).grad v) (roundEvenR (θ v)) ∧
    HasDerivAt (fun x => let ρ := Function.update (fun v => roundEvenR (θ v)) v x
        ratio * (Spec.macsRelaxed ρ macs iq kq + Spec.macsRelaxed ρ macs2 aq vq))
      (((CostLayer.attn macs macs2 iq kq aq vq ratio).ebops θ).grad v) (roundEvenR (θ v)) := by
  have h1 := isGrad_macs (v := v) macs (hk iq (by simp)) (hk kq (by simp))
  have h2 := isGrad_macs (v := v) macs2 (hk aq (by simp)) (hk vq (by simp))
  have h3 := isGrad_bias (v := v) bq U size (fun q hq => hk q (by simp at hq ⊢; tauto))
  exact ⟨((h1.scale ratio).add h3).2, ((h1.add h3).scale ratio).2, ((h1.add h2).scale ratio).2⟩

/-- C102.  Same for a lookup table: the derivative with respect to an input width carries the factor `ln 2 · 2^bits`. -/
theorem C102_lut_derivative_partial (θ : V → ℝ) (E : ℕ) (iq oq : BwQ V)
    (hk : ∀ q ∈ [iq, oq], Spec.NoKink q fun v => roundEvenR (θ v)) (v : V) :
    ((CostLayer.lut E iq oq).ebops θ).val = Spec.lutRelaxed (fun v => roundEvenR (θ v)) E iq oq ∧
    HasDerivAt (fun x => Spec.lutRelaxed (Function.update (fun v => roundEvenR (θ v)) v x) E iq oq)
      (((CostLayer.lut E iq oq).ebops θ).grad v) (roundEvenR (θ v)) :=
  (IsGrad.sum E fun e => (isGrad_bits (hk iq (by simp)) e).pow2.mul (isGrad_bits (hk oq (by simp)) e)).scale 1e-4


/-! ## Where it fails -/

/-- A KBI quantizer with one cell, its width variable is `v`. -/
def kbiOne (v : Bool) : BwQ Bool := ⟨true, .SAT_SYM, fun _ => 1, fun _ => v, fun _ => v, fun _ => 0⟩

/-- C102.  Without a constraint on `b` (`bc=None`) the claim is false: with plain gradient descent a KBI width goes
negative in the first step, the EBOPs become negative, and the second step raises the width of the other operand. -/
theorem C102_unconstrained_b_violated :
    ∃ (info : Bool → BwVar) (net : ℕ → List (LossLayer Bool)) (θ0 : Bool → ℝ) (l : LossLayer Bool),
      (∀ n, net n = [l]) ∧ Spec.LegalLayer l.layer θ0 ∧ l.factor = 1 ∧ l.beta = 1 ∧
      (∀ v, (info v).trainable = true ∧ (info v).lo = none ∧ (info v).l1 = 0 ∧ 0 < θ0 v) ∧
      let run := fun n => (bwRun info net (Spec.sgd 1) (fun _ _ => 0) θ0 n).1
      (l.layer.ebops (run 1)).val < 0 ∧ run 1 true < run 2 true := by
  let l : LossLayer Bool := ⟨.dense 1 1 1 (kbiOne false) (kbiOne true) none 1, 1, 1⟩
  let θ0 : Bool → ℝ := fun v => if v then (4 : ℤ) else (1 : ℤ)
  have hgrad : ∀ (θ : Bool → ℝ), (bwGrad (fun _ => ⟨true, none, none, 0⟩) [l] θ) =
      fun v => if v then roundEvenR (θ false) else roundEvenR (θ true) := by
    intro θ
    funext v
    cases v <;>
    simp [bwGrad, l, LossLayer.loss, CostLayer.ebops, denseCost, dualMatmul, biasCost, Dual.sum, Dual.scale, Dual.add, Dual.mul, Dual.const,
      BwQ.bits_, BwQ.bits, BwQ.b, kbiOne, roundConv, var]
  have h1 : (bwRun (fun _ => ⟨true, none, none, 0⟩) (fun _ => [l]) (Spec.sgd 1) (fun _ _ => 0) θ0 1).1
      = fun v => if v then ((3 : ℤ) : ℝ) else ((-3 : ℤ) : ℝ) := by
    funext v
    simp only [bwRun, hgrad, optStep, BwVar.project, θ0]
    have r1 : roundEvenR 1 = 1 := by exact_mod_cast roundEvenR_int 1
    have r4 : roundEvenR 4 = 4 := by exact_mod_cast roundEvenR_int 4
    cases v <;> simp [Spec.sgd, r1, r4] <;> norm_num
  have h2 : (bwRun (fun _ => ⟨true, none, none, 0⟩) (fun _ => [l]) (Spec.sgd 1) (fun _ _ => 0) θ0 2).1 true = 6 := by
    rw [bwRun]
    simp only [hgrad, h1, optStep, BwVar.project]
    simp only [bwRun, hgrad, θ0]
    simp [Spec.sgd, roundEvenR_int, -Int.cast_ofNat, -Int.cast_neg]
    norm_num
  refine ⟨fun _ => ⟨true, none, none, 0⟩, fun _ => [l], θ0, l, fun _ => rfl, ⟨by simp [l, Spec.LegalArgs], ?_⟩, rfl, rfl, ?_, ?_, ?_⟩
  · intro q hq
    simp only [l, Spec.layerQuantizers, Option.toList, List.mem_cons, List.not_mem_nil, or_false] at hq
    rcases hq with rfl | rfl <;> exact ⟨fun _ => by simp [kbiOne], fun _ _ => by simp [kbiOne, θ0]⟩
  · intro v; cases v <;> simp [θ0]
  · show (l.layer.ebops (bwRun _ _ _ _ _ 1).1).val < 0
    rw [h1]
    simp [l, CostLayer.ebops, denseCost, dualMatmul, biasCost, Dual.sum, Dual.scale, Dual.add, Dual.mul, Dual.const,
      BwQ.bits_, BwQ.bits, BwQ.b, kbiOne, roundConv, var, roundEvenR_int, -Int.cast_ofNat, -Int.cast_neg]
    norm_num
  · show (bwRun _ _ _ _ _ 1).1 true < (bwRun _ _ _ _ _ 2).1 true
    rw [h1, h2]; norm_num

/-! ## Concrete cases -/

/-- Hypotheses of the run theorems are met: a dense layer with KIF inputs and KBI weights `bc = MinMax(0, 12)`. -/
example : Spec.GoodNet (V := ℕ) (fun _ => ⟨true, some 0, some 12, 1⟩)
    (fun _ => [⟨.dense 1 2 1 ⟨false, .SAT, fun _ => 1, fun c => c, fun c => c + 2, fun e => e⟩
      ⟨true, .SAT_SYM, fun _ => 1, fun _ => 10, fun c => 4 + c, fun e => e⟩ none 1, 1, 1⟩]) where
  l1 := fun _ => by norm_num
  args := fun _ l hl => by
    simp only [List.mem_singleton] at hl; subst hl
    exact ⟨by norm_num [Spec.LegalArgs], by norm_num, by norm_num⟩
  sign := fun _ l hl q hq c => by
    simp only [List.mem_singleton] at hl; subst hl
    simp only [Spec.layerQuantizers, Option.toList, List.mem_cons, List.not_mem_nil, or_false] at hq
    rcases hq with rfl | rfl <;> norm_num
  kbi := fun _ _ _ _ _ _ _ => ⟨rfl, 0, rfl, le_refl _⟩

/-- A dead and a live cell: the derivative with respect to the fraction bits of the live kernel cell is the width of
the input (4 bits plus sign), that of the dead cell is zero. -/
example : let iq : BwQ ℕ := ⟨false, .SAT, fun _ => 1, fun _ => 0, fun _ => 1, fun _ => 0⟩
    let kq : BwQ ℕ := ⟨false, .SAT_SYM, fun _ => 1, fun c => 2 + c, fun c => 4 + c, fun e => e⟩
    let θ : ℕ → ℝ := fun v => ((([2, 2, 1, 1, 2, -3] : List ℤ).getD v 0 : ℤ) : ℝ)
    ((CostLayer.dense 1 1 2 iq kq none 1).ebops θ).grad 4 = 5 ∧ ((CostLayer.dense 1 1 2 iq kq none 1).ebops θ).grad 5 = 0 := by
  simp [CostLayer.ebops, denseCost, dualMatmul, biasCost, Dual.sum, Dual.scale, Dual.add, Dual.mul, Dual.const,
    BwQ.bits_, BwQ.bits, BwQ.b, roundConv, var, relu, roundEvenR_int, -Int.cast_ofNat, -Int.cast_neg, List.range_succ]
  norm_num

end HGQ
