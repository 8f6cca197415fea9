import Verif.Model.RestEbops
import Verif.Props.PoolEbops
import Verif.Props.Mapper
import Mathlib.Tactic.Linarith
import Mathlib.Tactic.Ring
import Mathlib.Tactic.FieldSimp
import Mathlib.Tactic.LinearCombination

/-!
# C97, C98, C99: EBOPs of batch normalization, softmax and spiking layers
-/
namespace HGQ

namespace Spec

/-- All entries of a tensor. -/
def entries (shape : List ℕ) : List (List ℕ) := (shape.map List.range).sections

/-- Batch normalization: one product and one offset per element. -/
def bnCost (shape : List ℕ) (ax : ℕ) (bi : List ℕ → ℚ) (bk bb : ℕ → ℚ) : ℚ :=
  ((entries shape).map fun x => bi x * bk (x.getD ax 0) + bb (x.getD ax 0)).sum

/-- The rows a softmax over `axes` normalises: one for each choice of the other indices (0 on the axes). -/
def rows (axes shape : List ℕ) : List (List ℕ) := (shape.mapIdx fun i n => if i ∈ axes then [0] else List.range n).sections

/-- The entries of row `r`. -/
def row (axes shape r : List ℕ) : List (List ℕ) := (shape.mapIdx fun i n => if i ∈ axes then List.range n else [r.getD i 0]).sections

/-- The smallest of some numbers. -/
def IsLeastOf (l : List ℚ) (m : ℚ) : Prop := m ∈ l ∧ ∀ x ∈ l, m ≤ x

end Spec
open Spec

theorem tsum_entries (shape : List ℕ) (f : List ℕ → ℚ) : tsum shape f = ((entries shape).map f).sum := by
  unfold tsum entries
  induction shape generalizing f with
  | nil => simp [indices]
  | cons n ns ih => rw [sum_indices_cons, List.map_cons, sum_sections_cons]; simp only [ih]

theorem tsum_add (shape : List ℕ) (f g : List ℕ → ℚ) : tsum shape (fun x => f x + g x) = tsum shape f + tsum shape g := by
  simp [tsum, List.sum_map_add]

theorem tsum_cons (n : ℕ) (ns : List ℕ) (f : List ℕ → ℚ) : tsum (n :: ns) f = ((List.range n).map fun x => tsum ns fun y => f (x :: y)).sum :=
  sum_indices_cons n ns f

theorem tsum_const (shape : List ℕ) (c : ℚ) : tsum shape (fun _ => c) = shape.prod * c := by
  induction shape with
  | nil => simp [tsum, indices]
  | cons n ns ih => rw [tsum_cons]; simp [ih]; ring

theorem tsum_axis (shape : List ℕ) (ax C : ℕ) (h : shape[ax]? = some C) (g : ℕ → ℚ) :
    C * tsum shape (fun x => g (x.getD ax 0)) = shape.prod * ((List.range C).map g).sum := by
  induction shape generalizing ax with
  | nil => simp at h
  | cons n ns ih =>
    rw [tsum_cons]
    cases ax with
    | zero =>
      have : n = C := by simpa using h
      subst this
      simp only [List.getD_cons_zero, tsum_const, List.prod_cons, Nat.cast_mul]
      rw [List.sum_map_mul_left]; ring
    | succ ax =>
      simp only [List.getD_cons_succ]
      have := ih ax (by simpa using h)
      simp only [List.map_const', List.length_range, List.sum_replicate, nsmul_eq_mul, List.prod_cons, Nat.cast_mul]
      linear_combination (n : ℚ) * this

/-- **C97.** For every shape, every normalised axis and all bit widths: a `QBatchNormalization` layer reports one product (input bits times scale
bits) and one offset (offset bits) per element. -/
theorem C97_batchnorm (shape : List ℕ) (ax C : ℕ) (h : shape[ax]? = some C) (hC : 0 < C) (bi : List ℕ → ℚ) (bk bb : ℕ → ℚ) :
    bnEbops shape ax C bi bk bb = bnCost shape ax bi bk bb := by
  rw [bnCost, ← tsum_entries, tsum_add, bnEbops]
  congr 1
  have := tsum_axis shape ax C h bb
  have hC' : (C : ℚ) ≠ 0 := by exact_mod_cast hC.ne'
  field_simp
  linarith

/-- Channels last, 2 channels, batch 1. -/
example : ([1, 3, 2] : List ℕ)[2]? = some 2 ∧
    bnEbops [1, 3, 2] 2 2 (fun x => x.getD 1 0 + 1) (fun c => c + 2) (fun c => 3 * c + 1) = 45 := by
  constructor
  · rfl
  · decide +kernel

/-! ## Softmax -/

/-- Grouping of the entries by rows, for a predicate on axes. -/
theorem sum_rows (P : ℕ → Bool) (shape : List ℕ) (f : List ℕ → List ℕ → ℚ) :
    ((indices shape).map fun x => f (x.mapIdx fun a i => if P a then 0 else i) x).sum =
      (((shape.mapIdx fun i n => if P i then [0] else List.range n).sections).map fun r =>
        (((shape.mapIdx fun i n => if P i then List.range n else [r.getD i 0]).sections).map (f r)).sum).sum := by
  induction shape generalizing P f with
  | nil => simp [indices]
  | cons n ns ih =>
    rw [sum_indices_cons, List.mapIdx_cons, sum_sections_cons]
    simp only [List.mapIdx_cons, sum_sections_cons, List.getD_cons_zero, List.getD_cons_succ]
    have ih' := fun x a => ih (fun i => P (i + 1)) (fun r y => f (a :: r) (x :: y))
    cases h0 : P 0 with
    | true =>
      simp only [if_true, List.map_cons, List.map_nil, List.sum_cons, List.sum_nil, add_zero, ih']
      rw [sum_swap]
    | false => simp only [Bool.false_eq_true, if_false, List.map_cons, List.map_nil, List.sum_cons, List.sum_nil, add_zero, ih']

theorem contains_iff (axes : List ℕ) (i : ℕ) : axes.contains i = decide (i ∈ axes) := by simp

theorem rows_eq (axes shape : List ℕ) : rows axes shape = (shape.mapIdx fun i n => if axes.contains i then [0] else List.range n).sections := by
  unfold rows; simp only [contains_iff, decide_eq_true_eq]

theorem row_eq (axes shape r : List ℕ) : row axes shape r = (shape.mapIdx fun i n => if axes.contains i then List.range n else [r.getD i 0]).sections := by
  unfold row; simp only [contains_iff, decide_eq_true_eq]

theorem tsum_rows (axes shape : List ℕ) (f : List ℕ → List ℕ → ℚ) :
    tsum shape (fun x => f (keepIdx axes x) x) = ((rows axes shape).map fun r => ((row axes shape r).map (f r)).sum).sum := by
  rw [rows_eq]
  simp only [row_eq]
  exact sum_rows (fun i => axes.contains i) shape f

theorem map_mapIdx' {α β γ : Type} (l : List α) (f : ℕ → α → β) (g : β → γ) : (l.mapIdx f).map g = l.mapIdx fun i x => g (f i x) := by
  induction l generalizing f with
  | nil => simp
  | cons a l ih => simp [List.mapIdx_cons, ih]

theorem accum_rows (axes shape : List ℕ) : entries (accumShape axes shape) = rows axes shape := by
  rw [entries, accumShape, rows_eq, map_mapIdx']
  congr 2
  funext i n
  split <;> rfl

theorem rows_length (axes shape : List ℕ) : (accumShape axes shape).prod = (rows axes shape).length := by
  rw [← accum_rows, entries, sections_length, List.map_map]
  congr 1
  conv_lhs => rw [← List.map_id (accumShape axes shape)]
  exact List.map_congr_left fun n _ => by simp

/-- The entries reduced into `r` are those of row `r`. -/
theorem mem_row (P : ℕ → Bool) (shape r : List ℕ) (hr : r ∈ (shape.mapIdx fun i n => if P i then [0] else List.range n).sections) (x : List ℕ) :
    (x ∈ indices shape ∧ (x.mapIdx fun a i => if P a then 0 else i) = r) ↔
      x ∈ (shape.mapIdx fun i n => if P i then List.range n else [r.getD i 0]).sections := by
  induction shape generalizing P r x with
  | nil =>
    have : r = [] := by simpa using hr
    subst this
    simp only [indices, List.mapIdx_nil, List.sections, List.mem_singleton]
    constructor
    · exact fun h => h.1
    · rintro rfl; simp
  | cons n ns ih =>
    rw [List.mapIdx_cons, List.mem_sections] at hr
    cases hr with
    | cons h1 h2 =>
      rename_i r0 r'
      rw [← List.mem_sections] at h2
      simp only [List.mapIdx_cons, List.mem_sections, List.getD_cons_zero, List.getD_cons_succ]
      cases x with
      | nil => simp [indices]
      | cons x0 x' =>
        rw [List.forall₂_cons, ← List.mem_sections, ← ih (fun i => P (i + 1)) r' h2 x']
        simp only [indices, List.mem_flatMap, List.mem_range, List.mem_map, List.cons.injEq, exists_eq_right_right, List.mapIdx_cons]
        cases h0 : P 0 with
        | true =>
          simp only [h0, if_true, List.mem_singleton, List.mem_range] at h1 ⊢
          subst h1
          constructor
          · rintro ⟨⟨ha, ha'⟩, -, h⟩; exact ⟨ha, ha', h⟩
          · rintro ⟨ha, ha', h⟩; exact ⟨⟨ha, ha'⟩, rfl, h⟩
        | false =>
          simp only [h0, Bool.false_eq_true, if_false, List.mem_singleton, List.mem_range] at h1 ⊢
          constructor
          · rintro ⟨⟨ha, ha'⟩, h3, h⟩; exact ⟨h3, ha', h⟩
          · rintro ⟨rfl, ha', h⟩; exact ⟨⟨h1, ha'⟩, rfl, h⟩

theorem mem_fibre_row (axes shape r : List ℕ) (hr : r ∈ rows axes shape) (x : List ℕ) : x ∈ fibre axes shape r ↔ x ∈ row axes shape r := by
  rw [rows_eq] at hr
  rw [row_eq, ← mem_row _ _ _ hr, fibre, List.mem_filter, decide_eq_true_eq, keepIdx]

theorem foldl_min (l : List ℚ) (a : ℚ) : (l.foldl min a = a ∨ l.foldl min a ∈ l) ∧ l.foldl min a ≤ a ∧ ∀ x ∈ l, l.foldl min a ≤ x := by
  induction l generalizing a with
  | nil => simp
  | cons b l ih =>
    obtain ⟨h1, h2, h3⟩ := ih (min a b)
    simp only [List.foldl_cons, List.mem_cons]
    refine ⟨?_, h2.trans (min_le_left _ _), ?_⟩
    · rcases h1 with h | h
      · rw [h]; rcases min_choice a b with e | e <;> rw [e] <;> simp
      · exact Or.inr (Or.inr h)
    · rintro x (rfl | hx)
      · exact h2.trans (min_le_right _ _)
      · exact h3 x hx

theorem lmin_isMin (l : List ℚ) (h : l ≠ []) : IsLeastOf l (lmin l) := by
  cases l with
  | nil => exact absurd rfl h
  | cons a l =>
    obtain ⟨h1, h2, h3⟩ := foldl_min l a
    simp only [IsLeastOf, lmin, List.tail_cons, List.headD_cons, List.mem_cons]
    refine ⟨h1, ?_⟩
    rintro x (rfl | hx)
    · exact h2
    · exact h3 x hx

theorem row_ne_nil (axes shape : List ℕ) (hpos : ∀ n ∈ shape, 0 < n) (r : List ℕ) : row axes shape r ≠ [] := by
  rw [← List.length_pos_iff, row, sections_length]
  refine Nat.pos_of_ne_zero fun h => ?_
  rw [List.prod_eq_zero_iff] at h
  obtain ⟨l, hl, h0⟩ := List.mem_map.1 h
  obtain ⟨i, hi, rfl⟩ := List.mem_mapIdx.1 hl
  split at h0
  · have := hpos _ (List.getElem_mem hi); simp at h0; omega
  · simp at h0

/-- **C98 (partial).** For every shape of positive sizes, all axes and bit widths, a `QSoftmax` reports for every row: one subtraction from the maximum
per entry at the width of the input (stable only), the accumulation of the exponentials (all their bits but the narrowest), one product with the
reciprocal per entry, and, if not stable, the exponential table of every entry; all scaled by `pf` over the number of rows if a factor is given.
Missing: an unstable softmax without input quantizer, where the table is charged as if its input had no bits. -/
theorem C98_softmax_partial (q : SoftmaxBits) (axes shape : List ℕ) (hpos : ∀ n ∈ shape, 0 < n) (pf : ℤ) (hiq : q.stable = false → q.iq.isSome) :
    ∃ m : List ℕ → ℚ, (∀ r ∈ rows axes shape, IsLeastOf ((row axes shape r).map q.expOq) (m r)) ∧
      softmaxEbops q axes pf shape = (if 0 < pf then (pf : ℚ) / (rows axes shape).length else 1) *
        ((rows axes shape).map fun r =>
          (if q.stable then ((row axes shape r).map fun x => ((q.iq.getD q.expIq x : ℕ) : ℚ)).sum else 0) +
          (((row axes shape r).map q.expOq).sum - m r) +
          ((row axes shape r).map fun x => q.expOq x * q.invOq r).sum +
          (if q.stable then 0 else ((row axes shape r).map fun x => 1 / 10000 * 2 ^ (q.iq.getD q.expIq x) * q.expOq x).sum)).sum := by
  refine ⟨fun r => lmin ((fibre axes shape r).map q.expOq), fun r hr => ?_, ?_⟩
  · have hne := row_ne_nil axes shape hpos r
    have hf : (fibre axes shape r).map q.expOq ≠ [] := by
      obtain ⟨x, hx⟩ := List.exists_mem_of_ne_nil _ hne
      exact List.ne_nil_of_mem (List.mem_map_of_mem ((mem_fibre_row axes shape r hr x).2 hx))
    obtain ⟨h1, h2⟩ := lmin_isMin _ hf
    have hsame : ∀ y, y ∈ (row axes shape r).map q.expOq ↔ y ∈ (fibre axes shape r).map q.expOq := by
      intro y; simp only [List.mem_map, mem_fibre_row axes shape r hr]
    exact ⟨(hsame _).2 h1, fun x hx => h2 x ((hsame x).1 hx)⟩
  · have hr := fun f : List ℕ → List ℕ → ℚ => tsum_rows axes shape f
    have hlen : ((rows axes shape).length : ℚ) ≠ 0 := by
      have : (accumShape axes shape).prod ≠ 0 := by
        rw [Ne, List.prod_eq_zero_iff]
        intro h0
        obtain ⟨i, hi, h1⟩ := List.mem_mapIdx.1 h0
        split at h1
        · omega
        · have := hpos _ (List.getElem_mem hi); omega
      rw [rows_length] at this
      exact_mod_cast this
    unfold softmaxEbops
    simp only [rows_length]
    have e1 : tsum shape q.expOq = ((rows axes shape).map fun r => ((row axes shape r).map q.expOq).sum).sum := hr fun _ x => q.expOq x
    have e2 : tsum (accumShape axes shape) (fun j => lmin ((fibre axes shape j).map q.expOq)) =
        ((rows axes shape).map fun r => lmin ((fibre axes shape r).map q.expOq)).sum := by rw [tsum_entries, accum_rows]
    have e3 : tsum shape (fun i => q.expOq i * q.invOq (keepIdx axes i)) =
        ((rows axes shape).map fun r => ((row axes shape r).map fun x => q.expOq x * q.invOq r).sum).sum := hr fun r x => q.expOq x * q.invOq r
    have e4 : ∀ g : List ℕ → ℕ, tsum shape (fun x => (g x : ℚ)) = ((rows axes shape).map fun r => ((row axes shape r).map fun x => (g x : ℚ)).sum).sum :=
      fun g => hr fun _ x => (g x : ℚ)
    have e5 : ∀ g : List ℕ → ℕ, tsum shape (fun x => 2 ^ g x * q.expOq x) * (1 / 10000) =
        ((rows axes shape).map fun r => ((row axes shape r).map fun x => 1 / 10000 * 2 ^ g x * q.expOq x).sum).sum := by
      intro g
      rw [← hr fun _ x => 1 / 10000 * 2 ^ g x * q.expOq x, tsum, tsum, ← List.sum_map_mul_right]
      refine congrArg List.sum (List.map_congr_left fun x _ => ?_)
      ring
    have hsub : ∀ f g : List ℕ → ℚ, ((rows axes shape).map fun r => f r - g r).sum = ((rows axes shape).map f).sum - ((rows axes shape).map g).sum := by
      intro f g
      induction rows axes shape with
      | nil => simp
      | cons a l ih => simp only [List.map_cons, List.sum_cons, ih]; ring
    have hz : ((rows axes shape).map fun _ => (0 : ℚ)).sum = 0 := by simp
    have hsc : (if pf > 0 then (pf : ℚ) else ((rows axes shape).length : ℕ)) / ((rows axes shape).length : ℕ) =
        if 0 < pf then (pf : ℚ) / (rows axes shape).length else 1 := by
      split
      · rfl
      · exact div_self hlen
    rw [hsc, mul_comm]
    congr 1
    simp only [List.sum_map_add, hsub]
    cases hst : q.stable with
    | true =>
      simp only [if_true, e1, e2, e3, hz, add_zero]
      cases hq : q.iq with
      | some g => simp [e4]
      | none => simp [e4]
    | false =>
      have := hiq hst
      cases hq : q.iq with
      | none => simp [hq] at this
      | some g => simp only [Bool.false_eq_true, if_false, e1, e2, e3, hz, Option.getD_some, e5]

/-- **C98 (partial), with tables.** Without a factor the EBOPs of the layer with its tables are the sum of the row costs and one table per entry
(exponential) and per row (reciprocal): nothing is left out or counted twice. -/
theorem C98_tables_partial (q : SoftmaxBits) (axes shape : List ℕ) (pf : ℤ) (hst : q.stable = true) :
    softmaxTotal q axes pf shape = softmaxEbops q axes pf shape + ((rows axes shape).map fun r =>
      ((row axes shape r).map fun x => 1 / 10000 * 2 ^ q.expIq x * q.expOq x).sum + 1 / 10000 * 2 ^ q.invIq r * q.invOq r).sum := by
  unfold softmaxTotal lutEbops
  rw [hst, if_pos rfl, List.sum_map_add, add_assoc]
  congr 2
  · rw [← tsum_rows axes shape fun _ x => 1 / 10000 * 2 ^ q.expIq x * q.expOq x, tsum, tsum, ← List.sum_map_mul_right]
    refine congrArg List.sum (List.map_congr_left fun x _ => ?_)
    ring
  · rw [tsum_entries, accum_rows, ← List.sum_map_mul_right]
    refine congrArg List.sum (List.map_congr_left fun x _ => ?_)
    ring

/-- **C98 is violated by a parallelization factor**: the tables are charged for every row whatever the factor.  Whenever they cost something, a
softmax that processes fewer than all rows in parallel reports more than that share of the cost of all rows. -/
theorem C98_factor_violated (q : SoftmaxBits) (axes shape : List ℕ) (hst : q.stable = true)
    (pf : ℤ) (h0 : 0 < pf) (h1 : (pf : ℚ) < (rows axes shape).length) (ht : 0 < lutEbops shape q.expIq q.expOq + lutEbops (accumShape axes shape) q.invIq q.invOq) :
    (pf : ℚ) / (rows axes shape).length * softmaxTotal q axes (-1) shape < softmaxTotal q axes pf shape := by
  have hp : (0 : ℚ) < pf := by exact_mod_cast h0
  have hr : (0 : ℚ) < (rows axes shape).length := hp.trans h1
  have e : softmaxEbops q axes pf shape = (pf : ℚ) / (rows axes shape).length * softmaxEbops q axes (-1) shape := by
    unfold softmaxEbops
    simp only [rows_length]
    rw [if_pos (show pf > 0 from h0), if_neg (show ¬((-1 : ℤ) > 0) by omega), div_self hr.ne']
    ring
  unfold softmaxTotal
  rw [e, hst, if_pos rfl]
  have : (pf : ℚ) / (rows axes shape).length < 1 := (div_lt_one hr).2 h1
  nlinarith

/-- Two rows of three entries. -/
def exSoft : SoftmaxBits :=
  ⟨true, some fun x => 2 + x.getD 2 0, fun _ => 5, fun x => 4 + x.getD 2 0, fun _ => 6, fun r => 3 + r.getD 1 0⟩

example : (∀ n ∈ [1, 2, 3], 0 < n) ∧ softmaxEbops exSoft [2] (-1) [1, 2, 3] = 18 + (30 - 8) + (15 * 3 + 15 * 4) ∧
    softmaxEbops exSoft [2] 1 [1, 2, 3] = 145 / 2 ∧ rows [2] [1, 2, 3] = [[0, 0, 0], [0, 1, 0]] ∧
    row [2] [1, 2, 3] [0, 1, 0] = [[0, 1, 0], [0, 1, 1], [0, 1, 2]] := by
  refine ⟨by simp, ?_, ?_, ?_, ?_⟩ <;> decide +kernel

/-- The hypotheses of the violation. -/
example : ((1 : ℤ) : ℚ) < (rows [2] [1, 2, 3]).length ∧ 0 < lutEbops [1, 2, 3] exSoft.expIq exSoft.expOq +
    lutEbops (accumShape [2] [1, 2, 3]) exSoft.invIq exSoft.invOq := by
  constructor <;> decide +kernel

/-! ## Spiking layers -/

namespace Spec

/-- Extra bits a sum of `T` numbers needs: the least `e` with `T ≤ 2^e`. -/
def IsExtra (T e : ℕ) : Prop := T ≤ 2 ^ e ∧ ∀ e', T ≤ 2 ^ e' → e ≤ e'

/-- Cost of one unit in one time step: leak, addition of the input to the membrane (0.65 per bit of the wider one), comparison with the threshold
(0.65 per bit), scaling of the spike, reset. -/
def spikeStep (mem inp factor : ℚ) (leak : Option ℚ) (reset : SpikeReset) : ℚ :=
  (match leak with | some l => mem * l | none => 0) + 65 / 100 * max mem inp + 65 / 100 * mem + factor +
    (match reset with | .subtract => 65 / 100 * mem | .zero => mem | .none => 0)

end Spec

/-- **C99 (partial).** A spiking layer (integrate-and-fire or leaky, any reset) with an input quantizer reports the cost of every unit in every
time step, or in `pf` of them if a factor is given; the membrane has the bits of the state quantizer, or else those of the input and as many more as
the sum over the sequence needs.  Missing: without an input quantizer, where 0 is reported (`C99_no_iq_violated`). -/
theorem C99_spiking_partial (c : SpikeBits) (units T : ℕ) (pf : ℤ) (i : ℕ → ℚ) (hiq : c.iq = some i) :
    ∃ e, IsExtra T e ∧
      spikeEbops c units T pf = (if pf = -1 then (T : ℚ) else pf) *
        ((List.range units).map fun u =>
          spikeStep (match c.sq with | some s => s u | none => i u + e) (i u) (c.factor u) (c.leak.map (· u)) c.reset).sum := by
  refine ⟨Nat.clog 2 (max T 1), ⟨(le_max_left T 1).trans (Nat.le_pow_clog (by omega) _), fun e' he => ?_⟩, ?_⟩
  · refine Nat.clog_le_of_le_pow ?_
    exact max_le he Nat.one_le_two_pow
  · unfold spikeEbops
    rw [mul_comm]
    congr 1
    have hmem : ∀ u, membraneBits c T u = (match c.sq with | some s => s u | none => i u + (Nat.clog 2 (max T 1) : ℕ)) := by
      intro u; unfold membraneBits; rw [hiq]; cases c.sq <;> rfl
    have hmin : ∀ a b : ℚ, a + b - min a b = max a b := fun a b => by
      have := min_add_max a b; linarith
    unfold spikeCellEbops
    simp only [hiq]
    have hL : ∀ (f : ℕ → ℚ) (k : ℚ), usum units f * k = usum units fun u => k * f u := by
      intro f k; unfold usum; rw [← List.sum_map_mul_right]
      exact congrArg List.sum (List.map_congr_left fun u _ => mul_comm _ _)
    have hA : ∀ f g : ℕ → ℚ, usum units f + usum units g = usum units fun u => f u + g u := by
      intro f g; unfold usum; rw [List.sum_map_add]
    show _ = usum units _
    unfold spikeStep
    simp only [← hmem]
    cases hl : c.leak <;> cases hr : c.reset <;>
    · simp only [addEbops, fireResetEbops, hr, hmin, hL, hA, Option.map_some, Option.map_none]
      unfold usum
      refine congrArg List.sum (List.map_congr_left fun u _ => ?_)
      ring

/-- **C99 is violated without an input quantizer**: 0 is reported for every layer.  With a state quantizer of positive widths the membrane is still
added up, compared, scaled and reset, at positive cost, for inputs of every width. -/
theorem C99_no_iq_violated (c : SpikeBits) (h : c.iq = none) (s : ℕ → ℚ) (hs : ∀ u, 0 < s u) (hf : ∀ u, 0 ≤ c.factor u)
    (hl : ∀ l ∈ c.leak, ∀ u, 0 ≤ l u) (inp : ℕ → ℚ) (units T : ℕ) (hu : 0 < units) (hT : 0 < T) (pf : ℤ) :
    spikeEbops c units T pf = 0 ∧
    0 < (T : ℚ) * ((List.range units).map fun u => spikeStep (s u) (inp u) (c.factor u) (c.leak.map (· u)) c.reset).sum := by
  refine ⟨by simp [spikeEbops, spikeCellEbops, h], mul_pos (by exact_mod_cast hT) ?_⟩
  have hpos : ∀ u, 0 < spikeStep (s u) (inp u) (c.factor u) (c.leak.map (· u)) c.reset := by
    intro u
    have h1 := hs u
    have h2 : s u ≤ max (s u) (inp u) := le_max_left _ _
    have h3 := hf u
    have h4 : 0 ≤ (match c.leak.map (· u) with | some l => s u * l | none => 0) := by
      cases hc : c.leak with
      | none => simp
      | some l => simpa using mul_nonneg h1.le (hl l (by simp [hc]) u)
    have h5 : 0 ≤ (match c.reset with | .subtract => 65 / 100 * s u | .zero => s u | .none => 0) := by
      cases c.reset <;> simp <;> linarith
    unfold spikeStep
    linarith
  obtain ⟨k, rfl⟩ := Nat.exists_eq_succ_of_ne_zero hu.ne'
  rw [List.range_succ, List.map_append, List.sum_append]
  have : 0 ≤ ((List.range k).map fun u => spikeStep (s u) (inp u) (c.factor u) (c.leak.map (· u)) c.reset).sum :=
    List.sum_nonneg (by intro y hy; obtain ⟨u, _, rfl⟩ := List.mem_map.1 hy; exact (hpos u).le)
  have h2 := hpos k
  simp only [List.map_cons, List.map_nil, List.sum_cons, List.sum_nil]
  linarith

/-- A leaky cell with two units over five steps. -/
example : spikeEbops ⟨some fun u => 3 + u, none, fun _ => 2, some fun _ => 4, .subtract⟩ 2 5 (-1) =
    5 * ((6 * 4 + 7 * 4) + 65 / 100 * 13 + 65 / 100 * 13 + 4 + 65 / 100 * 13) := by decide +kernel

end HGQ
