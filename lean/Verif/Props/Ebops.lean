import Verif.Model.Ebops
import Mathlib.Algebra.BigOperators.Ring.Finset
import Mathlib.Algebra.Order.BigOperators.Group.Finset
import Mathlib.Algebra.Order.BigOperators.Ring.Finset
import Mathlib.Tactic

/-!
# C37 (totals), C38 (dense EBOPs)
-/
namespace HGQ
open Finset

/-! ## C37 -/

namespace Spec

/-- The total cost of a model: the sum of the costs stored in all distinct layers. -/
def total (all : List ENode) : ℕ := (all.map (fun n => n.own.getD 0)).sum

/-- No layer in the list has EBOPs enabled. -/
def Silent (l : List ENode) : Prop := ∀ n ∈ l, n.own = none

/-- The models for which the three totals are claimed to agree: at top level only layers of the kinds `base`, `softmax`, `mha`
and Keras layers without HGQ2 layers inside (no nested model, wrapper, linformer or SALT attention); EBOPs switched on or off
consistently inside an attention layer. -/
inductive Flat : ENode → Prop
  | base (i o s) : Silent (ENode.allL s) → Flat (.mk i .base o s)
  | softmax (i o e v) : Flat e → Flat v → e.kind = .base → v.kind = .base → Flat (.mk i .softmax (some o) [e, v])
  | mhaOff (i s) : Silent (ENode.allL s) → Flat (.mk i .mha none s)
  | mhaOn (i o q k v s w) : Flat q → Flat k → Flat v → Flat s → Flat w → Flat (.mk i .mha (some o) [q, k, v, s, w])

/-- Top-level layer of such a model. -/
def FlatTop (n : ENode) : Prop := Flat n ∨ (n.kind = .keras ∧ Silent n.all)

end Spec

open Spec

theorem total_append (a b : List ENode) : total (a ++ b) = total a + total b := by simp [total]
theorem total_silent {l : List ENode} (h : Silent l) : total l = 0 := by
  unfold total; apply List.sum_eq_zero; intro x hx
  obtain ⟨n, hn, rfl⟩ := List.mem_map.1 hx
  simp [h n hn]

theorem total_cons (n : ENode) (l : List ENode) : total (n :: l) = n.own.getD 0 + total l := by simp [total]

theorem flat_ebops {n : ENode} (h : Flat n) : n.ebops = some (total n.all) := by
  induction h with
  | base i o s hs => simp [ENode.ebops, ENode.all, total_cons, total_silent hs, ENode.own]
  | softmax i o e v _ _ _ _ he hv =>
    simp [ENode.ebops, he, hv, ENode.all, ENode.allL, total_cons, total_append, ENode.own, total]; ring
  | mhaOff i s hs => simp [ENode.ebops, ENode.all, total_cons, total_silent hs, ENode.own]
  | mhaOn i o q k v s w _ _ _ _ _ hq hk hv hs hw =>
    simp [ENode.ebops, hq, hk, hv, hs, hw, ENode.all, ENode.allL, total_cons, ENode.own, total]; ring

theorem flat_off {n : ENode} (h : Flat n) (ho : n.own = none) : total n.all = 0 := by
  cases h with
  | base i o s hs => simp only [ENode.own] at ho; subst ho; simp [ENode.all, total_cons, total_silent hs, ENode.own]
  | softmax => simp [ENode.own] at ho
  | mhaOff i s hs => simp [ENode.all, total_cons, total_silent hs, ENode.own]
  | mhaOn => simp [ENode.own] at ho

theorem flat_kind {n : ENode} (h : Flat n) : n.kind ≠ .keras := by cases h <;> simp [ENode.kind]

theorem mem_all_self (n : ENode) : n ∈ n.all := by cases n; simp [ENode.all]

theorem sumOpt_top (top : List ENode) (p : ENode → Bool) (h : ∀ n ∈ top, (p n = true → n.ebops = some (total n.all)) ∧
    (p n = false → total n.all = 0)) : sumOpt ((top.filter p).map ENode.ebops) = some (total (ENode.allL top)) := by
  induction top with
  | nil => rfl
  | cons n ns ih =>
    have ih := ih (fun m hm => h m (List.mem_cons_of_mem _ hm))
    obtain ⟨h1, h2⟩ := h n List.mem_cons_self
    by_cases hp : p n = true
    · simp [List.filter_cons_of_pos hp, sumOpt, h1 hp, ih, ENode.allL, total_append]
    · rw [Bool.not_eq_true] at hp
      simp [List.filter_cons, hp, ih, ENode.allL, total_append, h2 hp]

/-- **C37 (partial).** For every model built from flat layers whose layer objects are pairwise distinct, the total reported by
`FreeEBOPs`/`EarlyStoppingWithEbopsThres`, by `BetaPID` and by `trace_minmax` is the same number: the sum of all layer costs.
Missing: nested models and wrappers, Linformer and SALT attention, a top-level softmax with EBOPs disabled — see the
`_violated` theorems. -/
theorem C37_totals_partial (top : List ENode) (hf : ∀ n ∈ top, FlatTop n)
    (hid : ((ENode.allL top).map ENode.id).Nodup) :
    freeEbops top = total (ENode.allL top) ∧ pidEbops top = some (total (ENode.allL top)) ∧
      traceEbops top = some (total (ENode.allL top)) := by
  refine ⟨?_, ?_, ?_⟩
  · unfold freeEbops flattenLayers total
    rw [List.pwFilter_eq_self.2]
    rw [List.Nodup, List.pairwise_map] at hid
    exact hid
  · apply sumOpt_top
    intro n hn
    rcases hf n hn with h | ⟨h, hs⟩
    · exact ⟨fun _ => flat_ebops h, fun hp => absurd (of_decide_eq_false hp) (by simpa using flat_kind h)⟩
    · exact ⟨fun hp => by simp [h] at hp, fun _ => total_silent hs⟩
  · apply sumOpt_top
    intro n hn
    rcases hf n hn with h | ⟨h, hs⟩
    · refine ⟨fun _ => flat_ebops h, fun hp => flat_off h (by simpa using hp)⟩
    · refine ⟨fun hp => ?_, fun _ => total_silent hs⟩
      have := hs n (mem_all_self n); simp [this] at hp

/-- The claim is not vacuous: a model with a dense layer, a Keras activation and an attention layer. -/
example : ∃ top : List ENode, (∀ n ∈ top, FlatTop n) ∧ ((ENode.allL top).map ENode.id).Nodup ∧ freeEbops top = 129 := by
  let b : ℕ → ℕ → ENode := fun i o => .mk i .base (some o) []
  refine ⟨[b 0 100, .mk 1 .keras none [], .mk 2 .mha (some 7) [b 3 1, b 4 2, b 5 3, .mk 6 .softmax (some 4) [b 7 5, b 8 6], b 9 1]],
    ?_, ?_, ?_⟩
  · have hb : ∀ i o, Flat (b i o) := fun i o => .base _ _ _ (by intro n hn; simp [ENode.allL] at hn)
    intro n hn
    simp only [List.mem_cons, List.not_mem_nil, or_false] at hn
    rcases hn with rfl | rfl | rfl
    · exact .inl (hb _ _)
    · exact .inr ⟨rfl, by intro n hn; simp [ENode.all, ENode.allL] at hn; simp [hn, ENode.own]⟩
    · exact .inl (.mhaOn _ _ _ _ _ _ _ (hb _ _) (hb _ _) (hb _ _) (.softmax _ _ _ _ (hb _ _) (hb _ _) rfl rfl) (hb _ _))
  · simp [b, ENode.allL, ENode.all, ENode.id]
  · simp [freeEbops, flattenLayers, b, ENode.allL, ENode.all, ENode.own, ENode.id, List.pwFilter]

/-- **C37 violated**, nested models and wrappers: the cost of an HGQ2 layer inside a Keras model used as a layer is counted by
`FreeEBOPs` but neither by `BetaPID` nor by `trace_minmax`. -/
theorem C37_nested_violated (i j e : ℕ) (hij : i ≠ j) :
    let top := [ENode.mk i .keras none [.mk j .base (some e) []]]
    freeEbops top = e ∧ pidEbops top = some 0 ∧ traceEbops top = some 0 := by
  refine ⟨?_, rfl, rfl⟩
  simp [freeEbops, flattenLayers, ENode.allL, ENode.all, ENode.own, ENode.id, List.pwFilter, hij]

/-- **C37 violated**, Linformer attention: `FreeEBOPs` counts all seven sub-layers, `BetaPID` and `trace_minmax` only the
two sequence projections and the layer's own cost. -/
theorem C37_linformer_violated (o q k v s w lk lv : ℕ) :
    let b : ℕ → ℕ → ENode := fun i o => .mk i .base (some o) []
    let top := [ENode.mk 0 .linformer (some o) [b 1 q, b 2 k, b 3 v, b 4 s, b 5 w, b 6 lk, b 7 lv]]
    freeEbops top = o + (q + k + v + s + w) + lk + lv ∧ pidEbops top = some (lk + lv + o) ∧
      traceEbops top = some (lk + lv + o) := by
  refine ⟨?_, rfl, rfl⟩
  simp [freeEbops, flattenLayers, ENode.allL, ENode.all, ENode.own, ENode.id, List.pwFilter]; ring

/-- **C37 violated**, shared projection (`share_kv_proj=True`): one projection object is counted once by `FreeEBOPs` and
twice by `BetaPID` and `trace_minmax`. -/
theorem C37_shared_violated (o l : ℕ) :
    let z : ℕ → ENode := fun i => .mk i .base (some 0) []
    let b : ENode := .mk 6 .base (some l) []
    let top := [ENode.mk 0 .linformer (some o) [z 1, z 2, z 3, z 4, z 5, b, b]]
    freeEbops top = o + l ∧ pidEbops top = some (o + 2 * l) := by
  constructor
  · simp [freeEbops, flattenLayers, ENode.allL, ENode.all, ENode.own, ENode.id, List.pwFilter]
  · simp [pidEbops, sumOpt, ENode.ebops, ENode.kind]; ring

/-- **C37 violated**, softmax with EBOPs disabled: `BetaPID` raises where the others report a total. -/
theorem C37_softmax_off_violated (i j k : ℕ) :
    let top := [ENode.mk i .softmax none [.mk j .base none [], .mk k .base none []]]
    freeEbops top = 0 ∧ pidEbops top = none ∧ traceEbops top = some 0 := by
  refine ⟨?_, by simp [pidEbops, ENode.kind, sumOpt, ENode.ebops], rfl⟩
  have : ∀ n ∈ flattenLayers [ENode.mk i .softmax none [.mk j .base none [], .mk k .base none []]], n.own = none := by
    intro n hn
    have := List.pwFilter_subset _ hn
    simp [ENode.allL, ENode.all] at this
    rcases this with rfl | rfl | rfl <;> rfl
  unfold freeEbops
  apply List.sum_eq_zero
  intro x hx
  obtain ⟨n, hn, rfl⟩ := List.mem_map.1 hx
  simp [this n hn]

/-! ## C38 -/

namespace Spec

/-- The cost of a dense layer by definition: every one of the `P·n·m` products executed costs (input bits)·(kernel bits),
every one of the `P·m` bias additions the bits of the bias. -/
def denseCost {P n m : ℕ} (bi : Fin P → Fin n → ℚ) (bk : Fin n → Fin m → ℚ) (bb : Option (Fin m → ℚ)) : ℚ :=
  (∑ t : Fin P × Fin n × Fin m, bi t.1 t.2.1 * bk t.2.1 t.2.2) +
    ∑ t : Fin P × Fin m, (match bb with | some bb => bb t.2 | none => 0)

/-- The cost of `einsum("I,K->O")`: for each output element the products summed into it. -/
def einsumCost {A O : Type} [Fintype A] [Fintype O] [DecidableEq O] (πO : A → O) (bi bk : A → ℚ) : ℚ :=
  ∑ o, ∑ a ∈ univ.filter (fun a => πO a = o), bi a * bk a

end Spec

theorem mean_mul {m : ℕ} (hm : 0 < m) (v : Fin m → ℚ) (P : ℕ) : meanV v * (P * m : ℕ) = ∑ t : Fin P × Fin m, v t.2 := by
  have : (m : ℚ) ≠ 0 := by positivity
  rw [Fintype.sum_prod_type]; simp only [sum_const, card_univ, Fintype.card_fin, nsmul_eq_mul]
  unfold meanV; push_cast; field_simp

/-- **C38.** The EBOPs of `QDense` with the default `parallelization_factor` are the sum over all executed products and
additions; for any other factor they are that sum scaled by `factor / positions`; they are non-negative and monotone in
every bit-width.  `QEinsumDense` likewise, for every einsum (labels `A`, output projection `πO`): the sum over all products
of the contraction plus, for each output element `o`, the bits of the bias entry `πB o` added to it (the bias being broadcast:
every entry is used `c` times). -/
theorem C38_dense_ebops {P n m : ℕ} (hP : 0 < P) (hm : 0 < m) :
    (∀ (bi : Fin P → Fin n → ℚ) bk (bb : Option (Fin m → ℚ)),
      denseEbops bi bk bb (-1) = denseCost bi bk bb ∧
      (∀ pf, 0 ≤ pf → denseEbops bi bk bb pf = denseCost bi bk bb * pf / P)) ∧
    (∀ (bi bi' : Fin P → Fin n → ℚ) bk bk' (bb bb' : Fin m → ℚ) (pf : ℚ), (∀ p i, 0 ≤ bi p i ∧ bi p i ≤ bi' p i) →
      (∀ i j, 0 ≤ bk i j ∧ bk i j ≤ bk' i j) → (∀ j, 0 ≤ bb j ∧ bb j ≤ bb' j) →
      0 ≤ denseEbops bi bk (some bb) pf ∧ denseEbops bi bk (some bb) pf ≤ denseEbops bi' bk' (some bb') pf ∧
      denseEbops bi bk none pf ≤ denseEbops bi' bk' (some bb') pf) ∧
    (∀ {A O : Type} [Fintype A] [Fintype O] [DecidableEq O] (πO : A → O) (bi bk : A → ℚ) (bb : Fin m → ℚ)
      (πB : O → Fin m) (c : ℕ) (npar : ℕ), (∀ j, (univ.filter (fun o => πB o = j)).card = c) → 0 < npar → einsumEbops bi bk (none : Option (Fin m → ℚ)) (Fintype.card O) (-1) npar = einsumCost πO bi bk ∧
      einsumEbops bi bk (some bb) (Fintype.card O) (-1) npar = einsumCost πO bi bk + ∑ o, bb (πB o) ∧
      ∀ (pf : ℚ) (b : Option (Fin m → ℚ)), 0 ≤ pf → einsumEbops bi bk b (Fintype.card O) pf npar
        = einsumEbops bi bk b (Fintype.card O) (-1) npar * pf / npar) := by
  have hP' : (0 : ℚ) < P := by exact_mod_cast hP
  have key : ∀ (bi : Fin P → Fin n → ℚ) bk (bb : Option (Fin m → ℚ)) pf,
      denseEbops bi bk bb pf = denseCost bi bk bb * resolvePf pf P / P := by
    intro bi bk bb pf
    unfold denseEbops denseCost
    have h1 : (∑ p, ∑ j, ∑ i, bi p i * bk i j) = ∑ t : Fin P × Fin n × Fin m, bi t.1 t.2.1 * bk t.2.1 t.2.2 := by
      rw [Fintype.sum_prod_type]; refine sum_congr rfl fun p _ => ?_
      rw [Fintype.sum_prod_type, sum_comm]
    cases bb with
    | none => simp [h1]
    | some bb => simp only [h1, mean_mul hm]
  have hpf : ∀ pf, 0 ≤ resolvePf pf P := by
    intro pf; unfold resolvePf; split
    · exact hP'.le
    · linarith
  refine ⟨fun bi bk bb => ⟨?_, fun pf hp => ?_⟩, ?_, ?_⟩
  · rw [key]; simp only [resolvePf, show (-1 : ℚ) < 0 by norm_num, if_true]; field_simp
  · rw [key]; simp [resolvePf, not_lt.2 hp]
  · intro bi bi' bk bk' bb bb' pf h1 h2 h3
    simp only [key]
    have c0 : 0 ≤ denseCost bi bk (none) := by
      unfold denseCost; simp only [sum_const_zero, add_zero]
      exact sum_nonneg fun t _ => mul_nonneg (h1 _ _).1 (h2 _ _).1
    have c1 : denseCost bi bk none ≤ denseCost bi bk (some bb) := by
      unfold denseCost; simp only [sum_const_zero, add_zero]
      exact le_add_of_nonneg_right (sum_nonneg fun t _ => (h3 _).1)
    have c2 : denseCost bi bk (some bb) ≤ denseCost bi' bk' (some bb') := by
      unfold denseCost
      refine add_le_add (sum_le_sum fun t _ => ?_) (sum_le_sum fun t _ => (h3 _).2)
      exact mul_le_mul (h1 _ _).2 (h2 _ _).2 (h2 _ _).1 ((h1 _ _).1.trans (h1 _ _).2)
    have mono : ∀ {x y : ℚ}, x ≤ y → x * resolvePf pf P / P ≤ y * resolvePf pf P / P := fun h =>
      div_le_div_of_nonneg_right (mul_le_mul_of_nonneg_right h (hpf pf)) hP'.le
    exact ⟨div_nonneg (mul_nonneg (c0.trans c1) (hpf pf)) hP'.le, mono c2, mono (c1.trans c2)⟩
  · intro A O _ _ _ πO bi bk bb πB c npar hc hn
    have hn' : (0 : ℚ) < npar := by exact_mod_cast hn
    have e : einsumCost πO bi bk = ∑ a, bi a * bk a := by
      unfold einsumCost
      exact sum_fiberwise univ πO fun a => bi a * bk a
    have hcard : Fintype.card O = m * c := by
      rw [← card_univ, card_eq_sum_card_fiberwise (f := πB) (t := univ) (fun _ _ => mem_univ _)]
      simp [hc]
    have hb : ∑ o, bb (πB o) = meanV bb * (Fintype.card O : ℕ) := by
      rw [← sum_fiberwise univ πB (fun o => bb (πB o)), hcard]
      have : ∀ j, ∑ o ∈ univ.filter (fun o => πB o = j), bb (πB o) = c * bb j := by
        intro j
        rw [sum_congr rfl (g := fun _ => bb j) (fun o ho => by rw [(mem_filter.1 ho).2])]
        simp [hc]
      simp only [this, ← mul_sum]
      have : (m : ℚ) ≠ 0 := by positivity
      unfold meanV; push_cast; field_simp
    refine ⟨?_, ?_, ?_⟩
    · rw [e]; simp only [einsumEbops, resolvePf, show (-1 : ℚ) < 0 by norm_num, if_true]; field_simp
    · rw [e, hb]; simp only [einsumEbops, resolvePf, show (-1 : ℚ) < 0 by norm_num, if_true]
      field_simp
    · intro pf b hp
      simp only [einsumEbops, resolvePf, show (-1 : ℚ) < 0 by norm_num, if_true, not_lt.2 hp, if_false]
      cases b <;> · simp only []; field_simp

/-- Concrete dense layer: 2 positions, 2 inputs, 1 unit; 3·4+5·2 per position plus bias 6. -/
example : denseEbops (P := 2) (fun _ i => ![3, 5] i) (fun i (_ : Fin 1) => ![4, 2] i) (some fun _ => 6) (-1) = 56 := by
  decide +kernel

end HGQ
