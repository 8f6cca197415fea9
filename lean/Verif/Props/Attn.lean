import Verif.Model.Attn
import Verif.Props.Replay

/-!
# C77 (attention axes), C78 (attention EBOPs), C79 (attention masks), C80 (traced attention)
-/
namespace HGQ
open Finset

namespace Spec

/-- The index vectors of a tensor with extents `d`. -/
def box {r : ℕ} (d : Fin r → ℕ) : Finset (Fin r → ℕ) := Fintype.piFinset fun i => range (d i)

/-- Bit operations of the products executed for the scores: entry `q` of the projected query meets entry `k` of the projected key iff
they agree on every axis that is not attended. -/
def scoreProducts {r : ℕ} (A : List (Fin r)) (qd kd : Fin r → ℕ) (bq bk : List ℕ → ℚ) : ℚ :=
  ∑ q ∈ box qd, ∑ k ∈ (box kd).filter (fun k => ∀ i, i ∉ A → q i = k i), bq (List.ofFn q) * bk (List.ofFn k)

/-- Bit operations of the products executed for the output: entry `v` of the projected value is multiplied once for each query position
`p` on the attended axes, by the score of that position towards the position of `v`; scores are indexed by the other axes (except the
last), then query position, then value position. -/
def outputProducts {r : ℕ} (A : List (Fin r)) (qd vd : Fin r → ℕ) (ba bv : List ℕ → ℚ) : ℚ :=
  ∑ v ∈ box vd, ∑ p ∈ box (fun i => if i ∈ A then qd i else 1),
    ba (((List.finRange r).filter fun i => decide (i ∉ A ∧ (i : ℕ) + 1 < r)).map v ++ A.map p ++ A.map v) * bv (List.ofFn v)

/-- May query position `q` attend to value position `v`?  Only if every given mask allows it. -/
def allowed (m : MaskArgs) (q v : ℕ) : Prop :=
  (∀ f, m.query = some f → f q = true) ∧ (∀ f, m.value = some f → f v = true) ∧ (∀ f, m.key = some f → f v = true) ∧
  (m.causal = true → v ≤ q) ∧ (∀ a, m.attention = some a → a.at q v = true)

end Spec

open Spec

/-! ## C77 -/

theorem length_batch {r : ℕ} (A : List (Fin r)) (hA : A.Nodup) (hr : ∀ i ∈ A, (i : ℕ) + 1 < r) (h0 : 0 < r) :
    (attnBatch r A).length + A.length + 1 = r := by
  classical
  have h1 : (attnBatch r A).toFinset = univ \ (A.toFinset ∪ {⟨r - 1, by omega⟩}) := by
    ext i
    simp only [attnBatch, List.mem_toFinset, List.mem_filter, List.mem_finRange, true_and, Bool.and_eq_true, decide_eq_true_eq, mem_sdiff,
      mem_univ, mem_union, mem_singleton, not_or, Fin.ext_iff]
    constructor
    · rintro ⟨a, b⟩; exact ⟨a, by omega⟩
    · rintro ⟨a, b⟩; exact ⟨a, by have := i.2; omega⟩
  have h2 : (attnBatch r A).Nodup := (List.nodup_finRange r).filter _
  have h3 := List.toFinset_card_of_nodup h2
  have h4 := List.toFinset_card_of_nodup hA
  have h5 : (A.toFinset ∪ {⟨r - 1, by omega⟩}).card = A.length + 1 := by
    rw [card_union_of_disjoint, h4, card_singleton]
    rw [disjoint_singleton_right, List.mem_toFinset]
    intro h
    have := hr _ h
    simp only at this
    omega
  rw [h1, card_sdiff_of_subset (subset_univ _), card_univ, Fintype.card_fin, h5] at h3
  have h6 : A.length + 1 ≤ r := by rw [← h5]; simpa using card_le_univ (A.toFinset ∪ {⟨r - 1, by omega⟩})
  omega

/-- Rank of the scores: heads and batch axes that are not attended, and two axes for each attended one. -/
theorem length_product {r : ℕ} (A : List (Fin r)) (hA : A.Nodup) (hr : ∀ i ∈ A, (i : ℕ) + 1 < r) (h0 : 0 < r) :
    (attnProduct r A).length + 1 = r + A.length := by
  have := length_batch A hA hr h0
  simp only [attnProduct, List.length_append, List.length_map]
  omega

/-- **C77 (partial).** For inputs with `n` sequence axes (rank `n + 3` after the projection) and every list of distinct sequence axes:
the attention output can be computed exactly if all sequence axes are attended.  Missing: the strict subsets that Keras supports,
where it is false. -/
theorem C77_axes_partial (n : ℕ) (A : List (Fin (n + 3))) (hA : A.Nodup) (hs : ∀ i ∈ A, 1 ≤ (i : ℕ) ∧ (i : ℕ) ≤ n) :
    combineFits (n + 3) A n ↔ ∀ i : Fin (n + 3), 1 ≤ (i : ℕ) → (i : ℕ) ≤ n → i ∈ A := by
  classical
  have hl := length_product A hA (fun i hi => by have := hs i hi; omega) (by omega)
  have hcard : (univ.filter fun i : Fin (n + 3) => 1 ≤ (i : ℕ) ∧ (i : ℕ) ≤ n).card = n := by
    have : (univ.filter fun i : Fin (n + 3) => 1 ≤ (i : ℕ) ∧ (i : ℕ) ≤ n).map Fin.valEmbedding = Finset.Icc 1 n := by
      ext a
      simp only [mem_map, mem_filter, mem_univ, true_and, Fin.valEmbedding_apply, mem_Icc]
      constructor
      · rintro ⟨i, hi, rfl⟩; exact hi
      · intro h; exact ⟨⟨a, by omega⟩, h, rfl⟩
    rw [← card_map Fin.valEmbedding, this, Nat.card_Icc]; omega
  have hsub : A.toFinset ⊆ univ.filter fun i : Fin (n + 3) => 1 ≤ (i : ℕ) ∧ (i : ℕ) ≤ n := by
    intro i hi; simpa using hs i (by simpa using hi)
  have hcA := List.toFinset_card_of_nodup hA
  have hle := card_le_card hsub
  have hfit : combineFits (n + 3) A n ↔ A.length = n := by unfold combineFits; omega
  rw [hfit]
  constructor
  · intro h i h1 h2
    have := eq_of_subset_of_card_le hsub (by omega)
    have hi : i ∈ univ.filter fun i : Fin (n + 3) => 1 ≤ (i : ℕ) ∧ (i : ℕ) ≤ n := by simpa using ⟨h1, h2⟩
    rw [← this] at hi; simpa using hi
  · intro h
    have : univ.filter (fun i : Fin (n + 3) => 1 ≤ (i : ℕ) ∧ (i : ℕ) ≤ n) ⊆ A.toFinset := by
      intro i hi
      simp only [mem_filter, mem_univ, true_and] at hi
      simpa using h i hi.1 hi.2
    have := card_le_card this
    omega

example : combineFits 5 [1, 2] 2 ∧ ¬ combineFits 5 [1] 2 := by
  constructor
  · exact (C77_axes_partial 2 [1, 2] (by decide) (by decide)).2 (by decide)
  · intro h; exact absurd ((C77_axes_partial 2 [1] (by decide) (by decide)).1 h) (by decide)

theorem range_filter_mid (n : ℕ) : (List.range (n + 3)).filter (fun i => decide (1 ≤ i) && decide (i + 2 < n + 3)) = (List.range n).map (· + 1) := by
  rw [show n + 3 = (n + 2) + 1 from rfl, List.range_succ_eq_map, List.filter_cons_of_neg (by simp), List.filter_map]
  rw [show n + 2 = (n + 1) + 1 from rfl, List.range_succ, List.range_succ, List.append_assoc, List.filter_append]
  have h1 : (List.range n).filter ((fun i => decide (1 ≤ i) && decide (i + 2 < n + 1 + 1 + 1)) ∘ Nat.succ) = List.range n := by
    rw [List.filter_eq_self]; intro a ha; simp at ha; simp; omega
  rw [h1]; simp

theorem range_filter_ends (n : ℕ) (p : ℕ → Bool) (h0 : p 0 = true) (hm : ∀ i, i < n → p (i + 1) = false) (h1 : p (n + 1) = true) (h2 : p (n + 2) = false) :
    (List.range (n + 3)).filter p = [0, n + 1] := by
  rw [show n + 3 = (n + 2) + 1 from rfl, List.range_succ_eq_map, List.filter_cons_of_pos h0, List.filter_map]
  rw [show n + 2 = (n + 1) + 1 from rfl, List.range_succ, List.range_succ, List.append_assoc, List.filter_append]
  have e1 : (List.range n).filter (p ∘ Nat.succ) = [] := by
    rw [List.filter_eq_nil_iff]; intro a ha; simp at ha; simp [hm a ha]
  rw [e1]; simp [List.filter_cons, h1, h2]

theorem mem_default (n : ℕ) (i : Fin (n + 3)) : i ∈ defaultAxes (n + 3) ↔ 1 ≤ (i : ℕ) ∧ (i : ℕ) ≤ n := by
  simp [defaultAxes]

theorem default_vals {V : Type} (n : ℕ) (f : ℕ → V) : (defaultAxes (n + 3)).map (fun i : Fin (n + 3) => f i) = (List.range n).map fun i => f (i + 1) := by
  have : (defaultAxes (n + 3)).map (fun i : Fin (n + 3) => (i : ℕ)) = (List.range n).map (· + 1) := by
    rw [← range_filter_mid, ← List.map_coe_finRange_eq_range, List.filter_map]; rfl
  rw [show (defaultAxes (n + 3)).map (fun i : Fin (n + 3) => f i) = ((defaultAxes (n + 3)).map (fun i : Fin (n + 3) => (i : ℕ))).map f by simp, this]; simp

theorem batch_vals {V : Type} (n : ℕ) (f : ℕ → V) : (attnBatch (n + 3) (defaultAxes (n + 3))).map (fun i : Fin (n + 3) => f i) = [f 0, f (n + 1)] := by
  have : (attnBatch (n + 3) (defaultAxes (n + 3))).map (fun i : Fin (n + 3) => (i : ℕ)) = [0, n + 1] := by
    rw [← range_filter_ends n (fun i => decide (¬ (1 ≤ i ∧ i ≤ n)) && decide (i + 1 ≠ n + 3)) (by simp) (fun i hi => by simp; omega) (by simp) (by simp),
      ← List.map_coe_finRange_eq_range, List.filter_map]
    unfold attnBatch
    congr 1
    apply List.filter_congr
    intro i _
    simp [mem_default]
  rw [show (attnBatch (n + 3) (defaultAxes (n + 3))).map (fun i : Fin (n + 3) => f i) =
    ((attnBatch (n + 3) (defaultAxes (n + 3))).map (fun i : Fin (n + 3) => (i : ℕ))).map f by simp, this]; simp

theorem srcLabel_eq {r : ℕ} (A : List (Fin r)) (hr : ∀ i ∈ A, (i : ℕ) + 1 < r) (i : Fin r) :
    srcLabel A i = if i ∈ A then .inr i else .inl i := by
  unfold srcLabel
  by_cases h : i ∈ A
  · have := hr i h
    rw [if_neg (by simp [attnBatch, h]; omega), if_pos h]
  · rw [if_pos (by simp only [attnBatch, List.mem_filter, List.mem_finRange, true_and, Bool.and_eq_true, decide_eq_true_eq, h, not_false_eq_true]; tauto), if_neg h]

/-- **C77.** With the default axes, for every number and size of sequence axes, the shape the softmax and its quantizers are built with
is the shape of the scores. -/
theorem C77_default_shape (b heads w : ℕ) (qs vs : List ℕ) (h : qs.length = vs.length) :
    scoreShape (qs.length + 3) (defaultAxes (qs.length + 3)) (projShape b qs heads w) (projShape b vs heads w) = builtShape b heads qs vs := by
  have hr : ∀ i ∈ defaultAxes (qs.length + 3), (i : ℕ) + 1 < qs.length + 3 := fun i hi => by
    have := (mem_default _ i).1 hi; omega
  unfold scoreShape attnProduct
  rw [List.map_append, List.map_append, List.map_map, List.map_map, List.map_map]
  have e1 : (attnBatch (qs.length + 3) (defaultAxes (qs.length + 3))).map (letterDim (projShape b qs heads w) (projShape b vs heads w) ∘ Sum.inl) = [b, heads] := by
    have := batch_vals qs.length (fun i => (projShape b qs heads w).getD i 0)
    refine Eq.trans this ?_
    simp [projShape]
  have e2 : (defaultAxes (qs.length + 3)).map (letterDim (projShape b qs heads w) (projShape b vs heads w) ∘ Sum.inl) = qs := by
    refine Eq.trans (default_vals qs.length (fun i => (projShape b qs heads w).getD i 0)) ?_
    apply List.ext_getElem (by simp)
    intro i h1 h2
    simp [projShape, List.getElem?_append_left h2, List.getElem?_eq_getElem h2]
  have e3 : (defaultAxes (qs.length + 3)).map (letterDim (projShape b qs heads w) (projShape b vs heads w) ∘ srcLabel (defaultAxes (qs.length + 3))) = vs := by
    rw [List.map_congr_left (g := fun i : Fin (qs.length + 3) => (projShape b vs heads w).getD i 0) (by
      intro i hi; simp only [Function.comp_apply, srcLabel_eq _ hr, if_pos hi, letterDim])]
    refine Eq.trans (default_vals qs.length (fun i => (projShape b vs heads w).getD i 0)) ?_
    apply List.ext_getElem (by simp [h])
    intro i h1 h2
    simp [projShape, List.getElem?_append_left h2, List.getElem?_eq_getElem h2]
  rw [e1, e2, e3]
  simp [builtShape]

example : scoreShape 5 (defaultAxes 5) (projShape 1 [2, 4] 3 8) (projShape 1 [2, 5] 3 8) = [1, 3, 2, 4, 2, 5] := by decide +kernel

/-- **C77 violated** for every strict subset of the sequence axes: the attention output cannot be computed. -/
theorem C77_subset_violated (n : ℕ) (A : List (Fin (n + 3))) (hA : A.Nodup) (hs : ∀ i ∈ A, 1 ≤ (i : ℕ) ∧ (i : ℕ) ≤ n) (j : Fin (n + 3))
    (h1 : 1 ≤ (j : ℕ)) (h2 : (j : ℕ) ≤ n) (hj : j ∉ A) : ¬ combineFits (n + 3) A n :=
  fun h => hj ((C77_axes_partial n A hA hs).1 h j h1 h2)

/-- **C77 violated** by a reordering of the axes: attending `(2, 1)` over sequence axes of unequal sizes builds the softmax for another shape. -/
theorem C77_order_violated (b heads w x y : ℕ) (h : x ≠ y) :
    scoreShape 5 [2, 1] (projShape b [x, y] heads w) (projShape b [x, y] heads w) ≠ builtShape b heads [x, y] [x, y] := by
  have e : attnBatch 5 [2, 1] = [0, 3] := by decide
  simp [scoreShape, attnProduct, e, projShape, builtShape, letterDim]
  intro h'; exact absurd h'.symm h

/-! ## C78 -/

theorem ofFn_eq_map {r : ℕ} (f : Fin r → ℕ) : List.ofFn f = (List.finRange r).map f := List.ofFn_eq_map ..

theorem qk_eq {r : ℕ} (A : List (Fin r)) (hr : ∀ i ∈ A, (i : ℕ) + 1 < r) (qd kd : Fin r → ℕ) (hd : ∀ i, i ∉ A → qd i = kd i) (bq bk : List ℕ → ℚ) :
    einsumTotal (qkDim A qd kd) (attnSource r A) (attnTarget r) bq bk = scoreProducts A qd kd bq bk := by
  unfold scoreProducts einsumTotal
  rw [Finset.sum_sigma']
  refine Finset.sum_nbij' (fun a => ⟨fun i => a (srcLabel A i), fun i => a (.inl i)⟩)
    (fun p => fun l => match l with | .inl i => p.2 i | .inr i => if i ∈ A then p.1 i else 0) ?_ ?_ ?_ ?_ ?_
  · intro a ha
    rw [Fintype.mem_piFinset] at ha
    simp only [mem_sigma, box, Fintype.mem_piFinset, mem_filter, mem_range]
    refine ⟨fun i => ?_, fun i => by simpa [qkDim] using ha (.inl i), fun i hi => by rw [srcLabel_eq A hr, if_neg hi]⟩
    rw [srcLabel_eq A hr]
    by_cases h : i ∈ A
    · have := ha (.inr i); simp only [qkDim, h, if_true, mem_range] at this; simpa [h] using this
    · have := ha (.inl i); simp only [qkDim, mem_range] at this; rw [if_neg h, hd i h]; exact this
  · rintro ⟨q, k⟩ hp
    simp only [mem_sigma, box, Fintype.mem_piFinset, mem_filter, mem_range] at hp
    rw [Fintype.mem_piFinset]
    rintro (i | i)
    · simpa [qkDim] using hp.2.1 i
    · by_cases h : i ∈ A
      · simpa [qkDim, h] using hp.1 i
      · simp [qkDim, h]
  · intro a ha
    rw [Fintype.mem_piFinset] at ha
    funext l
    rcases l with i | i
    · rfl
    · by_cases h : i ∈ A
      · simp [h, srcLabel_eq A hr]
      · have := ha (.inr i); simp only [qkDim, h, if_false, mem_range] at this; simp [h]; omega
  · rintro ⟨q, k⟩ hp
    simp only [mem_sigma, box, Fintype.mem_piFinset, mem_filter, mem_range] at hp
    congr 1
    funext i
    rw [srcLabel_eq A hr]
    by_cases h : i ∈ A
    · simp [h]
    · simp [h, hp.2.2 i h]
  · intro a _
    simp only [attnSource, attnTarget, List.map_map, ofFn_eq_map]
    rfl

theorem av_eq {r : ℕ} (A : List (Fin r)) (hr : ∀ i ∈ A, (i : ℕ) + 1 < r) (qd vd : Fin r → ℕ) (ba bv : List ℕ → ℚ) :
    einsumTotal (avDim A qd vd) (attnProduct r A) (attnSource r A) ba bv = outputProducts A qd vd ba bv := by
  unfold outputProducts einsumTotal
  rw [Finset.sum_sigma']
  refine Finset.sum_nbij' (fun a => ⟨fun i => a (srcLabel A i), fun i => if i ∈ A then a (.inl i) else 0⟩)
    (fun p => fun l => match l with | .inl i => if i ∈ A then p.2 i else p.1 i | .inr i => if i ∈ A then p.1 i else 0) ?_ ?_ ?_ ?_ ?_
  · intro a ha
    rw [Fintype.mem_piFinset] at ha
    simp only [mem_sigma, box, Fintype.mem_piFinset, mem_range]
    refine ⟨fun i => ?_, fun i => ?_⟩
    · rw [srcLabel_eq A hr]
      by_cases h : i ∈ A
      · have := ha (.inr i); simp only [avDim, h, if_true, mem_range] at this; simpa [h] using this
      · have := ha (.inl i); simp only [avDim, h, if_false, mem_range] at this; rw [if_neg h]; exact this
    · by_cases h : i ∈ A
      · have := ha (.inl i); simp only [avDim, h, if_true, mem_range] at this; simpa [h] using this
      · simp [h]
  · rintro ⟨v, p⟩ hp
    simp only [mem_sigma, box, Fintype.mem_piFinset, mem_range] at hp
    rw [Fintype.mem_piFinset]
    rintro (i | i)
    · by_cases h : i ∈ A
      · simpa [avDim, h] using hp.2 i
      · simpa [avDim, h] using hp.1 i
    · by_cases h : i ∈ A
      · simpa [avDim, h] using hp.1 i
      · simp [avDim, h]
  · intro a ha
    rw [Fintype.mem_piFinset] at ha
    funext l
    rcases l with i | i
    · by_cases h : i ∈ A
      · simp [h]
      · simp [h, srcLabel_eq A hr]
    · by_cases h : i ∈ A
      · simp [h, srcLabel_eq A hr]
      · have := ha (.inr i); simp only [avDim, h, if_false, mem_range] at this; simp [h]; omega
  · rintro ⟨v, p⟩ hp
    simp only [mem_sigma, box, Fintype.mem_piFinset, mem_range] at hp
    have e1 : (fun i => (match srcLabel A i with | .inl i => if i ∈ A then p i else v i | .inr i => if i ∈ A then v i else 0 : ℕ)) = v := by
      funext i
      rw [srcLabel_eq A hr]
      by_cases h : i ∈ A <;> simp [h]
    have e2 : (fun i => if i ∈ A then (if i ∈ A then p i else v i) else 0) = p := by
      funext i
      by_cases h : i ∈ A
      · simp [h]
      · have := hp.2 i; simp only [h, if_false] at this; simp [h]; omega
    exact Sigma.ext e1 (heq_of_eq e2)
  · intro a _
    simp only [attnSource, attnProduct, List.map_append, List.map_map, ofFn_eq_map]
    congr 2
    congr 1
    congr 1
    · have : (List.finRange r).filter (fun i => decide (i ∉ A ∧ (i : ℕ) + 1 < r)) = attnBatch r A := by
        unfold attnBatch
        apply List.filter_congr
        intro i _
        have := i.2
        by_cases h : i ∈ A
        · simp [h]
        · simp only [h, not_false_eq_true, true_and, decide_true, Bool.true_and, decide_eq_decide]
          omega
      rw [this]
      apply List.map_congr_left
      intro i hi
      have : i ∉ A := by simp [attnBatch] at hi; exact hi.1
      simp [srcLabel_eq A hr, this]
    · apply List.map_congr_left
      intro i hi
      simp [hi]

/-- **C78 (partial).** For every shape, every set of attended axes (not the head-size axis) and every bit widths: without a
parallelization factor the EBOPs of the attention itself are the bit operations of all products executed for the scores and for the
output, although the code passes query and key in the other order than the layer.  Missing: a positive parallelization factor. -/
theorem C78_ebops_partial {r : ℕ} (A : List (Fin r)) (hr : ∀ i ∈ A, (i : ℕ) + 1 < r) (qd kd vd : Fin r → ℕ)
    (hd : ∀ i, i ∉ A → qd i = kd i) (bq bk bv ba : List ℕ → ℚ) (pf : ℚ) (hpf : pf ≤ 0) :
    mhaEbops A qd kd vd bq bk bv ba pf = scoreProducts A qd kd bq bk + outputProducts A qd vd ba bv := by
  unfold mhaEbops
  rw [qk_eq A hr qd kd hd, av_eq A hr, if_neg (not_lt.2 hpf)]

example : mhaEbops (r := 4) [1] ![1, 2, 1, 2] ![1, 3, 1, 2] ![1, 3, 1, 1] (fun _ => 4) (fun _ => 5) (fun _ => 3) (fun _ => 2) (-1) = 12 * 20 + 6 * 6 := by
  decide +kernel

/-- **C78 violated**: with a parallelization factor above 1 the EBOPs exceed those of the fully parallel attention, by that factor. -/
theorem C78_factor_violated {r : ℕ} (A : List (Fin r)) (hr : ∀ i ∈ A, (i : ℕ) + 1 < r) (qd kd vd : Fin r → ℕ)
    (hd : ∀ i, i ∉ A → qd i = kd i) (bq bk bv ba : List ℕ → ℚ) (pf : ℚ) (hpf : 1 < pf)
    (hpos : 0 < scoreProducts A qd kd bq bk + outputProducts A qd vd ba bv) :
    scoreProducts A qd kd bq bk + outputProducts A qd vd ba bv < mhaEbops A qd kd vd bq bk bv ba pf := by
  unfold mhaEbops
  rw [qk_eq A hr qd kd hd, av_eq A hr, if_pos (by linarith)]
  nlinarith

/-! ## C79 -/

/-- A mask that fits the scores: each extent is 1 or the full one. -/
def AMask.Fits (m : AMask) (Q V : ℕ) : Prop := (m.rows = Q ∨ m.rows = 1) ∧ (m.cols = V ∨ m.cols = 1)

theorem maskList_spec (Q V : ℕ) (m : MaskArgs) (q v : ℕ) (hq : q < Q) (hv : v < V) :
    (∀ x ∈ maskList Q V m, x.at q v = true) ↔ allowed m q v := by
  obtain ⟨a, b, c, d, e⟩ := m
  have hq' : (if Q = 1 then 0 else q) = q := by split <;> omega
  have hv' : (if V = 1 then 0 else v) = v := by split <;> omega
  have hQ : ∀ f : ℕ → Bool, f (if Q = 1 then 0 else q) = f q := fun f => by rw [hq']
  have hV : ∀ f : ℕ → Bool, f (if V = 1 then 0 else v) = f v := fun f => by rw [hv']
  have hc : decide ((if V = 1 then 0 else v) ≤ (if Q = 1 then 0 else q)) = decide (v ≤ q) := by
    have h1 : (if V = 1 then 0 else v) = v := by split <;> omega
    have h2 : (if Q = 1 then 0 else q) = q := by split <;> omega
    rw [h1, h2]
  cases a <;> cases b <;> cases c <;> cases d <;> cases e <;>
    simp only [maskList, allowed, Option.map, Option.toList, List.nil_append, List.append_nil, if_true, if_false, Bool.false_eq_true, List.cons_append,
      List.mem_cons, List.not_mem_nil, or_false, forall_eq_or_imp, forall_eq, IsEmpty.forall_iff, implies_true, AMask.at, hQ, hV, hc, decide_eq_true_eq,
      Option.some.injEq, forall_eq', reduceCtorEq, and_true, true_and, forall_const, false_imp_iff, true_imp_iff] <;> tauto

theorem maskList_fits (Q V : ℕ) (m : MaskArgs) (ha : ∀ a, m.attention = some a → a.Fits Q V) : ∀ x ∈ maskList Q V m, x.Fits Q V := by
  intro x hx
  simp only [maskList, List.mem_append, Option.mem_toList, Option.map_eq_some_iff] at hx
  rcases hx with (((⟨f, _, rfl⟩ | ⟨f, _, rfl⟩) | ⟨f, _, rfl⟩) | hx) | hx
  · exact ⟨.inl rfl, .inr rfl⟩
  · exact ⟨.inr rfl, .inl rfl⟩
  · exact ⟨.inr rfl, .inl rfl⟩
  · split at hx
    · simp at hx; subst hx; exact ⟨.inl rfl, .inl rfl⟩
    · simp at hx
  · exact ha x hx

theorem maskAnd_spec (Q V : ℕ) (a b : AMask) (ha : a.Fits Q V) (hb : b.Fits Q V) (hQ : 0 < Q) (hV : 0 < V) :
    ∃ c, maskAnd a b = some c ∧ c.Fits Q V ∧ ∀ q v, q < Q → v < V → c.at q v = (a.at q v && b.at q v) := by
  have h1 : a.rows = b.rows ∨ a.rows = 1 ∨ b.rows = 1 := by unfold AMask.Fits at *; omega
  have h2 : a.cols = b.cols ∨ a.cols = 1 ∨ b.cols = 1 := by unfold AMask.Fits at *; omega
  have hat : ∀ (m : AMask) (i j i' j' : ℕ), (m.rows ≠ 1 → i = i') → (m.cols ≠ 1 → j = j') → m.at i j = m.at i' j' := by
    intro m i j i' j' hi hj
    unfold AMask.at
    by_cases h : m.rows = 1 <;> by_cases h' : m.cols = 1 <;> simp_all
  refine ⟨_, if_pos ⟨h1, h2⟩, ?_, ?_⟩
  · unfold AMask.Fits at *; simp only; omega
  · intro q v hq hv
    show (a.at (if max a.rows b.rows = 1 then 0 else q) (if max a.cols b.cols = 1 then 0 else v) &&
      b.at (if max a.rows b.rows = 1 then 0 else q) (if max a.cols b.cols = 1 then 0 else v)) = _
    unfold AMask.Fits at ha hb
    rw [hat a _ _ q v, hat b _ _ q v] <;> intro h <;> split <;> omega

/-- What Keras does: the conjunction of all given masks. -/
theorem keras_mask_spec (Q V : ℕ) (m : MaskArgs) (hQ : 0 < Q) (hV : 0 < V) (ha : ∀ a, m.attention = some a → a.Fits Q V) :
    ∃ r, kerasMask Q V m = some r ∧ ∀ q v, q < Q → v < V → ((∀ x, r = some x → x.at q v = true) ↔ allowed m q v) := by
  have key : ∀ (l : List AMask) (acc : Option AMask), (∀ x ∈ l, x.Fits Q V) → (∀ x, acc = some x → x.Fits Q V) →
      ∃ r, l.foldl andStep (some acc) = some r ∧
        (∀ x, r = some x → x.Fits Q V) ∧
        ∀ q v, q < Q → v < V → ((∀ x, r = some x → x.at q v = true) ↔ (∀ x, acc = some x → x.at q v = true) ∧ ∀ x ∈ l, x.at q v = true) := by
    intro l
    induction l with
    | nil => intro acc _ h2; exact ⟨acc, rfl, h2, by simp⟩
    | cons y t ih =>
      intro acc h1 h2
      rw [List.foldl_cons]
      cases acc with
      | none =>
        obtain ⟨r, e1, e2, e3⟩ := ih (some y) (fun x hx => h1 x (List.mem_cons_of_mem _ hx)) (by simpa using h1 y List.mem_cons_self)
        refine ⟨r, e1, e2, fun q v hq hv => ?_⟩
        rw [e3 q v hq hv]; simp
      | some z =>
        obtain ⟨c, c1, c2, c3⟩ := maskAnd_spec Q V z y (h2 z rfl) (h1 y List.mem_cons_self) hQ hV
        obtain ⟨r, e1, e2, e3⟩ := ih (some c) (fun x hx => h1 x (List.mem_cons_of_mem _ hx)) (by simpa using c2)
        refine ⟨r, by simpa [andStep, c1] using e1, e2, fun q v hq hv => ?_⟩
        rw [e3 q v hq hv]
        simp [c3 q v hq hv, and_assoc]
  obtain ⟨r, e1, e2, e3⟩ := key (maskList Q V { m with attention := none }) none (maskList_fits Q V _ (by simp)) (by simp)
  have hall : ∀ q v, q < Q → v < V → (allowed m q v ↔ allowed { m with attention := none } q v ∧ ∀ a, m.attention = some a → a.at q v = true) := by
    intro q v _ _; unfold allowed; simp; tauto
  unfold kerasMask
  rw [e1, Option.bind_some]
  have e4 : ∀ q v, q < Q → v < V → ((∀ x, r = some x → x.at q v = true) ↔ allowed { m with attention := none } q v) := by
    intro q v hq hv
    rw [e3 q v hq hv, maskList_spec Q V _ q v hq hv]; simp
  cases hm : m.attention with
  | none =>
    refine ⟨r, rfl, fun q v hq hv => ?_⟩
    rw [hall q v hq hv, e4 q v hq hv, hm]; simp
  | some am =>
    cases r with
    | none =>
      refine ⟨some am, rfl, fun q v hq hv => ?_⟩
      rw [hall q v hq hv, ← e4 q v hq hv, hm]; simp
    | some a =>
      obtain ⟨c, c1, _, c3⟩ := maskAnd_spec Q V am a (ha am hm) (e2 a rfl) hQ hV
      refine ⟨some c, by simp [andLast, c1], fun q v hq hv => ?_⟩
      rw [hall q v hq hv, ← e4 q v hq hv, hm]
      simp [c3 q v hq hv]; tauto

theorem stackProd_spec (l : List AMask) (hne : l ≠ []) :
    ((∃ x ∈ l, ∃ y ∈ l, x.rows ≠ y.rows ∨ x.cols ≠ y.cols) → stackProd l = none) ∧
    ((∀ x ∈ l, ∀ y ∈ l, x.rows = y.rows ∧ x.cols = y.cols) → ∃ c, stackProd l = some c ∧ ∀ q v, (c.at q v = true ↔ ∀ x ∈ l, x.at q v = true)) := by
  cases l with
  | nil => exact absurd rfl hne
  | cons m r =>
    constructor
    · rintro ⟨x, hx, y, hy, h⟩
      refine if_neg ?_
      intro hall
      rw [List.all_eq_true] at hall
      have : ∀ z ∈ m :: r, z.rows = m.rows ∧ z.cols = m.cols := by
        intro z hz
        rcases List.mem_cons.1 hz with rfl | hz
        · exact ⟨rfl, rfl⟩
        · simpa using hall z hz
      have := this x hx; have := ‹∀ z ∈ m :: r, _› y hy
      omega
    · intro h
      refine ⟨_, if_pos ?_, ?_⟩
      · rw [List.all_eq_true]; intro x hx
        simpa using h x (List.mem_cons_of_mem _ hx) m List.mem_cons_self
      · intro q v
        show ((m :: r).all fun x => x.get (if m.rows = 1 then 0 else q) (if m.cols = 1 then 0 else v)) = true ↔ _
        rw [List.all_eq_true]
        refine forall_congr' fun x => imp_congr_right fun hx => ?_
        unfold AMask.at
        rw [(h x hx m List.mem_cons_self).1, (h x hx m List.mem_cons_self).2]

/-- **C79 (partial).** For every combination of query, value, key, causal and attention masks and every sequence lengths: Keras attends
exactly the allowed pairs, and tracing either raises — exactly if two of the given masks have different shapes — or attends exactly
the allowed pairs too.  Missing: the combinations that raise. -/
theorem C79_masks_partial (Q V : ℕ) (m : MaskArgs) (hQ : 0 < Q) (hV : 0 < V) (ha : ∀ a, m.attention = some a → a.Fits Q V) :
    (∃ r, kerasMask Q V m = some r ∧ ∀ q v, q < Q → v < V → ((∀ x, r = some x → x.at q v = true) ↔ allowed m q v)) ∧
    (replayMask Q V m = none ↔ ∃ x ∈ maskList Q V m, ∃ y ∈ maskList Q V m, x.rows ≠ y.rows ∨ x.cols ≠ y.cols) ∧
    (∀ r, replayMask Q V m = some r → ∀ q v, q < Q → v < V → ((∀ x, r = some x → x.at q v = true) ↔ allowed m q v)) := by
  refine ⟨keras_mask_spec Q V m hQ hV ha, ?_⟩
  cases hl : maskList Q V m with
  | nil =>
    have hr : replayMask Q V m = some none := by unfold replayMask; rw [hl]
    rw [hr]
    refine ⟨by simp, fun r h q v hq hv => ?_⟩
    rw [← maskList_spec Q V m q v hq hv, hl]
    obtain rfl := Option.some.inj h
    simp
  | cons y t =>
    have hr : replayMask Q V m = (stackProd (y :: t)).map some := by unfold replayMask; rw [hl]
    rw [hr]
    obtain ⟨s1, s2⟩ := stackProd_spec (y :: t) (by simp)
    by_cases hex : ∃ x ∈ y :: t, ∃ z ∈ y :: t, x.rows ≠ z.rows ∨ x.cols ≠ z.cols
    · rw [s1 hex]
      exact ⟨⟨fun _ => hex, fun _ => rfl⟩, by simp⟩
    · have h' : ∀ x ∈ y :: t, ∀ z ∈ y :: t, x.rows = z.rows ∧ x.cols = z.cols := by
        intro x hx z hz
        by_contra hc
        exact hex ⟨x, hx, z, hz, by tauto⟩
      obtain ⟨c, c1, c2⟩ := s2 h'
      rw [c1]
      refine ⟨⟨fun h => by simp at h, fun h => absurd h hex⟩, fun r h q v hq hv => ?_⟩
      obtain rfl := Option.some.inj h
      rw [← maskList_spec Q V m q v hq hv, hl, ← c2 q v]
      simp

/-- `value_mask` and `key_mask` together, and the causal mask with a full attention mask, can be traced. -/
example : (∃ r, replayMask 2 3 ⟨none, some fun v => v == 1, some fun v => v != 0, false, none⟩ = some r) ∧
    (∃ r, replayMask 3 3 ⟨none, none, none, true, some ⟨3, 3, fun _ _ => true⟩⟩ = some r) := ⟨⟨_, rfl⟩, ⟨_, rfl⟩⟩

/-- **C79 violated**: a query mask with a value mask cannot be traced (unless there is one query and one value position), nor the causal
mask with a value mask for more than one query position, nor the causal mask with a query mask for more than one value position. -/
theorem C79_combination_violated (Q V : ℕ) (f g : ℕ → Bool) :
    (¬ (Q = 1 ∧ V = 1) → replayMask Q V ⟨some f, some g, none, false, none⟩ = none) ∧
    (Q ≠ 1 → replayMask Q V ⟨none, some g, none, true, none⟩ = none) ∧
    (V ≠ 1 → replayMask Q V ⟨some f, none, none, true, none⟩ = none) := by
  refine ⟨fun h => ?_, fun h => ?_, fun h => ?_⟩ <;> simp [replayMask, maskList, stackProd] <;> omega

/-! ## C80 -/

theorem attnTail_eq (m : Mha) (W V : ℕ → ℕ → ℕ → ℝ) (t o : ℕ) : replayTail m W V t o = attnTail m W V t o := by
  unfold replayTail attnTail proj
  have key : ∀ (F : ℕ → ℕ → ℝ) (w n : ℕ), ∑ c ∈ range (n * w), F (c / w) (c % w) = ∑ i ∈ range n, ∑ h ∈ range w, F i h := by
    intro F w n
    induction n with
    | zero => simp
    | succ n ih =>
      rw [Nat.succ_mul, sum_range_add, ih, sum_range_succ]
      congr 1
      refine sum_congr rfl fun h hh => ?_
      have hw : h < w := by simpa using hh
      rw [show n * w + h = h + w * n by ring, Nat.add_mul_div_left _ _ (by omega), Nat.add_mul_mod_self_left, Nat.div_eq_of_lt hw, Nat.mod_eq_of_lt hw, Nat.zero_add]
  have := key (fun n h => m.outIq t n h (∑ s ∈ range (m.S + 1), W n t s * V s n h) * m.outKernel n h o) m.v.width m.heads
  simp only [this]
  cases m.enableOq <;> cases m.outBias <;> simp

theorem proj_fused (p : AttnProj) (n : ℕ) (x : ℕ → ℝ) (h : ℕ) :
    proj p.d x (fusedBlock p n).2.1 (fusedBlock p n).2.2 h =
      proj p.d x (fun a h => p.kernel a n h) (fun h => (p.bias.map fun b => b n h).getD 0) h := by
  unfold proj fusedBlock
  cases p.bias <;> rfl

theorem fusedPart_eq (d w : ℕ) (x : ℕ → ℕ → ℕ → ℝ) (ps : List AttnProj) (hne : ps ≠ []) (hw : ∀ p ∈ ps, p.width = w) (j t n h : ℕ) (hj : j < ps.length)
    (hd : ps[j].d = d) (hh : h < w) :
    (fusedProj d (x t n) (ps.map (fusedBlock · n))).isSome ∧
    fusedPart (fun t n => fusedProj d (x t n) (ps.map (fusedBlock · n))) j t n h =
      proj ps[j].d (x t n) (fun a h => ps[j].kernel a n h) (fun h => (ps[j].bias.map fun b => b n h).getD 0) h := by
  obtain ⟨out, e1, e2, e3⟩ := C44_fused_partial d w (x t n) (ps.map (fusedBlock · n)) (by simpa using hne) (by
    intro q hq; obtain ⟨p, hp, rfl⟩ := List.mem_map.1 hq; exact hw p hp)
  refine ⟨by simp [e1], ?_⟩
  have hj' : j < out.length := by rw [e2]; simpa using hj
  obtain ⟨_, f2⟩ := e3 j (by simpa using hj) hj'
  unfold fusedPart
  simp only [e1, Option.getD_some, List.getD_eq_getElem?_getD, List.getElem?_eq_getElem hj']
  rw [f2 h hh, ← proj_fused, hd]
  simp

/-- The conditions under which a call can be traced: with input quantizers (needed unless `fuse="qkv"`), fused tensors passed as one, and
equal sizes of fused heads and inputs. -/
def Traceable (m : Mha) (value key : Option (ℕ → ℕ → ℝ)) : Prop :=
  match m.fuse with
  | .none => m.enableIq = true
  | .kv => m.enableIq = true ∧ key = none ∧ m.v.width = m.k.width ∧ m.v.d = m.k.d
  | .qkv => value = none ∧ key = none ∧ m.v.width = m.k.width ∧ m.q.width = m.k.width ∧ m.v.d = m.q.d ∧ m.k.d = m.q.d

/-- Two projections agree on the entries that exist. -/
theorem replayProj_eq (m : Mha) (x : ℕ → ℕ → ℝ) (value key : Option (ℕ → ℕ → ℝ)) (ht : Traceable m value key) :
    ∃ Q K V, replayProj m x value key = some (Q, K, V) ∧
      (m.q.width = m.k.width → ∀ t n h, h < m.k.width → Q t n h = attnDense m.enableIq m.qIq m.q x t n h) ∧
      (∀ t n h, h < m.k.width → K t n h = attnDense m.enableIq m.kIq m.k (key.getD (value.getD x)) t n h) ∧
      (∀ t n h, h < m.v.width → V t n h = attnDense m.enableIq m.v.iq m.v (value.getD x) t n h) := by
  have single : ∀ (iq : ℕ → ℕ → ℝ → ℝ) (p : AttnProj) (y : ℕ → ℕ → ℝ) (t n h : ℕ),
      p.oq t n h (proj p.d (fun a => iq t a (y t a)) (fun a h => p.kernel a n h) (fusedBlock p n).2.2 h) = attnDense true iq p y t n h := by
    intro iq p y t n h
    unfold attnDense
    simp only [if_true]
    rw [← proj_fused]; rfl
  unfold Traceable at ht
  unfold replayProj
  cases hf : m.fuse with
  | none =>
    rw [hf] at ht
    simp only [ht, if_true]
    exact ⟨_, _, _, rfl, fun _ t n h _ => single _ _ _ t n h, fun t n h _ => single _ _ _ t n h, fun t n h _ => single _ _ _ t n h⟩
  | kv =>
    rw [hf] at ht
    obtain ⟨h1, rfl, h3, h4⟩ := ht
    have hk : m.kIq = m.v.iq := by simp [Mha.kIq, hf]
    have fp := fun j t n h hj hd hh => fusedPart_eq m.k.d m.k.width (fun t _ a => if m.enableIq then m.kIq t a (value.getD x t a) else value.getD x t a)
      [m.k, m.v] (by simp) (by simp [h3]) j t n h hj hd hh
    simp only [Option.isSome_none, Bool.false_eq_true, if_false, Option.getD_none]
    have hsome : (fusedProj m.k.d (fun a => if m.enableIq then m.kIq 0 a (value.getD x 0 a) else value.getD x 0 a) [fusedBlock m.k 0, fusedBlock m.v 0]).isNone = false := by
      obtain ⟨out, e, _⟩ := C44_fused_partial m.k.d m.k.width (fun a => if m.enableIq then m.kIq 0 a (value.getD x 0 a) else value.getD x 0 a) [fusedBlock m.k 0, fusedBlock m.v 0]
        (by simp) (by simp [fusedBlock, h3])
      rw [e]; rfl
    rw [hsome, h1]
    simp only [if_true, Bool.false_eq_true, if_false]
    rw [h1] at fp
    refine ⟨_, _, _, rfl, fun _ t n h _ => single _ _ _ t n h, fun t n h hh => ?_, fun t n h hh => ?_⟩
    · have := (fp 0 t n h (by simp) rfl hh).2
      simp only [List.map_cons, List.map_nil, List.getElem_cons_zero, if_true] at this
      rw [this]; simp [attnDense]
    · have := (fp 1 t n h (by simp) h4 (h3 ▸ hh)).2
      simp only [List.map_cons, List.map_nil, List.getElem_cons_succ, List.getElem_cons_zero, if_true] at this
      rw [this]; simp [attnDense, hk]
  | qkv =>
    rw [hf] at ht
    obtain ⟨rfl, rfl, h3, h4, h5, h6⟩ := ht
    have hk : m.kIq = m.v.iq := by simp [Mha.kIq, hf]
    have hq : m.qIq = m.v.iq := by simp [Mha.qIq, hf]
    have fp := fun j t n h hj hd hh => fusedPart_eq m.q.d m.k.width (fun t _ a => if m.enableIq then m.qIq t a (x t a) else x t a)
      [m.q, m.k, m.v] (by simp) (by simp [h3, h4]) j t n h hj hd hh
    simp only [Option.isSome_none, Bool.false_eq_true, or_self, if_false, Option.getD_none]
    have hsome : (fusedProj m.q.d (fun a => if m.enableIq then m.qIq 0 a (x 0 a) else x 0 a) [fusedBlock m.q 0, fusedBlock m.k 0, fusedBlock m.v 0]).isNone = false := by
      obtain ⟨out, e, _⟩ := C44_fused_partial m.q.d m.k.width (fun a => if m.enableIq then m.qIq 0 a (x 0 a) else x 0 a) [fusedBlock m.q 0, fusedBlock m.k 0, fusedBlock m.v 0]
        (by simp) (by simp [fusedBlock, h3, h4])
      rw [e]; rfl
    rw [hsome]
    simp only [Bool.false_eq_true, if_false]
    refine ⟨_, _, _, rfl, fun _ t n h hh => ?_, fun t n h hh => ?_, fun t n h hh => ?_⟩
    · have := (fp 0 t n h (by simp) rfl hh).2
      simp only [List.map_cons, List.map_nil, List.getElem_cons_zero] at this
      rw [this]; simp [attnDense]
    · have := (fp 1 t n h (by simp) h6 hh).2
      simp only [List.map_cons, List.map_nil, List.getElem_cons_succ, List.getElem_cons_zero] at this
      rw [this]; simp [attnDense, hk, hq]
    · have := (fp 2 t n h (by simp) h5 (h3 ▸ hh)).2
      simp only [List.map_cons, List.map_nil, List.getElem_cons_succ, List.getElem_cons_zero] at this
      rw [this]; simp [attnDense, hq]

/-- **C80 (partial).** For every attention layer (heads, sizes, kernels, biases, quantizers, tables, fusion mode), every input and mask:
if the call is traceable and the scores are above the traced lower bound and above -1e9, the traced attention equals the layer at
every position.  Missing: input quantizers disabled without `fuse="qkv"`, fused tensors passed separately, unequal fused head sizes. -/
theorem C80_attention_partial (m : Mha) (low : ℝ) (x : ℕ → ℕ → ℝ) (value key : Option (ℕ → ℕ → ℝ)) (mask : Option (ℕ → ℕ → Bool))
    (hw : m.q.width = m.k.width) (ht : Traceable m value key)
    (hlow : ∀ n t s, max low (-1e9) ≤
      ∑ h ∈ range m.k.width, attnDense m.enableIq m.kIq m.k (key.getD (value.getD x)) s n h * attnDense m.enableIq m.qIq m.q x t n h) :
    ∃ out, replayMha m low x value key mask = some out ∧ ∀ t o, out t o = mhaCall m x value key mask t o := by
  obtain ⟨Q, K, V, e, hQ, hK, hV⟩ := replayProj_eq m x value key ht
  refine ⟨_, by rw [replayMha, e]; rfl, fun t o => ?_⟩
  simp only [attnTail_eq, mhaCall]
  have hs : ∀ n t s, attnScore m.k.width Q K n t s =
      attnScore m.k.width (attnDense m.enableIq m.qIq m.q x) (attnDense m.enableIq m.kIq m.k (key.getD (value.getD x))) n t s := by
    intro n t s
    refine sum_congr rfl fun h hh => ?_
    rw [hQ hw t n h (by simpa using hh), hK s n h (by simpa using hh)]
  have hW : ∀ n s, (if hs : s < m.S + 1 then replaySoftmax id m.expT m.invT m.stable (mask.map fun f (i : Fin (m.S + 1)) => f t i) low
      (fun i => attnScore m.k.width Q K n t i) ⟨s, hs⟩ else 0) =
      (if hs : s < m.S + 1 then softmaxCall id m.expT m.invT m.stable (mask.map fun f (i : Fin (m.S + 1)) => f t i)
      (fun i => attnScore m.k.width (attnDense m.enableIq m.qIq m.q x) (attnDense m.enableIq m.kIq m.k (key.getD (value.getD x))) n t i) ⟨s, hs⟩ else 0) := by
    intro n s
    split
    · simp only [hs]
      apply C65_softmax_replay
      · intro i; exact le_trans (le_max_left _ _) (hlow n t i)
      · intro i; exact le_trans (le_max_right _ _) (hlow n t i)
    · rfl
  unfold attnTail
  simp only [hW]
  have hc : ∀ n h, h < m.v.width → ∑ s ∈ range (m.S + 1), m.smOq n t s (if hs : s < m.S + 1 then softmaxCall id m.expT m.invT m.stable
      (mask.map fun f (i : Fin (m.S + 1)) => f t i) (fun i => attnScore m.k.width (attnDense m.enableIq m.qIq m.q x)
      (attnDense m.enableIq m.kIq m.k (key.getD (value.getD x))) n t i) ⟨s, hs⟩ else 0) * V s n h = ∑ s ∈ range (m.S + 1), m.smOq n t s
      (if hs : s < m.S + 1 then softmaxCall id m.expT m.invT m.stable
      (mask.map fun f (i : Fin (m.S + 1)) => f t i) (fun i => attnScore m.k.width (attnDense m.enableIq m.qIq m.q x)
      (attnDense m.enableIq m.kIq m.k (key.getD (value.getD x))) n t i) ⟨s, hs⟩ else 0) * attnDense m.enableIq m.v.iq m.v (value.getD x) s n h := by
    intro n h hh
    exact sum_congr rfl fun s _ => by rw [hV s n h hh]
  have hy : ∀ F G : ℕ → ℕ → ℝ, (∀ n h, h < m.v.width → F n h = G n h) →
      ∑ n ∈ range m.heads, ∑ h ∈ range m.v.width, m.outIq t n h (F n h) * m.outKernel n h o =
      ∑ n ∈ range m.heads, ∑ h ∈ range m.v.width, m.outIq t n h (G n h) * m.outKernel n h o := by
    intro F G hFG
    exact sum_congr rfl fun n _ => sum_congr rfl fun h hh => by rw [hFG n h (by simpa using hh)]
  rw [hy _ _ hc]

/-- A one-head layer whose every quantizer is the identity, `fuse` and `enable_iq` as given. -/
noncomputable def exMha (fuse : Fuse) (en : Bool) : Mha :=
  let p : AttnProj := ⟨2, 1, fun a _ _ => a + 1, some fun _ _ => 1, fun _ _ v => v, fun _ _ _ v => v⟩
  ⟨1, en, true, fuse, p, { p with bias := none }, p, 2, true, fun v => Real.exp (-v), fun s => 1 / s, fun _ _ _ v => v,
    fun _ _ _ v => v, fun _ _ _ => 1, some fun _ => 3, fun _ _ v => v, fun _ _ v => v⟩

/-- The hypotheses of `C80_attention_partial` are met: all three fusion modes, a causal mask. -/
example (fuse : Fuse) : ∃ out, replayMha (exMha fuse true) (-1) (fun _ _ => 1) none none (some fun t s => decide (s ≤ t)) = some out ∧
    ∀ t o, out t o = mhaCall (exMha fuse true) (fun _ _ => 1) none none (some fun t s => decide (s ≤ t)) t o := by
  refine C80_attention_partial _ _ _ _ _ _ rfl (by cases fuse <;> simp [Traceable, exMha]) fun n t s => ?_
  cases fuse <;> simp [exMha, attnDense, proj, Mha.kIq, Mha.qIq, sum_range_succ] <;> norm_num

/-- **C80 violated**, input quantizers disabled: no attention layer with `fuse` "none" or "kv" can be traced. -/
theorem C80_no_iq_violated (m : Mha) (h : m.enableIq = false) (hf : m.fuse ≠ .qkv) (low : ℝ) (x : ℕ → ℕ → ℝ) (value key : Option (ℕ → ℕ → ℝ))
    (mask : Option (ℕ → ℕ → Bool)) : replayMha m low x value key mask = none := by
  unfold replayMha replayProj
  cases hm : m.fuse with
  | none => simp [h]
  | qkv => exact absurd hm hf
  | kv => simp [h]

/-- **C80 violated**, fused projections of a key that is another tensor than the value: the layer accepts it (it only compares shapes), tracing raises. -/
theorem C80_separate_violated (m : Mha) (low : ℝ) (x k : ℕ → ℕ → ℝ) (value : Option (ℕ → ℕ → ℝ)) (hf : m.fuse ≠ .none)
    (mask : Option (ℕ → ℕ → Bool)) : replayMha m low x value (some k) mask = none := by
  unfold replayMha replayProj
  cases hm : m.fuse with
  | none => exact absurd hm hf
  | qkv => simp
  | kv => simp

end HGQ
