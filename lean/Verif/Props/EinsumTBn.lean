import Verif.Model.EinsumTBn
import Verif.Props.EinsumTAlkaid
import Verif.Props.MhaArr
import Verif.Props.Patches
import Mathlib.Tactic

/-!
# C117: batch normalization of `QEinsumDenseT` in training
-/
namespace HGQ

namespace Spec
/-- The channel of an index: its entries at the normalized labels. -/
def chan (norm : List ℕ) : List ℕ → List ℕ → List ℕ
  | c :: P, i :: idx => if c ∈ norm then i :: chan norm P idx else chan norm P idx
  | _, _ => []

/-- Mean of `f` over all indices of a channel. -/
noncomputable def chanMean (P norm : List ℕ) (size : ℕ → ℕ) (χ : List ℕ) (f : List ℕ → ℚ) : ℚ :=
  (sumIdx (P.map size) fun idx => if chan norm P idx = χ then f idx else 0) / (sumIdx (P.map size) fun idx => if chan norm P idx = χ then 1 else 0)

/-- Variance over a channel. -/
noncomputable def chanVar (P norm : List ℕ) (size : ℕ → ℕ) (χ : List ℕ) (f : List ℕ → ℚ) : ℚ :=
  chanMean P norm size χ fun idx => (f idx - chanMean P norm size χ f) ^ 2

/-- A built layer and an input of the right shape. -/
structure BnBuilt (P : List ℕ) (size : ℕ → ℕ) (n : BnW) (x : Arr ℚ) : Prop where
  nodup : P.Nodup
  normNodup : n.norm.Nodup
  sub : ∀ c ∈ n.norm, c ∈ P
  pos : ∀ c ∈ P, 0 < size c
  mean : n.mean.shape = n.norm.map size
  var : n.var.shape = n.norm.map size
  gamma : ∀ g ∈ n.gamma, g.shape = n.norm.map size
  beta : ∀ g ∈ n.beta, g.shape = n.norm.map size
  input : x.shape = P.map size
end Spec

open Spec Finset

theorem bcast_self {s idx : List ℕ} (h : InShape idx s) : bcastIdx s idx = idx := by
  unfold bcastIdx
  induction h with
  | nil => rfl
  | @cons i n idx s hi _ ih =>
    rw [List.zipWith_cons_cons, ih]
    congr 1
    split <;> omega

theorem pad_zero (a : Arr ℚ) : a.pad 0 = a := by simp [Arr.pad]

/-- Element-wise operation on arrays of the same shape. -/
theorem arith_same (op : ℚ → ℚ → ℚ) (a b : Arr ℚ) (h : b.shape = a.shape) :
    ∃ c, npArith op a b = some c ∧ c.shape = a.shape ∧ ∀ idx, InShape idx a.shape → c.get idx = op (a.get idx) (b.get idx) := by
  refine ⟨⟨a.shape, fun idx => op (a.get (bcastIdx a.shape idx)) (b.get (bcastIdx a.shape idx))⟩, by simp only [npArith, h, max_self, Nat.sub_self, pad_zero, npBin, bcDims_same, Option.map_some], rfl, fun idx hi => ?_⟩
  simp only [bcast_self hi]

/-- Different shapes with the same number of entries cannot be broadcast to the first. -/
theorem bcDims_prod : ∀ (s t : List ℕ), (∀ n ∈ s, 0 < n) → (∀ n ∈ t, 0 < n) → bcDims s t = some s → t.prod ≤ s.prod ∧ (t.prod = s.prod → t = s) := by
  intro s
  induction s with
  | nil => intro t _ _ h; cases t <;> simp_all [bcDims]
  | cons n s ih =>
    intro t hs ht h
    cases t with
    | nil => simp [bcDims] at h
    | cons m t =>
      have hn := hs n (by simp)
      have hm := ht m (by simp)
      simp only [bcDims] at h
      have hcond : (n = m ∨ m = 1) ∧ bcDims s t = some s := by
        split at h
        · rename_i hc
          obtain ⟨u, hu, he⟩ := Option.map_eq_some_iff.1 h
          simp only [List.cons.injEq, true_and] at he
          exact ⟨hc, by rw [hu, he]⟩
        · split at h
          · rename_i h1 h2
            obtain ⟨u, hu, he⟩ := Option.map_eq_some_iff.1 h
            simp only [List.cons.injEq] at he
            exact absurd (Or.inl he.1.symm) h1
          · simp at h
      obtain ⟨h1, h2⟩ := ih t (fun k hk => hs k (by simp [hk])) (fun k hk => ht k (by simp [hk])) hcond.2
      have hsp : 0 < s.prod := List.prod_pos fun k hk => hs k (by simp [hk])
      have htp : 0 < t.prod := List.prod_pos fun k hk => ht k (by simp [hk])
      simp only [List.prod_cons]
      rcases hcond.1 with rfl | rfl
      · refine ⟨Nat.mul_le_mul_left _ h1, fun he => ?_⟩
        rw [h2 (Nat.eq_of_mul_eq_mul_left hn he)]
      · refine ⟨by nlinarith, fun he => ?_⟩
        have : n = 1 := by
          by_contra hne
          have : 2 ≤ n := by omega
          nlinarith
        subst this
        rw [h2 (by simpa using he)]

/-! ## Moments -/

theorem redShape_flags (P norm : List ℕ) (size : ℕ → ℕ) :
    redShape false (bnFlags P norm) (P.map size) = (P.filter fun c => decide (c ∈ norm)).map size := by
  induction P with
  | nil => rfl
  | cons c P ih =>
    unfold bnFlags at ih ⊢
    simp only [decide_not] at ih
    by_cases h : c ∈ norm <;> simp [redShape, h, ih]

theorem list_sum_flatMap {α : Type} (l : List α) (g : α → List ℚ) : (l.flatMap g).sum = (l.map fun a => (g a).sum).sum := by
  induction l with
  | nil => rfl
  | cons a l ih => simp [ih]

theorem sumIdx_zero (sh : List ℕ) : sumIdx sh (fun _ => 0) = 0 := by
  induction sh with
  | nil => rfl
  | cons n sh ih => simp [sumIdx, ih]

theorem red_sum (norm P : List ℕ) (size : ℕ → ℕ) (χ : List ℕ) (hχ : InShape χ ((P.filter fun c => decide (c ∈ norm)).map size)) (f : List ℕ → ℚ) :
    ((redIdx (bnFlags P norm) (P.map size) χ).map f).sum = sumIdx (P.map size) fun idx => if chan norm P idx = χ then f idx else 0 := by
  induction P generalizing χ f with
  | nil => cases hχ; simp [bnFlags, redIdx, sumIdx, chan]
  | cons c P ih =>
    by_cases h : c ∈ norm
    · simp only [h, decide_true, List.filter_cons_of_pos, List.map_cons] at hχ
      cases hχ with
      | @cons i _ χ _ hi hχ =>
        have := ih χ hχ (fun idx => f (i :: idx))
        simp only [bnFlags, List.map_cons, h, not_true, decide_false, redIdx, List.map_map, sumIdx, chan, if_true, List.cons.injEq] at this ⊢
        rw [Finset.sum_eq_single i]
        · simpa [Function.comp_def] using this
        · intro j _ hj
          simp [hj, sumIdx_zero]
        · intro hn; exact absurd (mem_range.2 hi) hn
    · simp only [h, decide_false, Bool.false_eq_true, not_false_eq_true, List.filter_cons_of_neg] at hχ
      simp only [bnFlags, List.map_cons, h, not_false_eq_true, decide_true, redIdx, sumIdx, chan, if_false]
      rw [List.map_flatMap, ← list_sum_range]
      rw [list_sum_flatMap]
      congr 1
      refine List.map_congr_left fun i _ => ?_
      rw [List.map_map]
      exact ih χ hχ (fun idx => f (i :: idx))

theorem chan_map (norm P : List ℕ) (τ : ℕ → ℕ) : chan norm P (P.map τ) = (P.filter fun c => decide (c ∈ norm)).map τ := by
  induction P with
  | nil => rfl
  | cons c P ih => by_cases h : c ∈ norm <;> simp [chan, h, ih]

theorem filter_flags_length (P norm : List ℕ) : ((bnFlags P norm).filter (!·)).length = (P.filter fun c => decide (c ∈ norm)).length := by
  unfold bnFlags
  rw [List.filter_map, List.length_map]
  congr 2
  funext c
  simp

theorem mean_get (norm P : List ℕ) (size : ℕ → ℕ) (x : Arr ℚ) (hx : x.shape = P.map size) (χ : List ℕ)
    (hχ : InShape χ ((P.filter fun c => decide (c ∈ norm)).map size)) :
    (npReduce npMean false (bnFlags P norm) x).get χ = chanMean P norm size χ x.get ∧
    (npReduce npVar false (bnFlags P norm) x).get χ = chanVar P norm size χ x.get := by
  have hd : dropKept false (bnFlags P norm) χ = χ := dropKept_false _ _ (by rw [filter_flags_length, hχ.length_eq, List.length_map])
  have key : ∀ f : List ℕ → ℚ, npMean ((redIdx (bnFlags P norm) (P.map size) χ).map f) = chanMean P norm size χ f := by
    intro f
    unfold npMean chanMean
    rw [red_sum norm P size χ hχ, List.length_map]
    congr 1
    have := red_sum norm P size χ hχ (fun _ => 1)
    rw [← this]; simp
  constructor
  · simp only [npReduce, hd, hx]
    exact key _
  · simp only [npReduce, hd, hx, npVar, List.map_map]
    rw [key x.get]
    exact key _

/-! ## Scaler and offset -/

/-- Value of an optional weight at a channel. -/
def optGet (d : ℚ) (w : Option (Arr ℚ)) (χ : List ℕ) : ℚ := w.elim d fun a => a.get χ

theorem affine_eq (P : List ℕ) (size : ℕ → ℕ) (sq : ℚ → ℚ) (root : ℚ) (n : BnW) (mean var x : Arr ℚ) (hb : BnBuilt P size n x)
    (hord : (P.filter fun c => decide (c ∈ n.norm)).map size = n.norm.map size) (hm : mean.shape = n.norm.map size) (hv : var.shape = n.norm.map size) :
    ∃ y, bnAffine P size sq root n mean var x = some y ∧ y.shape = x.shape ∧ ∀ τ : ℕ → ℕ, (∀ c ∈ P, τ c < size c) →
      y.get (P.map τ) = ((x.get (P.map τ) - mean.get (chan n.norm P (P.map τ))) *
        (optGet 1 n.gamma (chan n.norm P (P.map τ)) / sq (var.get (chan n.norm P (P.map τ)))) + optGet 0 n.beta (chan n.norm P (P.map τ))) / root := by
  set s := n.norm.map size with hs
  obtain ⟨sc, hsc, hscs, hscg⟩ : ∃ sc, bnScaler n.gamma (var.mapQ sq) = some sc ∧ sc.shape = s ∧ ∀ χ, InShape χ s → sc.get χ = optGet 1 n.gamma χ / sq (var.get χ) := by
    cases hg : n.gamma with
    | none => exact ⟨_, rfl, hv, fun χ _ => rfl⟩
    | some g =>
      have hgs := hb.gamma g hg
      obtain ⟨c, h1, h2, h3⟩ := arith_same (· / ·) g (var.mapQ sq) (by rw [hgs]; exact hv)
      exact ⟨c, h1, h2.trans hgs, fun χ hχ => by rw [h3 χ (by rw [hgs]; exact hχ)]; rfl⟩
  obtain ⟨o1, ho1, ho1s, ho1g⟩ := arith_same (· * ·) (mean.mapQ (- ·)) sc (by rw [hscs]; exact hm.symm)
  have ho1s : o1.shape = s := ho1s.trans hm
  obtain ⟨of, hof, hofs, hofg⟩ : ∃ of, bnShift n.beta o1 = some of ∧ of.shape = s ∧ ∀ χ, InShape χ s → of.get χ = -mean.get χ * sc.get χ + optGet 0 n.beta χ := by
    cases hg : n.beta with
    | none => exact ⟨_, rfl, ho1s, fun χ hχ => by rw [ho1g χ (by rw [show (mean.mapQ (- ·)).shape = mean.shape from rfl, hm]; exact hχ)]; simp [optGet, Arr.mapQ]⟩
    | some g =>
      have hgs := hb.beta g hg
      obtain ⟨c, h1, h2, h3⟩ := arith_same (· + ·) o1 g (by rw [hgs, ho1s])
      exact ⟨c, h1, h2.trans ho1s, fun χ hχ => by
        rw [h3 χ (by rw [ho1s]; exact hχ), ho1g χ (by rw [show (mean.mapQ (- ·)).shape = mean.shape from rfl, hm]; exact hχ)]; simp [optGet, Arr.mapQ]⟩
  set t := bnBroadcast P size n.norm with ht
  have hprod : t.prod = s.prod := by rw [ht, bn_prod, hord]
  have hbc : List.Forall₂ (fun m n => m = n ∨ m = 1) t x.shape := by
    rw [hb.input, ht]
    unfold bnBroadcast
    rw [List.forall₂_map_left_iff, List.forall₂_map_right_iff]
    exact List.forall₂_same.2 fun c _ => by by_cases h : c ∈ n.norm <;> simp [h]
  have hlen : t.length = x.shape.length := hbc.length_eq
  have hex : ∀ (op : ℚ → ℚ → ℚ) (u w : Arr ℚ), u.shape = x.shape → w.shape = s → ∃ y, (npReshape t w).bind (fun w => npArith op u w) = some y ∧ y.shape = x.shape ∧
      ∀ τ : ℕ → ℕ, (∀ c ∈ P, τ c < size c) → y.get (P.map τ) = op (u.get (P.map τ)) (w.get (chan n.norm P (P.map τ))) := by
    intro op u w hu hw
    refine ⟨⟨x.shape, fun idx => op (u.get (bcastIdx x.shape idx)) (w.get (unflat s (flat t (bcastIdx t idx))))⟩, ?_, rfl, ?_⟩
    · simp only [npReshape, hw, hprod, if_true, Option.bind_some, npArith, hu, hlen, max_self, Nat.sub_self, pad_zero, npBin, bcDims_sub hbc, Option.map_some]
    · intro τ hτ
      have hin : InShape (P.map τ) x.shape := by
        rw [hb.input]; unfold InShape
        rw [List.forall₂_map_left_iff, List.forall₂_map_right_iff]
        exact List.forall₂_same.2 hτ
      simp only [bcast_self hin]
      rw [ht, flat_norm size τ n.norm P (fun c hc _ => hτ c hc), hord, ← chan_map, unflat_flat_id]
      rw [chan_map, ← hord]
      unfold InShape
      rw [List.forall₂_map_left_iff, List.forall₂_map_right_iff]
      exact List.forall₂_same.2 fun c hc => hτ c (List.mem_filter.1 hc).1
  obtain ⟨y1, hy1, hy1s, hy1g⟩ := hex (· * ·) x sc rfl hscs
  obtain ⟨y2, hy2, hy2s, hy2g⟩ := hex (· + ·) y1 of hy1s hofs
  refine ⟨y2.mapQ (· / root), ?_, hy2s, ?_⟩
  · unfold bnAffine
    rw [hsc]; simp only [Option.bind_some]
    rw [ho1]; simp only [Option.bind_some]
    rw [hof]; simp only [Option.bind_some]
    have e1 : npReshape t sc ≠ none := by intro h; rw [h] at hy1; simp at hy1
    have e2 : npReshape t of ≠ none := by intro h; rw [h] at hy2; simp at hy2
    obtain ⟨s1, hs1⟩ := Option.ne_none_iff_exists'.1 e1
    obtain ⟨s2, hs2⟩ := Option.ne_none_iff_exists'.1 e2
    rw [hs1] at hy1; rw [hs2] at hy2
    simp only [Option.bind_some] at hy1 hy2
    rw [← ht, hs1, hs2]; simp only [Option.bind_some]
    rw [hy1]; simp only [Option.bind_some]
    rw [hy2]; rfl
  · intro τ hτ
    have hχ : InShape (chan n.norm P (P.map τ)) s := by
      rw [chan_map, ← hord]
      unfold InShape
      rw [List.forall₂_map_left_iff, List.forall₂_map_right_iff]
      exact List.forall₂_same.2 fun c hc => hτ c (List.mem_filter.1 hc).1
    simp only [Arr.mapQ]
    rw [hy2g τ hτ, hy1g τ hτ, hofg _ hχ, hscg _ hχ]
    ring


/-! ## The layer -/

theorem update_eq (m : ℚ) (old new : Arr ℚ) (h : new.shape = old.shape) :
    ∃ c, bnUpdate m old new = some c ∧ c.shape = old.shape ∧ ∀ χ, InShape χ old.shape → c.get χ = m * old.get χ + (1 - m) * new.get χ := by
  obtain ⟨c, h1, h2, h3⟩ := arith_same (· + ·) (old.mapQ (· * m)) (new.mapQ (· * (1 - m))) h
  refine ⟨c, ?_, h2, fun χ hχ => ?_⟩
  · unfold bnUpdate assignArr
    rw [h1]
    simp only [Option.bind_some]
    exact if_pos h2
  · rw [h3 χ hχ]; simp only [Arr.mapQ]; ring

theorem update_shape (m : ℚ) (old new c : Arr ℚ) (ho : ∀ k ∈ old.shape, 0 < k) (hn : ∀ k ∈ new.shape, 0 < k) (hl : new.shape.length = old.shape.length)
    (hp : new.shape.prod = old.shape.prod) (h : bnUpdate m old new = some c) : new.shape = old.shape := by
  unfold bnUpdate assignArr at h
  obtain ⟨u, hu, he⟩ := Option.bind_eq_some_iff.1 h
  split at he
  · rename_i hs
    unfold npArith at hu
    rw [show (old.mapQ (· * m)).shape = old.shape from rfl, show (new.mapQ (· * (1 - m))).shape = new.shape from rfl, hl] at hu
    simp only [max_self, Nat.sub_self, pad_zero, npBin] at hu
    obtain ⟨w, hw, hv⟩ := Option.map_eq_some_iff.1 hu
    rw [← hv] at hs
    simp only at hs
    rw [hs] at hw
    exact (bcDims_prod old.shape new.shape ho hn hw).2 hp
  · simp at he

/-- **C117 (training).**  If the normalized labels, read in the order of the axes of the array, have the sizes of the weights, a training call succeeds; the new
moving mean and variance of a channel are the exponential averages of the mean and variance of that channel over the batch, nothing else changes, and the result is
the normalized array with the moments of this batch. -/
theorem C117_train (P : List ℕ) (size : ℕ → ℕ) (sq : ℚ → ℚ) (root : ℚ) (n : BnW) (x : Arr ℚ) (hb : BnBuilt P size n x)
    (hord : (P.filter fun c => decide (c ∈ n.norm)).map size = n.norm.map size) :
    ∃ y n', bnEinsumT true true P size sq root n x = some (y, n') ∧ y.shape = x.shape ∧ BnBuilt P size n' x ∧
      n'.norm = n.norm ∧ n'.gamma = n.gamma ∧ n'.beta = n.beta ∧ n'.momentum = n.momentum ∧
      (∀ χ, InShape χ (n.norm.map size) →
        n'.mean.get χ = n.momentum * n.mean.get χ + (1 - n.momentum) * chanMean P n.norm size χ x.get ∧
        n'.var.get χ = n.momentum * n.var.get χ + (1 - n.momentum) * chanVar P n.norm size χ x.get) ∧
      ∀ τ : ℕ → ℕ, (∀ c ∈ P, τ c < size c) →
        y.get (P.map τ) = ((x.get (P.map τ) - chanMean P n.norm size (chan n.norm P (P.map τ)) x.get) *
          (optGet 1 n.gamma (chan n.norm P (P.map τ)) / sq (chanVar P n.norm size (chan n.norm P (P.map τ)) x.get)) +
          optGet 0 n.beta (chan n.norm P (P.map τ))) / root := by
  have hms : ∀ f, (npReduce f false (bnFlags P n.norm) x).shape = n.norm.map size := by
    intro f
    simp only [npReduce, hb.input]
    rw [redShape_flags, hord]
  obtain ⟨m, hm, hmsh, hmg⟩ := update_eq n.momentum n.mean (npReduce npMean false (bnFlags P n.norm) x) (by rw [hms, hb.mean])
  obtain ⟨v, hv, hvsh, hvg⟩ := update_eq n.momentum n.var (npReduce npVar false (bnFlags P n.norm) x) (by rw [hms, hb.var])
  obtain ⟨y, hy, hys, hyg⟩ := affine_eq P size sq root n _ _ x hb hord (hms npMean) (hms npVar)
  refine ⟨y, { n with mean := m, var := v }, ?_, hys, ⟨hb.nodup, hb.normNodup, hb.sub, hb.pos, hmsh.trans hb.mean, hvsh.trans hb.var, hb.gamma, hb.beta, hb.input⟩,
    rfl, rfl, rfl, rfl, fun χ hχ => ?_, fun τ hτ => ?_⟩
  · unfold bnEinsumT
    simp only [Bool.and_self, if_true, hm, hv, hy, Option.bind_some, Option.map_some]
  · have := mean_get n.norm P size x hb.input χ (by rw [hord]; exact hχ)
    simp only
    rw [hmg χ (by rw [hb.mean]; exact hχ), hvg χ (by rw [hb.var]; exact hχ), this.1, this.2]
    exact ⟨rfl, rfl⟩
  · have hχ : InShape (chan n.norm P (P.map τ)) ((P.filter fun c => decide (c ∈ n.norm)).map size) := by
      rw [chan_map]
      unfold InShape
      rw [List.forall₂_map_left_iff, List.forall₂_map_right_iff]
      exact List.forall₂_same.2 fun c hc => hτ c (List.mem_filter.1 hc).1
    have := mean_get n.norm P size x hb.input _ hχ
    rw [hyg τ hτ, this.1, this.2]

/-- **C117 (inference, frozen layer).**  Otherwise nothing is written, and the moving moments of the same channel are used. -/
theorem C117_infer (training trainable : Bool) (hf : (training && trainable) = false) (P : List ℕ) (size : ℕ → ℕ) (sq : ℚ → ℚ) (root : ℚ) (n : BnW) (x : Arr ℚ)
    (hb : BnBuilt P size n x) (hord : (P.filter fun c => decide (c ∈ n.norm)).map size = n.norm.map size) :
    ∃ y, bnEinsumT training trainable P size sq root n x = some (y, n) ∧ y.shape = x.shape ∧
      ∀ τ : ℕ → ℕ, (∀ c ∈ P, τ c < size c) →
        y.get (P.map τ) = ((x.get (P.map τ) - n.mean.get (chan n.norm P (P.map τ))) *
          (optGet 1 n.gamma (chan n.norm P (P.map τ)) / sq (n.var.get (chan n.norm P (P.map τ)))) +
          optGet 0 n.beta (chan n.norm P (P.map τ))) / root := by
  obtain ⟨y, hy, hys, hyg⟩ := affine_eq P size sq root n _ _ x hb hord hb.mean hb.var
  refine ⟨y, ?_, hys, hyg⟩
  unfold bnEinsumT
  simp only [hf, Bool.false_eq_true, if_false, hy, Option.map_some]

/-- **C117 (order of the axes).**  `normalize_axes` that name axes in the order of the array meet the condition. -/
theorem C117_order (P norm : List ℕ) (size : ℕ → ℕ) (hP : P.Nodup) (h : norm.Sublist P) :
    (P.filter fun c => decide (c ∈ norm)).map size = norm.map size := by rw [filter_sublist h hP]

/-- **C117 (default axes).**  Default axes are `bias_axes` if given and not empty, else exactly the kernel labels of the output, in the order of the kernel; for a
kernel whose labels come in the order of the array they meet the condition. -/
theorem C117_default (bias : Option (List ℕ)) (kernel output P : List ℕ) (size : ℕ → ℕ) :
    (∀ b, bias = some b → b ≠ [] → defaultNorm bias kernel output = b) ∧
    ((bias = none ∨ bias = some []) → (defaultNorm bias kernel output).Sublist kernel ∧ (∀ c, c ∈ defaultNorm bias kernel output ↔ c ∈ kernel ∧ c ∈ output) ∧
      (P.Nodup → kernel.Sublist P → (P.filter fun c => decide (c ∈ defaultNorm bias kernel output)).map size = (defaultNorm bias kernel output).map size)) := by
  constructor
  · rintro b rfl hb
    cases b with
    | nil => exact absurd rfl hb
    | cons a l => rfl
  · intro h
    have e : defaultNorm bias kernel output = kernel.filter fun c => decide (c ∈ output) := by rcases h with rfl | rfl <;> rfl
    have hs : (defaultNorm bias kernel output).Sublist kernel := by rw [e]; exact List.filter_sublist
    exact ⟨hs, fun c => by rw [e]; simp, fun hP hk => C117_order P _ size hP (hs.trans hk)⟩

/-- **C117 (exactly).**  A training call raises whenever the sizes of the normalized labels in the order of the array are not those of the weights:
the moments come in the order of the array, the weights are in the order of `normalize_axes`. -/
theorem C117_raises_iff (P : List ℕ) (size : ℕ → ℕ) (sq : ℚ → ℚ) (root : ℚ) (n : BnW) (x : Arr ℚ) (hb : BnBuilt P size n x) :
    bnEinsumT true true P size sq root n x = none ↔ (P.filter fun c => decide (c ∈ n.norm)).map size ≠ n.norm.map size := by
  constructor
  · intro h hord
    obtain ⟨y, n', h', _⟩ := C117_train P size sq root n x hb hord
    rw [h] at h'; simp at h'
  · intro hne
    have hperm : (P.filter fun c => decide (c ∈ n.norm)).Perm n.norm :=
      (List.perm_ext_iff_of_nodup (hb.nodup.filter _) hb.normNodup).2 fun c => by
        simp only [List.mem_filter, decide_eq_true_eq]
        exact ⟨fun h => h.2, fun h => ⟨hb.sub c h, h⟩⟩
    have hms : (npReduce npMean false (bnFlags P n.norm) x).shape = (P.filter fun c => decide (c ∈ n.norm)).map size := by
      simp only [npReduce, hb.input]
      rw [redShape_flags]
    have hnone : bnUpdate n.momentum n.mean (npReduce npMean false (bnFlags P n.norm) x) = none := by
      by_contra hc
      obtain ⟨c, hc⟩ := Option.ne_none_iff_exists'.1 hc
      have hp := hperm.map size
      refine hne ?_
      rw [← hms, ← hb.mean]
      refine update_shape _ _ _ c ?_ ?_ ?_ ?_ hc
      · rw [hb.mean]; intro k hk
        obtain ⟨c, hc, rfl⟩ := List.mem_map.1 hk
        exact hb.pos c (hb.sub c hc)
      · rw [hms]; intro k hk
        obtain ⟨c, hc, rfl⟩ := List.mem_map.1 hk
        exact hb.pos c (List.mem_filter.1 hc).1
      · rw [hms, hb.mean, hp.length_eq]
      · rw [hms, hb.mean, hp.prod_eq]
    unfold bnEinsumT
    simp only [Bool.and_self, if_true, hnone, Option.bind_none]

/-- `k` training calls on the same array. -/
def bnSteps (P : List ℕ) (size : ℕ → ℕ) (sq : ℚ → ℚ) (root : ℚ) (x : Arr ℚ) : ℕ → BnW → Option BnW
  | 0, n => some n
  | k + 1, n => (bnEinsumT true true P size sq root n x).bind fun r => bnSteps P size sq root x k r.2

/-- **C117 (history).**  After `k` training calls on the same array the distance of the moving mean and variance of a channel to those of the array is
`momentum ^ k` times the first distance. -/
theorem C117_history (P : List ℕ) (size : ℕ → ℕ) (sq : ℚ → ℚ) (root : ℚ) (x : Arr ℚ) (k : ℕ) (n : BnW) (hb : BnBuilt P size n x)
    (hord : (P.filter fun c => decide (c ∈ n.norm)).map size = n.norm.map size) :
    ∃ n', bnSteps P size sq root x k n = some n' ∧ ∀ χ, InShape χ (n.norm.map size) →
      n'.mean.get χ - chanMean P n.norm size χ x.get = n.momentum ^ k * (n.mean.get χ - chanMean P n.norm size χ x.get) ∧
      n'.var.get χ - chanVar P n.norm size χ x.get = n.momentum ^ k * (n.var.get χ - chanVar P n.norm size χ x.get) := by
  induction k generalizing n with
  | zero => exact ⟨n, rfl, fun χ _ => by simp⟩
  | succ k ih =>
    obtain ⟨y, n1, h1, _, hb1, hnorm, _, _, hmom, hg, _⟩ := C117_train P size sq root n x hb hord
    obtain ⟨n', h2, h3⟩ := ih n1 hb1 (by rw [hnorm]; exact hord)
    refine ⟨n', by simp only [bnSteps, h1, Option.bind_some, h2], fun χ hχ => ?_⟩
    have h3 := h3 χ (by rw [hnorm]; exact hχ)
    have hg := hg χ hχ
    rw [hnorm, hmom, hg.1, hg.2] at h3
    rw [h3.1, h3.2]
    constructor <;> ring

/-- Labels b = 0, i = 1, o = 2; batch 2, i of size 2, o of size 3. -/
def bnExSize (c : ℕ) : ℕ := if c = 2 then 3 else 2

/-- Weights with the default axes of `'bij,oij->bio'`-like equations: order `o, i`. -/
def bnExW (norm : List ℕ) : BnW := ⟨norm, none, none, ⟨norm.map bnExSize, fun _ => 0⟩, ⟨norm.map bnExSize, fun _ => 1⟩, 99 / 100⟩

/-- **C117 (default axes).**  For `'bij,oij->bio'` the default `normalize_axes` are `o, i` and the array before the sum has `i` before `o`: with sizes 2 and 3
training raises for every input and inference does not. -/
theorem C117_default_axes_violated :
    defaultNorm none [2, 1, 3] [0, 1, 2] = [2, 1] ∧
    ∀ x : Arr ℚ, x.shape = [2, 2, 5, 3] → bnEinsumT true true [0, 1, 3, 2] (fun c => if c = 3 then 5 else bnExSize c) id 1 (bnExW [2, 1]) x = none ∧
      (bnEinsumT false true [0, 1, 3, 2] (fun c => if c = 3 then 5 else bnExSize c) id 1 (bnExW [2, 1]) x).isSome := by
  refine ⟨by decide +kernel, fun x hx => ⟨?_, by obtain ⟨s, g⟩ := x; simp only at hx; subst hx; rfl⟩⟩
  rw [C117_raises_iff]
  · decide +kernel
  · refine ⟨by decide, by decide, by decide, ?_, rfl, rfl, by simp [bnExW], by simp [bnExW], by rw [hx]; decide +kernel⟩
    intro c hc
    simp only [List.mem_cons, List.not_mem_nil, or_false] at hc
    rcases hc with rfl | rfl | rfl | rfl <;> decide

/-- A case that meets the hypotheses: axes `i, o` in the order of the array. -/
example : BnBuilt [0, 1, 2] bnExSize (bnExW [1, 2]) ⟨[2, 2, 3], fun i => i.sum⟩ ∧ ([0, 1, 2].filter fun c => decide (c ∈ (bnExW [1, 2]).norm)).map bnExSize = (bnExW [1, 2]).norm.map bnExSize := by
  refine ⟨⟨by decide, by decide, by decide, by decide, rfl, rfl, by simp [bnExW], by simp [bnExW], rfl⟩, by decide⟩

/-- Its training call: the channel (1, 2) holds 3 and 4, so mean 7/2 and variance 1/4. -/
example : (bnEinsumT true true [0, 1, 2] bnExSize id 1 (bnExW [1, 2]) ⟨[2, 2, 3], fun i => i.sum⟩).map (fun r => (r.1.get [1, 1, 2], r.2.mean.get [1, 2], r.2.var.get [1, 2])) =
    some (2, 7 / 200, 99 / 100 + 1 / 400) := by decide +kernel

end HGQ
