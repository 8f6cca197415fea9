import Verif.Model.ConfigReuse
import Mathlib.Tactic

/-! # C122: reusing the config of a built layer -/
namespace HGQ
open Layers

namespace Spec
variable {P S O : Type}

/-- What a layer made from the config of a layer with this history does on `s`. -/
def reused (L : ReLayer P S O) (p : P) (hist : List S) (s : S) : Option O := (L.history p hist).bind fun p' => L.run p' s

/-- The user's factor counts as given (and is not a request for the default). -/
def GivenFactor (k : FactorKind) (pf : ℤ) : Prop :=
  match k.rule with
  | .neg => 0 ≤ pf
  | .nonpos => 0 < pf
  | .minusOne => pf ≠ -1

/-- The position an axis means on an array of rank `r`: counted from the front, or from the end. -/
def Means (r : ℕ) (a : ℤ) (p : ℕ) : Prop := p < r ∧ ((p : ℤ) = a ∨ (p : ℤ) - r = a)

/-- All axes exist on arrays of rank `r`. -/
def AxesExist (r : ℕ) (axes : List ℤ) : Prop := ∀ a ∈ axes, ∃ p, Means r a p

/-- No two axes mean the same position. -/
def AxesApart (r : ℕ) (axes : List ℤ) : Prop := axes.Pairwise fun a b => ∀ p, ¬ (Means r a p ∧ Means r b p)
end Spec
open Spec

variable {P S O : Type}

/-! ## Parallelization factor -/

variable (k : FactorKind) (pos : S → Option ℕ) (pre post : S → ℚ)

theorem given_history {pf : ℤ} (hg : GivenFactor k pf) (hist : List S) {p : ℤ} (h : (factorLayer k pos pre post).history pf hist = some p) :
    p = pf := by
  induction hist generalizing p with
  | nil => simp only [ReLayer.history, Option.some.injEq] at h; exact h.symm
  | cons s hs ih =>
    simp only [ReLayer.history] at h
    have hb : ∀ q, (factorLayer k pos pre post).build pf s = some q → q = pf := by
      intro q hq
      unfold GivenFactor at hg
      unfold factorLayer at hq
      cases hr : k.rule <;> simp only [hr] at hg hq
      · cases hp : pos s with
        | none => rw [hp] at hq; simp at hq
        | some n => rw [hp] at hq; simp [PfRule.resolve, not_lt.2 hg] at hq; exact hq.symm
      · rw [if_neg (not_le.2 hg)] at hq; simpa using hq.symm
      · rw [if_neg hg] at hq; simpa using hq.symm
    cases hq : (factorLayer k pos pre post).build pf s with
    | none => rw [hq] at h; simp at h
    | some q =>
      rw [hq] at h
      simp only [Option.bind_some] at h
      rw [hb q hq] at h
      exact ih h

/-- **C122, factor given by the user**: whatever shapes the layer and its copies were built on before, the copy reports the EBOPs of a new layer. -/
theorem C122_given_factor {pf : ℤ} (hg : GivenFactor k pf) (hist : List S) (s : S) (hok : ((factorLayer k pos pre post).history pf hist).isSome) :
    reused (factorLayer k pos pre post) pf hist s = (factorLayer k pos pre post).run pf s := by
  obtain ⟨p, hp⟩ := Option.isSome_iff_exists.1 hok
  unfold reused
  rw [hp, given_history k pos pre post hg hist hp]
  rfl

/-- After a first build on a shape with `n` positions the default factor is `n`. -/
theorem default_history {pf : ℤ} (hg : ¬ GivenFactor k pf) (s₁ : S) (n : ℕ) (hn : pos s₁ = some n) (h0 : 0 < n) (hist : List S)
    {p : ℤ} (h : (factorLayer k pos pre post).history pf (s₁ :: hist) = some p) : p = n := by
  have hb : (factorLayer k pos pre post).build pf s₁ = some (n : ℤ) := by
    unfold GivenFactor at hg
    unfold factorLayer
    cases hr : k.rule <;> simp only [hr] at hg ⊢
    · simp [hn, PfRule.resolve, not_le.1 hg]
    · simp [hn, not_lt.1 hg]
    · push Not at hg; simp [hn, hg]
  have hgn : GivenFactor k (n : ℤ) := by
    unfold GivenFactor
    cases hr : k.rule <;> simp only
    · exact_mod_cast h0.le
    · exact_mod_cast h0
    · omega
  simp only [ReLayer.history, hb, Option.bind_some] at h
  exact given_history k pos pre post hgn hist h

/-- A new layer with the default factor: the whole cost. -/
theorem default_run {pf : ℤ} (hg : ¬ GivenFactor k pf) (s : S) (n : ℕ) (hn : pos s = some n) (h0 : 0 < n) :
    (factorLayer k pos pre post).run pf s = some (if k.perPosition then pre s + post s else pre s * n + post s) := by
  obtain ⟨q, hq⟩ : ∃ q, (factorLayer k pos pre post).build pf s = some q := by
    unfold factorLayer
    cases hr : k.rule <;> simp only [hn, Option.map_some]
    · exact ⟨_, rfl⟩
    · split_ifs <;> exact ⟨_, rfl⟩
    · split_ifs <;> exact ⟨_, rfl⟩
  have hqn := default_history k pos pre post hg s n hn h0 [] (p := q) (by simp [ReLayer.history, hq])
  have h0' : (n : ℚ) ≠ 0 := by exact_mod_cast h0.ne'
  unfold ReLayer.run
  rw [hq, hqn]
  simp only [Option.bind_some, factorLayer, hn, Option.map_some]
  split_ifs
  · simp only [Option.some.injEq, Int.cast_natCast]; field_simp
  · simp

/-- **C122, default factor, first build on `n₁` positions**: every copy, on every shape, reports the cost of that first number of positions:
the full cost times `n₁ / n`. -/
theorem C122_default_factor {pf : ℤ} (hg : ¬ GivenFactor k pf) (s₁ : S) (n₁ : ℕ) (hn₁ : pos s₁ = some n₁) (h₁ : 0 < n₁) (hist : List S) (s : S)
    (n : ℕ) (hn : pos s = some n) (hok : ((factorLayer k pos pre post).history pf (s₁ :: hist)).isSome) :
    reused (factorLayer k pos pre post) pf (s₁ :: hist) s =
      some (if k.perPosition then pre s * n₁ / n + post s else pre s * n₁ + post s) := by
  obtain ⟨p, hp⟩ := Option.isSome_iff_exists.1 hok
  have hpn := default_history k pos pre post hg s₁ n₁ hn₁ h₁ hist hp
  unfold reused ReLayer.run
  rw [hp, hpn]
  have hb : (factorLayer k pos pre post).build (n₁ : ℤ) s = some (n₁ : ℤ) := by
    unfold factorLayer
    cases hr : k.rule <;> simp only [hn, Option.map_some]
    · simp [PfRule.resolve]
    · rw [if_neg (by omega)]
    · rw [if_neg (by omega)]
  simp only [Option.bind_some]
  rw [hb]
  simp only [Option.bind_some, factorLayer, hn, Option.map_some, Int.cast_natCast]
  split_ifs <;> rfl

/-- **C122, default factor, exact criterion**: a copy reports the EBOPs of a new layer exactly if it is used on as many positions as the
first build had, or if the layer costs nothing there. -/
theorem C122_factor_iff {pf : ℤ} (hg : ¬ GivenFactor k pf) (s₁ : S) (n₁ : ℕ) (hn₁ : pos s₁ = some n₁) (h₁ : 0 < n₁) (hist : List S) (s : S)
    (n : ℕ) (hn : pos s = some n) (h0 : 0 < n) (hok : ((factorLayer k pos pre post).history pf (s₁ :: hist)).isSome) :
    reused (factorLayer k pos pre post) pf (s₁ :: hist) s = (factorLayer k pos pre post).run pf s ↔ n₁ = n ∨ pre s = 0 := by
  rw [C122_default_factor k pos pre post hg s₁ n₁ hn₁ h₁ hist s n hn hok, default_run k pos pre post hg s n hn h0]
  have h0' : (n : ℚ) ≠ 0 := by exact_mod_cast h0.ne'
  have key : (pre s * n₁ = pre s * n) ↔ (n₁ = n ∨ pre s = 0) := by
    rw [mul_eq_mul_left_iff]
    exact or_congr_left Nat.cast_inj
  split_ifs with hk
  · rw [Option.some.injEq, add_left_inj, div_eq_iff h0', key]
  · rw [Option.some.injEq, add_left_inj, key]

/-- **C122, same shape (or same number of positions)**: a copy used on as many positions as the layer was first built on reports the EBOPs of
a new layer. -/
theorem C122_same_positions (pf : ℤ) (hist : List S) (s : S) (n : ℕ) (h0 : 0 < n) (hn : pos s = some n) (hall : ∀ s' ∈ hist, pos s' = some n)
    (hok : ((factorLayer k pos pre post).history pf hist).isSome) :
    reused (factorLayer k pos pre post) pf hist s = (factorLayer k pos pre post).run pf s := by
  by_cases hg : GivenFactor k pf
  · exact C122_given_factor k pos pre post hg hist s hok
  · cases hist with
    | nil => rfl
    | cons s₁ hist => exact (C122_factor_iff k pos pre post hg s₁ n (hall s₁ (by simp)) h0 hist s n hn h0 hok).2 (Or.inl rfl)

/-- **C122 fails for the default factor on another number of positions**: a dense layer of any cost built on 4 positions, saved and used on 8,
reports half of its EBOPs; a convolution, a pooling layer and a recurrent layer likewise. -/
theorem C122_other_shape_violated (cost : ℕ → ℚ) (hc : cost 8 ≠ 0) (k : FactorKind) (hk : k = kindDense ∨ k = kindConv ∨ k = kindRnn) :
    ∃ v, (factorLayer k some cost fun _ => 0).run (-1) 8 = some v ∧ v ≠ 0 ∧
      reused (factorLayer k some cost fun _ => 0) (-1) [4] 8 = some (v / 2) := by
  have hg : ¬ GivenFactor k (-1) := by rcases hk with rfl | rfl | rfl <;> simp [GivenFactor, kindDense, kindConv, kindRnn]
  have hok : ((factorLayer k some cost fun _ => 0).history (-1) [4]).isSome := by
    rcases hk with rfl | rfl | rfl <;> simp [ReLayer.history, factorLayer, kindDense, kindConv, kindRnn]
  rw [default_run k some cost (fun _ => 0) hg 8 8 rfl (by norm_num),
    C122_default_factor k some cost (fun _ => 0) hg 4 4 rfl (by norm_num) [] 8 8 rfl hok]
  refine ⟨_, rfl, ?_, ?_⟩
  · split_ifs
    · simpa using hc
    · simpa using hc
  · split_ifs
    · simp only [Nat.cast_ofNat, add_zero, Option.some.injEq]; ring
    · simp only [Nat.cast_ofNat, add_zero, Option.some.injEq]; ring

/-- **A factor of 0** means no cost for dense and einsum layers and the default for convolutions and pooling. -/
theorem C122_zero_factor (s : S) (n : ℕ) (hn : pos s = some n) (h0 : 0 < n) :
    (factorLayer kindDense pos pre post).run 0 s = some (post s) ∧ (factorLayer kindConv pos pre post).run 0 s = some (pre s + post s) := by
  constructor
  · simp [ReLayer.run, factorLayer, kindDense, hn, PfRule.resolve]
  · simpa [kindConv] using default_run kindConv pos pre post (pf := 0) (by simp [GivenFactor, kindConv]) s n hn h0

/-- A dense layer with factor 2 built on 4 positions, its copy used on 8: a quarter of the cost, as for a new one; with the default the copy
reports half of it. -/
example : reused (factorLayer kindDense some (fun n => 3 * n) fun _ => 0) 2 [4, 5] 8 = some 6 ∧
    (factorLayer kindDense some (fun n => 3 * n) fun _ => 0).run 2 8 = some 6 ∧
    reused (factorLayer kindDense some (fun n => 3 * n) fun _ => 0) (-1) [4, 5] 8 = some 12 ∧
    (factorLayer kindDense some (fun n => 3 * n) fun _ => 0).run (-1) 8 = some 24 := by
  decide +kernel

/-! ## Axes -/

theorem means_unique {r : ℕ} {a : ℤ} {p q : ℕ} (hp : Means r a p) (hq : Means r a q) : p = q := by
  obtain ⟨h1, h2⟩ := hp
  obtain ⟨h3, h4⟩ := hq
  omega

theorem pyIdx_iff (r : ℕ) (a : ℤ) (p : ℕ) : pyIdx r a = some p ↔ Means r a p := by
  unfold pyIdx Means
  split_ifs with h1 h2 h3 <;> simp <;> omega

theorem mem_buildAxes {r : ℕ} {axes : List ℤ} {b : ℤ} :
    b ∈ buildAxes axes r ↔ ∃ a ∈ axes, b = if 0 ≤ a then a else a + (r : ℤ) := by
  unfold buildAxes
  rw [List.mem_mergeSort, List.mem_map]
  exact exists_congr fun a => and_congr_right fun _ => eq_comm

theorem buildAxes_perm (axes : List ℤ) (r : ℕ) : (buildAxes axes r).Perm (axes.map fun a => if 0 ≤ a then a else a + (r : ℤ)) :=
  List.mergeSort_perm _ _

theorem buildAxes_of_nonneg {axes : List ℤ} (h : ∀ a ∈ axes, 0 ≤ a) (r : ℕ) : buildAxes axes r = axes.mergeSort (fun a b => decide (a ≤ b)) := by
  unfold buildAxes
  congr 1
  conv_rhs => rw [← List.map_id axes]
  exact List.map_congr_left fun a ha => by simp [h a ha]

theorem buildAxes_sorted (axes : List ℤ) (r : ℕ) : (buildAxes axes r).Pairwise (· ≤ ·) := by
  have := List.pairwise_mergeSort (le := fun a b : ℤ => decide (a ≤ b)) (by simp; intros; omega) (by simp; intros; omega)
    (axes.map fun a => if 0 ≤ a then a else a + (r : ℤ))
  simpa [buildAxes] using this

theorem buildAxes_idem {axes : List ℤ} {r : ℕ} (h : ∀ a ∈ buildAxes axes r, 0 ≤ a) (r' : ℕ) : buildAxes (buildAxes axes r) r' = buildAxes axes r := by
  rw [buildAxes_of_nonneg h]
  exact List.mergeSort_of_pairwise (by simpa using buildAxes_sorted axes r)

theorem built_nonneg {axes : List ℤ} {r : ℕ} (h : AxesExist r axes) : ∀ b ∈ buildAxes axes r, 0 ≤ b := by
  intro b hb
  obtain ⟨a, ha, rfl⟩ := mem_buildAxes.1 hb
  obtain ⟨p, hp, h2⟩ := h a ha
  split_ifs with h0
  · exact h0
  · omega

theorem axes_history {axes : List ℤ} (s₁ : List ℕ) (h : AxesExist s₁.length axes) (hist : List (List ℕ)) :
    axesLayer.history axes (s₁ :: hist) = some (buildAxes axes s₁.length) := by
  have key : ∀ (hs : List (List ℕ)), axesLayer.history (buildAxes axes s₁.length) hs = some (buildAxes axes s₁.length) := by
    intro hs
    induction hs with
    | nil => rfl
    | cons s hs ih =>
      simp only [ReLayer.history, axesLayer, Option.bind_some] at ih ⊢
      rw [buildAxes_idem (built_nonneg h)]
      exact ih
  simp only [ReLayer.history]
  exact key hist

/-- The positions a list of axes reduces over. -/
theorem mapM_pyIdx (r : ℕ) (axes : List ℤ) (ps : List ℕ) :
    axes.mapM (pyIdx r) = some ps ↔ List.Forall₂ (Means r) axes ps := by
  induction axes generalizing ps with
  | nil => cases ps <;> simp
  | cons a axes ih =>
    rw [List.mapM_cons]
    cases hp : pyIdx r a with
    | none =>
      simp only [Option.bind_eq_bind, Option.bind_none, reduceCtorEq, false_iff]
      intro h
      cases h with
      | cons h1 h2 => rw [(pyIdx_iff r a _).2 h1] at hp; simp at hp
    | some p =>
      have hm := (pyIdx_iff r a p).1 hp
      cases hq : axes.mapM (pyIdx r) with
      | none =>
        simp only [Option.bind_eq_bind, Option.bind_some, Option.bind_none, reduceCtorEq, false_iff]
        intro h
        cases h with
        | cons h1 h2 => rw [(ih _).2 h2] at hq; simp at hq
      | some qs =>
        simp only [Option.bind_eq_bind, Option.bind_some, Option.pure_def, Option.some.injEq]
        constructor
        · rintro rfl; exact List.Forall₂.cons hm ((ih qs).1 hq)
        · intro h
          cases h with
          | cons h1 h2 =>
            rw [(ih _).2 h2, Option.some.injEq] at hq
            rw [hq, means_unique hm h1]

theorem forall₂_right {A B : Type} {R : A → B → Prop} {l : List A} {m : List B} (h : List.Forall₂ R l m) {p : B} (hp : p ∈ m) : ∃ a ∈ l, R a p := by
  induction h with
  | nil => simp at hp
  | cons hm _ ih =>
    rcases List.mem_cons.1 hp with rfl | hp
    · exact ⟨_, by simp, hm⟩
    · obtain ⟨b, hb, hm⟩ := ih hp
      exact ⟨b, List.mem_cons_of_mem _ hb, hm⟩

theorem forall₂_left {A B : Type} {R : A → B → Prop} {l : List A} {m : List B} (h : List.Forall₂ R l m) {a : A} (ha : a ∈ l) : ∃ p ∈ m, R a p := by
  induction h with
  | nil => simp at ha
  | cons hm _ ih =>
    rcases List.mem_cons.1 ha with rfl | ha
    · exact ⟨_, by simp, hm⟩
    · obtain ⟨b, hb, hm⟩ := ih ha
      exact ⟨b, List.mem_cons_of_mem _ hb, hm⟩

/-- **C122, axes, what a layer reduces over**: a new `QSum`/`QSoftmax` reduces exactly over the positions its axes mean. -/
theorem C122_axes_fresh (axes : List ℤ) (s : List ℕ) (h : AxesExist s.length axes) :
    ∃ ps, axesLayer.run axes s = some ps ∧ ∀ p, p ∈ ps ↔ ∃ a ∈ axes, Means s.length a p := by
  have h1 : ∀ b ∈ buildAxes axes s.length, ∃ p, Means s.length b p := by
    intro b hb
    obtain ⟨a, ha, rfl⟩ := mem_buildAxes.1 hb
    obtain ⟨p, hp⟩ := h a ha
    refine ⟨p, hp.1, ?_⟩
    obtain ⟨hp1, hp2⟩ := hp
    split_ifs <;> omega
  have h2 : ∃ ps, List.Forall₂ (Means s.length) (buildAxes axes s.length) ps := by
    generalize buildAxes axes s.length = l at h1
    induction l with
    | nil => exact ⟨[], List.Forall₂.nil⟩
    | cons b l ih =>
      obtain ⟨ps, hps⟩ := ih fun c hc => h1 c (List.mem_cons_of_mem _ hc)
      obtain ⟨p, hp⟩ := h1 b (by simp)
      exact ⟨p :: ps, List.Forall₂.cons hp hps⟩
  obtain ⟨ps, hps⟩ := h2
  refine ⟨ps, by simpa [ReLayer.run, axesLayer] using (mapM_pyIdx _ _ _).2 hps, fun p => ?_⟩
  constructor
  · intro hp
    obtain ⟨b, hb, hm⟩ := forall₂_right hps hp
    obtain ⟨a, ha, rfl⟩ := mem_buildAxes.1 hb
    refine ⟨a, ha, hm.1, ?_⟩
    obtain ⟨q, hq1, hq2⟩ := h a ha
    obtain ⟨hm1, hm2⟩ := hm
    split_ifs at hm2 <;> omega
  · rintro ⟨a, ha, hm⟩
    have hb : (if 0 ≤ a then a else a + (s.length : ℤ)) ∈ buildAxes axes s.length := mem_buildAxes.2 ⟨a, ha, rfl⟩
    generalize hbv : (if 0 ≤ a then a else a + (s.length : ℤ)) = b at hb
    have hmb : Means s.length b p := by
      obtain ⟨h3, h4⟩ := hm
      refine ⟨h3, ?_⟩
      split_ifs at hbv <;> omega
    obtain ⟨q, hq, hm'⟩ := forall₂_left hps hb
    rw [means_unique hmb hm']; exact hq

open Classical in
/-- **C122, means**: the scale of a new `QMeanPow2` is computed from the number of elements it sums: the product of the sizes at the
positions its axes mean. -/
theorem C122_mean_fresh (axes : List ℤ) (s : List ℕ) (h : AxesExist s.length axes) (hd : AxesApart s.length axes) :
    ∃ ps, meanLayer.run axes s = some (ps, ∏ p ∈ (Finset.range s.length).filter fun p => ∃ a ∈ axes, Means s.length a p, s.getD p 1) ∧
      axesLayer.run axes s = some ps := by
  obtain ⟨ps, hps, hmem⟩ := C122_axes_fresh axes s h
  refine ⟨ps, ?_, hps⟩
  have hf : List.Forall₂ (Means s.length) (buildAxes axes s.length) ps := (mapM_pyIdx _ _ _).1 (by simpa [ReLayer.run, axesLayer] using hps)
  have hnd : ps.Nodup := by
    have hap : ∀ r : ℕ, AxesApart r axes → AxesExist r axes →
        (buildAxes axes r).Pairwise fun a b => ∀ p, ¬ (Means r a p ∧ Means r b p) := by
      intro r ha he
      refine List.Perm.pairwise (buildAxes_perm axes r).symm ?_ ?_
      · rw [List.pairwise_map]
        refine ha.imp_of_mem ?_
        rintro a b ham hbm hab p ⟨h1, h2⟩
        obtain ⟨q, hq1, hq2⟩ := he a ham
        obtain ⟨q', hq1', hq2'⟩ := he b hbm
        refine hab p ⟨⟨h1.1, ?_⟩, ⟨h1.1, ?_⟩⟩
        · obtain ⟨h3, h4⟩ := h1; split_ifs at h4 <;> omega
        · obtain ⟨h3, h4⟩ := h2; split_ifs at h4 <;> omega
      · exact fun {a b} hab p hp => hab p ⟨hp.2, hp.1⟩
    have hap' := hap s.length hd h
    clear hps hmem
    generalize buildAxes axes s.length = bl at hf hap'
    induction hf with
    | nil => simp
    | @cons b p bs qs hm hrest ih =>
      obtain ⟨h1, h2⟩ := List.pairwise_cons.1 hap'
      refine List.nodup_cons.2 ⟨fun hp => ?_, ih h2⟩
      obtain ⟨b', hb', hm'⟩ := forall₂_right hrest hp
      exact h1 b' hb' p ⟨hm, hm'⟩
  have hps' : (buildAxes axes s.length).mapM (pyIdx s.length) = some ps := (mapM_pyIdx _ _ _).2 hf
  simp only [ReLayer.run, meanLayer, Option.bind_some, hps', Option.map_some, Option.some.injEq, Prod.mk.injEq, true_and]
  rw [← List.prod_toFinset _ hnd]
  refine Finset.prod_congr ?_ fun _ _ => rfl
  ext p
  rw [List.mem_toFinset, hmem, Finset.mem_filter, Finset.mem_range]
  exact ⟨fun ⟨a, ha, hm⟩ => ⟨hm.1, a, ha, hm⟩, fun h => h.2⟩

example : meanLayer.run [-1] [2, 5, 7] = some ([2], 7) ∧ AxesExist 3 [-1, 1] ∧ AxesApart 3 [-1, 1] := by
  refine ⟨by decide +kernel, ?_, ?_⟩
  · intro a ha
    rcases List.mem_cons.1 ha with rfl | ha
    · exact ⟨2, by norm_num [Means]⟩
    · obtain rfl : a = 1 := by simpa using ha
      exact ⟨1, by norm_num [Means]⟩
  · simp only [AxesApart, Means, List.pairwise_cons, List.mem_cons, List.not_mem_nil, or_false, forall_eq, List.Pairwise.nil, and_true, IsEmpty.forall_iff, implies_true]
    intro p; omega

theorem history_same_rank {axes : List ℤ} {r : ℕ} (h : AxesExist r axes) (hist : List (List ℕ)) (hall : ∀ s' ∈ hist, s'.length = r) (s : List ℕ)
    (hs : s.length = r) : (axesLayer.history axes hist).map (fun q => buildAxes q s.length) = some (buildAxes axes s.length) := by
  cases hist with
  | nil => rfl
  | cons s₁ hist =>
    have hr : s₁.length = r := hall s₁ (by simp)
    rw [axes_history s₁ (by rw [hr]; exact h), Option.map_some]
    rw [buildAxes_idem (by rw [hr]; exact built_nonneg h), hr, hs]

theorem meanLayer_history (axes : List ℤ) (hist : List (List ℕ)) : meanLayer.history axes hist = axesLayer.history axes hist := by
  induction hist generalizing axes with
  | nil => rfl
  | cons s hs ih => simp only [ReLayer.history]; exact congrArg _ (funext ih)

/-- **C122, axes, same rank**: a copy of a `QSum`, `QSoftmax` or `QMeanPow2` layer behaves like a new layer on every shape of the rank the
layer was built on, whatever the sizes; for the mean also the number of elements is that of the new shape. -/
theorem C122_axes_same_rank {axes : List ℤ} {r : ℕ} (h : AxesExist r axes) (hist : List (List ℕ)) (hall : ∀ s' ∈ hist, s'.length = r) (s : List ℕ)
    (hs : s.length = r) : reused axesLayer axes hist s = axesLayer.run axes s ∧ reused meanLayer axes hist s = meanLayer.run axes s := by
  have hh := history_same_rank h hist hall s hs
  obtain ⟨q, hq, hq'⟩ := Option.map_eq_some_iff.1 hh
  constructor
  · unfold reused
    rw [hq, Option.bind_some]
    simp only [ReLayer.run, axesLayer, Option.bind_some, hq']
  · unfold reused
    rw [meanLayer_history, hq, Option.bind_some]
    simp only [ReLayer.run, meanLayer, Option.bind_some, hq']

/-- **C122, axes counted from the front**: a copy behaves like a new layer on every shape of any rank. -/
theorem C122_axes_front {axes : List ℤ} (h : ∀ a ∈ axes, 0 ≤ a) (hist : List (List ℕ)) (s : List ℕ) :
    reused axesLayer axes hist s = axesLayer.run axes s ∧ reused meanLayer axes hist s = meanLayer.run axes s := by
  have key : ∀ (hist : List (List ℕ)) (axes : List ℤ), (∀ a ∈ axes, 0 ≤ a) →
      (axesLayer.history axes hist).map (fun q => buildAxes q s.length) = some (buildAxes axes s.length) := by
    intro hist
    induction hist with
    | nil => intros; rfl
    | cons s₁ hs ih =>
      intro axes h
      have hb : ∀ b ∈ buildAxes axes s₁.length, 0 ≤ b := by
        intro b hb
        obtain ⟨a, ha, rfl⟩ := mem_buildAxes.1 hb
        simp [h a ha]
      have h1 := ih (buildAxes axes s₁.length) hb
      rw [buildAxes_idem hb, buildAxes_of_nonneg h, ← buildAxes_of_nonneg h s.length] at h1
      rw [buildAxes_of_nonneg h s.length, ← buildAxes_of_nonneg h s₁.length] at h1
      simp only [ReLayer.history, axesLayer, Option.bind_some] at h1 ⊢
      rw [h1, buildAxes_of_nonneg h, ← buildAxes_of_nonneg h s.length]
  obtain ⟨q, hq, hq'⟩ := Option.map_eq_some_iff.1 (key hist axes h)
  constructor
  · unfold reused
    rw [hq, Option.bind_some]
    simp only [ReLayer.run, axesLayer, Option.bind_some, hq']
  · unfold reused
    rw [meanLayer_history, hq, Option.bind_some]
    simp only [ReLayer.run, meanLayer, Option.bind_some, hq']

/-- What a copy reduces over on an array of another rank: the positions the axes meant at the first build, if they exist. -/
theorem C122_axes_reused (axes : List ℤ) (s₁ : List ℕ) (h : AxesExist s₁.length axes) (hist : List (List ℕ)) (s : List ℕ) (ps : List ℕ)
    (hps : reused axesLayer axes (s₁ :: hist) s = some ps) : ∀ p, p ∈ ps ↔ ∃ a ∈ axes, Means s₁.length a p := by
  unfold reused at hps
  rw [axes_history s₁ h hist] at hps
  simp only [ReLayer.run, axesLayer, Option.bind_some] at hps
  rw [buildAxes_idem (built_nonneg h)] at hps
  have hf := (mapM_pyIdx _ _ _).1 hps
  intro p
  constructor
  · intro hp
    obtain ⟨b, hb, hm⟩ := forall₂_right hf hp
    have hb0 := built_nonneg h b hb
    obtain ⟨a, ha, rfl⟩ := mem_buildAxes.1 hb
    obtain ⟨q, hq1, hq2⟩ := h a ha
    obtain ⟨hm1, hm2⟩ := hm
    refine ⟨a, ha, ?_⟩
    unfold Means
    split_ifs at hm2 hb0 <;> omega
  · rintro ⟨a, ha, hm⟩
    have hb : (if 0 ≤ a then a else a + (s₁.length : ℤ)) ∈ buildAxes axes s₁.length := mem_buildAxes.2 ⟨a, ha, rfl⟩
    have hbp : (if 0 ≤ a then a else a + (s₁.length : ℤ)) = p := by
      obtain ⟨h3, h4⟩ := hm
      split_ifs <;> omega
    rw [hbp] at hb
    obtain ⟨q, hq, hm'⟩ := forall₂_left hf hb
    have : p = q := by obtain ⟨h3, h4⟩ := hm'; omega
    rw [this]; exact hq

/-- **C122 fails for axes counted from the end on another rank**: if the layer was first built on arrays of rank `r₁` and a copy is used at
rank `r ≠ r₁`, the copy does not reduce over the positions a new layer reduces over — as soon as one axis is negative. -/
theorem C122_axes_violated (axes : List ℤ) (s₁ s : List ℕ) (h₁ : AxesExist s₁.length axes) (h : AxesExist s.length axes)
    (hd₁ : AxesApart s₁.length axes) (hd : AxesApart s.length axes) (hr : s₁.length ≠ s.length) (hneg : ∃ a ∈ axes, a < 0) (hist : List (List ℕ)) :
    ¬ ∃ ps qs, reused axesLayer axes (s₁ :: hist) s = some ps ∧ axesLayer.run axes s = some qs ∧ ∀ p, p ∈ ps ↔ p ∈ qs := by
  rintro ⟨ps, qs, hps, hqs, hpq⟩
  have h2 := C122_axes_reused axes s₁ h₁ hist s ps hps
  obtain ⟨qs', hqs', h3⟩ := C122_axes_fresh axes s h
  rw [hqs'] at hqs
  simp only [Option.some.injEq] at hqs
  subst hqs
  -- the two normalised lists have the same elements, no repetitions, hence the same sum
  have nodup : ∀ r, AxesExist r axes → AxesApart r axes → (axes.map fun a => if 0 ≤ a then a else a + (r : ℤ)).Nodup := by
    intro r he ha
    have he' : ∀ a ∈ axes, ∃ p : ℕ, Means r a p ∧ (if 0 ≤ a then a else a + (r : ℤ)) = p := by
      intro a ham
      obtain ⟨p, hp⟩ := he a ham
      refine ⟨p, hp, ?_⟩
      obtain ⟨h3, h4⟩ := hp
      split_ifs <;> omega
    unfold AxesApart at ha
    rw [List.Nodup, List.pairwise_map]
    refine ha.imp_of_mem ?_
    intro a b ham hbm hab heq
    obtain ⟨p, hp, hpe⟩ := he' a ham
    obtain ⟨q, hq, hqe⟩ := he' b hbm
    rw [hpe, hqe] at heq
    have : p = q := by exact_mod_cast heq
    subst this
    exact hab p ⟨hp, hq⟩
  have memiff : ∀ r, AxesExist r axes → ∀ b : ℤ, b ∈ (axes.map fun a => if 0 ≤ a then a else a + (r : ℤ)) ↔ ∃ p : ℕ, b = p ∧ ∃ a ∈ axes, Means r a p := by
    intro r he b
    rw [List.mem_map]
    constructor
    · rintro ⟨a, ha, rfl⟩
      obtain ⟨p, hp⟩ := he a ha
      refine ⟨p, ?_, a, ha, hp⟩
      obtain ⟨h3, h4⟩ := hp
      split_ifs <;> omega
    · rintro ⟨p, rfl, a, ha, hm⟩
      refine ⟨a, ha, ?_⟩
      obtain ⟨h3, h4⟩ := hm
      split_ifs <;> omega
  have hperm : (axes.map fun a => if 0 ≤ a then a else a + (s₁.length : ℤ)).Perm (axes.map fun a => if 0 ≤ a then a else a + (s.length : ℤ)) := by
    rw [List.perm_ext_iff_of_nodup (nodup _ h₁ hd₁) (nodup _ h hd)]
    intro b
    rw [memiff _ h₁, memiff _ h]
    exact exists_congr fun p => and_congr_right fun _ => by rw [← h2 p, hpq p, h3 p]
  have hsum := hperm.sum_eq
  have hsumr : ∀ r : ℕ, (axes.map fun a => if 0 ≤ a then a else a + (r : ℤ)).sum = axes.sum + (axes.countP (fun a => decide (a < 0)) : ℤ) * r := by
    intro r
    generalize axes = l
    induction l with
    | nil => simp
    | cons a l ih =>
      simp only [List.map_cons, List.sum_cons, ih, List.countP_cons]
      by_cases h0 : 0 ≤ a
      · simp [h0, not_lt.2 h0]; ring
      · simp [h0, not_le.1 h0]; ring
  rw [hsumr, hsumr] at hsum
  have hc : (axes.countP (fun a => decide (a < 0)) : ℤ) ≠ 0 := by
    obtain ⟨a, ha, h0⟩ := hneg
    have : 0 < axes.countP (fun a => decide (a < 0)) := List.countP_pos_iff.2 ⟨a, ha, by simpa using h0⟩
    omega
  apply hr
  have := mul_left_cancel₀ hc (add_left_cancel hsum)
  exact_mod_cast this

/-- The default axis `-1`: built on rank 2, reused on rank 3, the copy sums over the middle axis. -/
example : reused axesLayer [-1] [[5, 7]] [2, 5, 7] = some [1] ∧ axesLayer.run [-1] [2, 5, 7] = some [2] ∧
    reused meanLayer [-1] [[5, 7]] [6, 8] = some ([1], 8) := by
  decide +kernel

/-! ## Lists of input configs -/

/-- **C122, several inputs**: a copy accepts exactly the number of inputs of the first build, with the same configs; on any other number of
inputs it raises, even if the user gave one config for all. -/
theorem C122_inputs {C : Type} (p : C ⊕ List C) (n₁ : ℕ) (hist : List ℕ) (n : ℕ) (hok : ((inputsLayer C).history p (n₁ :: hist)).isSome) :
    reused (inputsLayer C) p (n₁ :: hist) n = if n = n₁ then (inputsLayer C).run p n else none := by
  have hlist : ∀ (cs : List C) (hs : List ℕ) (q : C ⊕ List C), (inputsLayer C).history (.inr cs) hs = some q → q = .inr cs := by
    intro cs hs
    induction hs with
    | nil => intro q h; simpa [ReLayer.history] using h.symm
    | cons m hs ih =>
      intro q h
      simp only [ReLayer.history, inputsLayer] at h ih
      split_ifs at h
      · exact ih q h
      · simp at h
  obtain ⟨q, hq⟩ := Option.isSome_iff_exists.1 hok
  obtain ⟨cs, hcs, hlen, hb⟩ : ∃ cs : List C, q = .inr cs ∧ cs.length = n₁ ∧ (inputsLayer C).build p n₁ = some (.inr cs) := by
    simp only [ReLayer.history] at hq
    cases p with
    | inl c =>
      simp only [inputsLayer, Option.bind_some] at hq
      exact ⟨List.replicate n₁ c, hlist _ hist q hq, by simp, rfl⟩
    | inr cs =>
      by_cases hl : cs.length = n₁
      · simp only [inputsLayer, hl, if_true, Option.bind_some] at hq
        exact ⟨cs, hlist _ hist q hq, hl, by simp [inputsLayer, hl]⟩
      · simp [inputsLayer, hl] at hq
  unfold reused
  rw [hq, hcs, Option.bind_some]
  unfold ReLayer.run
  by_cases hn : n = n₁
  · subst hn
    rw [hb, if_pos rfl]
    simp [inputsLayer, hlen]
  · rw [if_neg hn]
    have : cs.length ≠ n := by rw [hlen]; exact fun h => hn h.symm
    simp [inputsLayer, this]

example : reused (inputsLayer String) (.inl "c") [2] 2 = some ["c", "c"] ∧ reused (inputsLayer String) (.inl "c") [2] 3 = none ∧
    (inputsLayer String).run (.inl "c") 3 = some ["c", "c", "c"] := by
  decide +kernel

/-! ## Equations -/

namespace Spec
/-- The operand is written as this text; labels are not dots. -/
def WrittenAs (o : Operand) (t : List Char) : Prop := t = o.pre ++ (if o.dots then ['.', '.', '.'] else []) ++ o.post ∧ '.' ∉ o.pre ∧ '.' ∉ o.post
end Spec

theorem written_len {o : Operand} {t : List Char} (h : WrittenAs o t) : o.len = t.length := by
  rw [h.1]
  unfold Operand.len
  split_ifs <;> simp <;> omega

theorem written_dots {o : Operand} {t : List Char} (h : WrittenAs o t) : o.dots = true ↔ '.' ∈ t := by
  obtain ⟨h1, h2, h3⟩ := h
  rw [h1]
  cases hd : o.dots <;> simp [h2, h3]

theorem written_expand {o : Operand} {t : List Char} (h : WrittenAs o t) (rep : List Char) (hr : o.dots = true → rep = ['.', '.', '.']) :
    o.expand rep = t := by
  rw [h.1]
  unfold Operand.expand
  cases hd : o.dots
  · simp
  · rw [hr hd]; simp

/-- The scan finds nothing to expand exactly if all lengths agree. -/
theorem scan_all (ins : List (Operand × ℕ)) (w : Option ℕ) (used : List Char) (h : ∀ p ∈ ins, p.1.len = p.2) :
    ellipsisScan ins w used = .ok (w, used) := by
  induction ins with
  | nil => rfl
  | cons p r ih =>
    obtain ⟨o, nd⟩ := p
    unfold ellipsisScan
    rw [if_neg (by simpa using h (o, nd) (by simp))]
    exact ih fun q hq => h q (List.mem_cons_of_mem _ hq)

theorem scan_bad (ins : List (Operand × ℕ)) (w : Option ℕ) (used : List Char) (h : ∃ p ∈ ins, p.1.len ≠ p.2 ∧ p.1.dots = false) :
    ellipsisScan ins w used = .error () := by
  induction ins generalizing w used with
  | nil => obtain ⟨p, hp, -⟩ := h; simp at hp
  | cons p r ih =>
    obtain ⟨o, nd⟩ := p
    unfold ellipsisScan
    by_cases hb : o.len ≠ nd ∧ o.dots = false
    · rw [if_pos hb.1, if_neg (by simp [hb.2])]
    · have h' : ∃ p ∈ r, p.1.len ≠ p.2 ∧ p.1.dots = false := by
        obtain ⟨q, hq, hq2⟩ := h
        rcases List.mem_cons.1 hq with rfl | hq
        · exact absurd hq2 hb
        · exact ⟨q, hq, hq2⟩
      split_ifs
      · cases w with
        | none => simp only; split_ifs; exacts [ih _ _ h', rfl]
        | some w => simp only; split_ifs; exacts [ih _ _ h', rfl]
      · rfl
      · exact ih _ _ h'

/-- What a successful scan says. -/
theorem scan_ok (ins : List (Operand × ℕ)) (w : Option ℕ) (used : List Char) (w' : Option ℕ) (used' : List Char)
    (h : ellipsisScan ins w used = .ok (w', used')) :
    (∀ v, w = some v → w' = some v) ∧
    ∀ p ∈ ins, p.1.len ≠ p.2 → p.1.dots = true ∧ ∃ v, w' = some v ∧ p.1.pre.length + v + p.1.post.length = p.2 := by
  induction ins generalizing w used with
  | nil => unfold ellipsisScan at h; simp at h; exact ⟨fun v hv => by rw [← h.1]; exact hv, by simp⟩
  | cons p r ih =>
    obtain ⟨o, nd⟩ := p
    unfold ellipsisScan at h
    split_ifs at h with h1 h2
    · cases w with
      | none =>
        simp only at h
        split_ifs at h with h3
        obtain ⟨i1, i2⟩ := ih _ _ h
        refine ⟨by simp, fun p hp hne => ?_⟩
        rcases List.mem_cons.1 hp with rfl | hp
        · refine ⟨h2, _, i1 _ rfl, ?_⟩
          simp only [Operand.len, h2, if_true] at h3 ⊢
          omega
        · exact i2 p hp hne
      | some w =>
        simp only at h
        split_ifs at h with h3
        obtain ⟨i1, i2⟩ := ih _ _ h
        refine ⟨i1, fun p hp hne => ?_⟩
        rcases List.mem_cons.1 hp with rfl | hp
        · refine ⟨h2, _, i1 _ rfl, ?_⟩
          simp only [Operand.len, h2, if_true] at h3
          simp only at h3 ⊢
          omega
        · exact i2 p hp hne
    · obtain ⟨i1, i2⟩ := ih _ _ h
      refine ⟨i1, fun p hp hne => ?_⟩
      rcases List.mem_cons.1 hp with rfl | hp
      · exact absurd hne h1
      · exact i2 p hp hne

/-- **C122, equations**: a `QEinsum` was built on inputs of the ranks `nds` (every ellipsis stands for some number of dimensions other than
three, and there were enough free letters: the written operands have as many labels as the inputs dimensions) and wrote the equation `texts -> out` into its config.  A copy built on inputs of the same ranks computes the same equation,
whatever letters it would choose; and if an operand had an ellipsis, a copy built on other ranks raises, though a new layer might not. -/
theorem C122_equation (order order' : List Char) (hord : '.' ∉ order) (ins : List (Operand × ℕ)) (out : Operand)
    (hlab : ∀ p ∈ ins, '.' ∉ p.1.pre ∧ '.' ∉ p.1.post) (hthree : ∀ p ∈ ins, p.1.dots = true → p.1.len ≠ p.2)
    (houtdots : out.dots = true → ∃ p ∈ ins, p.1.dots = true) (hlabo : '.' ∉ out.pre ∧ '.' ∉ out.post)
    (texts : List (List Char)) (outT : List Char) (h : qeinsumBuild order ins out = some (texts, outT))
    (hlen : List.Forall₂ (fun p t => t.length = p.2) ins texts)
    (ins' : List Operand) (out' : Operand) (hw : List.Forall₂ WrittenAs ins' texts) (hwo : WrittenAs out' outT) (nds : List ℕ)
    (hnds : nds.length = ins.length) :
    (nds = ins.map Prod.snd → qeinsumBuild order' (ins'.zip nds) out' = some (texts, outT)) ∧
    (nds ≠ ins.map Prod.snd → qeinsumBuild order' (ins'.zip nds) out' = none) := by
  -- no operand of the written equation has dots
  have hnodots : (∀ t ∈ texts, '.' ∉ t) ∧ '.' ∉ outT := by
    unfold qeinsumBuild at h
    cases hs : ellipsisScan ins none [] with
    | error e => rw [hs] at h; simp at h
    | ok r =>
      obtain ⟨w, used⟩ := r
      rw [hs] at h
      have hsc := (scan_ok _ _ _ _ _ hs).2
      cases w with
      | none =>
        simp only [Option.some.injEq, Prod.mk.injEq] at h
        have hnd : ∀ p ∈ ins, p.1.dots = false := by
          intro p hp
          by_contra hd
          obtain ⟨-, v, hv, -⟩ := hsc p hp (hthree p hp (by simpa using hd))
          simp at hv
        constructor
        · intro t ht
          rw [← h.1] at ht
          obtain ⟨p, hp, rfl⟩ := List.mem_map.1 ht
          simp [Operand.expand, hnd p hp, hlab p hp]
        · rw [← h.2]
          have : out.dots = false := by
            by_contra hd
            obtain ⟨p, hp, hpd⟩ := houtdots (by simpa using hd)
            rw [hnd p hp] at hpd; simp at hpd
          simp [Operand.expand, this, hlabo]
      | some w =>
        simp only [Option.some.injEq, Prod.mk.injEq] at h
        have hrep : '.' ∉ ((order.filter fun c => !used.contains c).take w).mergeSort (fun a b => decide (a ≤ b)) := by
          intro hm
          rw [List.mem_mergeSort] at hm
          exact hord (List.mem_of_mem_filter (List.mem_of_mem_take hm))
        constructor
        · intro t ht
          rw [← h.1] at ht
          obtain ⟨p, hp, rfl⟩ := List.mem_map.1 ht
          unfold Operand.expand
          split_ifs <;> simp only [List.mem_append, hlab p hp, hrep, or_self, not_false_eq_true]
        · rw [← h.2]
          unfold Operand.expand
          split_ifs <;> simp only [List.mem_append, hlabo, hrep, or_self, not_false_eq_true]
  have hd' : ∀ p ∈ ins'.zip nds, p.1.dots = false := by
    intro p hp
    obtain ⟨t, ht, hwt⟩ := forall₂_left hw (List.of_mem_zip (a := p.1) (b := p.2) hp).1
    rw [← Bool.not_eq_true, written_dots hwt]
    exact hnodots.1 t ht
  have hmaplen : ins'.length = ins.length := by rw [hw.length_eq, ← hlen.length_eq]
  constructor
  · rintro rfl
    have hall : ∀ p ∈ ins'.zip (ins.map Prod.snd), p.1.len = p.2 := by
      clear hd' hnds h hlab hthree houtdots hmaplen hnodots
      induction hw generalizing ins with
      | nil => simp
      | @cons o t _ _ hwt _ ih =>
        cases hlen with
        | cons hl hls =>
          intro p hp
          rw [List.map_cons, List.zip_cons_cons] at hp
          rcases List.mem_cons.1 hp with rfl | hp
          · simpa [written_len hwt] using hl
          · exact ih _ hls p hp
    have htexts : ∀ (rep : List Char) (is : List Operand) (ts : List (List Char)), List.Forall₂ WrittenAs is ts → (∀ t ∈ ts, '.' ∉ t) →
        ∀ ns : List ℕ, ns.length = is.length → (is.zip ns).map (fun p => p.1.expand rep) = ts := by
      intro rep is ts hw hnd
      induction hw with
      | nil => intro ns _; simp
      | @cons o t _ _ hwt _ ih =>
        intro ns hns
        cases ns with
        | nil => simp at hns
        | cons n ns =>
          rw [List.zip_cons_cons, List.map_cons, ih (fun t ht => hnd t (List.mem_cons_of_mem _ ht)) ns (by simpa using hns)]
          rw [written_expand hwt rep (fun hd => absurd ((written_dots hwt).1 hd) (hnd t (by simp)))]
    unfold qeinsumBuild
    rw [scan_all _ _ _ hall]
    simp only [Option.some.injEq, Prod.mk.injEq]
    exact ⟨htexts _ ins' texts hw hnodots.1 _ (by simp [hmaplen]),
      written_expand hwo _ (fun hd => absurd ((written_dots hwo).1 hd) hnodots.2)⟩
  · intro hne
    have hex : ∃ p ∈ ins'.zip nds, p.1.len ≠ p.2 := by
      by_contra hall
      push Not at hall
      apply hne
      clear hd' h hlab hthree houtdots hne hnodots
      induction hw generalizing ins nds with
      | nil =>
        cases hlen
        simpa using hnds
      | @cons o t _ _ hwt _ ih =>
        cases hlen with
        | @cons p _ _ _ hl hls =>
          cases nds with
          | nil => simp at hnds
          | cons n nds =>
            have h0 := hall (o, n) (by simp)
            simp only [written_len hwt] at h0
            rw [List.map_cons, ← hl, h0]
            exact congrArg _ (ih _ hls _ (by simpa using hnds) (by simpa using hmaplen)
              (fun q hq => hall q (by rw [List.zip_cons_cons]; exact List.mem_cons_of_mem _ hq)))
    obtain ⟨p, hp, hl⟩ := hex
    unfold qeinsumBuild
    rw [scan_bad _ _ _ ⟨p, hp, hl, hd' p hp⟩]

/-- `'...ij,...jk->...ik'` built at ranks 3 and 3, reused at the same ranks and at ranks 4 and 4, where a new layer works. -/
example : qeinsumBuild letters [(⟨[], true, ['i', 'j']⟩, 3), (⟨[], true, ['j', 'k']⟩, 3)] ⟨[], true, ['i', 'k']⟩ =
      some ([['a', 'i', 'j'], ['a', 'j', 'k']], ['a', 'i', 'k']) ∧
    qeinsumBuild letters [(⟨['a', 'i', 'j'], false, []⟩, 3), (⟨['a', 'j', 'k'], false, []⟩, 3)] ⟨['a', 'i', 'k'], false, []⟩ =
      some ([['a', 'i', 'j'], ['a', 'j', 'k']], ['a', 'i', 'k']) ∧
    qeinsumBuild letters [(⟨['a', 'i', 'j'], false, []⟩, 4), (⟨['a', 'j', 'k'], false, []⟩, 4)] ⟨['a', 'i', 'k'], false, []⟩ = none ∧
    (qeinsumBuild letters [(⟨[], true, ['i', 'j']⟩, 4), (⟨[], true, ['j', 'k']⟩, 4)] ⟨[], true, ['i', 'k']⟩).isSome := by
  decide +kernel

end HGQ
