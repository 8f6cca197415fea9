import Verif.Model.Table
import Verif.Props.ReplayOps2
import Mathlib.Tactic

/-!
# C74 (traced table layers), C75 (einsum table layers), C76 (activations in tables)
-/
namespace HGQ

/-! ## C74 -/

theorem groupPairs_eq (sizes : ℕ → ℕ) (P J g : ℕ) : groupPairs sizes P J g = (groupIdxs sizes P J g).map (· % J) := by
  unfold groupPairs groupIdxs
  induction P with
  | zero => simp
  | succ P ih =>
    rw [List.range_succ, List.flatMap_append, ih, Nat.succ_mul, List.range_add, List.filter_append, List.map_append]
    congr 1
    simp only [List.flatMap_cons, List.flatMap_nil, List.append_nil, List.filter_map, List.map_map]
    symm
    conv_rhs => rw [← List.map_id (List.filter _ _)]
    refine List.map_congr_left fun j hj => ?_
    have : j < J := List.mem_range.1 (List.mem_filter.1 hj).1
    simp [Nat.mod_eq_of_lt this]

theorem getD_idxOf {l : List ℕ} {a d : ℕ} (h : a ∈ l) : l.getD (l.idxOf a) d = a := by
  rw [List.getD_eq_getElem?_getD, List.getElem?_idxOf h]; rfl

theorem replaySubnet_eq (pairs : List ℕ) (ls : List SubLayer) (j : ℕ) (x : ℕ → ℝ) :
    replaySubnet pairs (ls.map (·.act)) ls j x = kerasSubnet (pairs.getD j 0) ls x 0 := by
  induction ls generalizing x with
  | nil => simp [replaySubnet, kerasSubnet]
  | cons L r ih => simp only [List.map_cons, replaySubnet, kerasSubnet]; exact ih _

/-- Spec: the tracer's range of table input `idx` is a grid with `m + 1` points `l, l + s, …, h`. -/
def Spec.Grid (v : Lhs) (idx m : ℕ) : Prop := 0 < v.s idx ∧ v.h idx = v.l idx + m * v.s idx

theorem tableSize_eq {rnd : ℝ → ℤ} (hr : ∀ z : ℤ, rnd z = z) {v : Lhs} {idx m : ℕ} (h : Spec.Grid v idx m) : tableSize rnd v idx = m + 1 := by
  have e : (v.h idx - v.l idx) / v.s idx = ((m : ℤ) : ℝ) := by
    rw [h.2]; field_simp [h.1.ne']; push_cast; ring
  rw [tableSize, e, hr]; simp

theorem linspace_eq {v : Lhs} {idx m : ℕ} (h : Spec.Grid v idx m) {t : ℕ} (ht : t ≤ m) :
    linspace (v.l idx) (v.h idx) (m + 1) t = v.l idx + t * v.s idx := by
  unfold linspace
  split
  · rename_i h1
    have : t = 0 := by omega
    simp [this]
  · rename_i h1
    have hm : (m : ℝ) ≠ 0 := by
      have : m ≠ 0 := by omega
      exact_mod_cast this
    rw [h.2]
    push_cast
    rw [add_sub_cancel_right, add_sub_cancel_left, mul_comm (m : ℝ), mul_div_assoc, div_self hm, mul_one]

/-- The grouping by table size gives every table its own weights and its own grid. -/
theorem C74_tables {rnd : ℝ → ℤ} (hr : ∀ z : ℤ, rnd z = z) (v : Lhs) (P J : ℕ) (ls : List SubLayer) (idx m : ℕ) (hidx : idx < P * J)
    (hg : Spec.Grid v idx m) :
    buildTable rnd v P J (ls.map (·.act)) ls idx =
      (List.range (m + 1)).map fun t : ℕ => kerasSubnet (idx % J) ls (fun _ => v.l idx + t * v.s idx) 0 := by
  have hmem : idx ∈ groupIdxs (tableSize rnd v) P J (tableSize rnd v idx) := by
    simp [groupIdxs, hidx]
  unfold buildTable
  simp only [groupPairs_eq, replaySubnet_eq, getD_idxOf hmem]
  have hp : ((groupIdxs (tableSize rnd v) P J (tableSize rnd v idx)).map (· % J)).getD
      ((groupIdxs (tableSize rnd v) P J (tableSize rnd v idx)).idxOf idx) 0 = idx % J := by
    rw [List.getD_eq_getElem?_getD, List.getElem?_map, List.getElem?_idxOf hmem]; rfl
  rw [hp, tableSize_eq hr hg]
  refine List.map_congr_left fun t ht => ?_
  rw [linspace_eq hg (by have := List.mem_range.1 ht; omega)]

/-- **C74, dense and convolutional tables.** For all sizes, networks (any depth and activations), quantizers and inputs whose quantized
values lie on the tracer's grids, the traced layer computes exactly the layer. -/
theorem C74_dense {rnd : ℝ → ℤ} (hr : ∀ z : ℤ, rnd z = z) (v : Lhs) (P nIn nOut : ℕ) (ls : List SubLayer) (bn : ℕ → ℝ → ℝ)
    (toq iq : ℕ → ℝ → ℝ) (act : ℝ → ℝ) (x : ℕ → ℝ) (p o : ℕ) (hp : p < P) (ho : o < nOut)
    (hgrid : ∀ i < nIn, ∃ m t : ℕ, Spec.Grid v (p * (nIn * nOut) + (i * nOut + o)) m ∧ t ≤ m ∧
      iq (p * (nIn * nOut) + (i * nOut + o)) (x i) = v.l (p * (nIn * nOut) + (i * nOut + o)) + t * v.s (p * (nIn * nOut) + (i * nOut + o))) :
    replayDenseT rnd v P nIn nOut (ls.map (·.act)) ls bn toq iq act x p o =
      denseT nIn nOut act (fun j => iq (p * (nIn * nOut) + j)) (fun j => toq (p * (nIn * nOut) + j)) bn ls x o := by
  unfold replayDenseT denseT
  congr 2
  refine List.map_congr_left fun i hi => ?_
  have hi' : i < nIn := List.mem_range.1 hi
  obtain ⟨m, t, hg, ht, hx⟩ := hgrid i hi'
  have hj : i * nOut + o < nIn * nOut := by
    calc i * nOut + o < i * nOut + nOut := by omega
      _ = (i + 1) * nOut := by ring
      _ ≤ nIn * nOut := Nat.mul_le_mul_right _ hi'
  have hidx : p * (nIn * nOut) + (i * nOut + o) < P * (nIn * nOut) := by
    calc p * (nIn * nOut) + (i * nOut + o) < p * (nIn * nOut) + nIn * nOut := by omega
      _ = (p + 1) * (nIn * nOut) := by ring
      _ ≤ P * (nIn * nOut) := Nat.mul_le_mul_right _ hp
  have hmod : (p * (nIn * nOut) + (i * nOut + o)) % nOut = o := by
    rw [show p * (nIn * nOut) + (i * nOut + o) = o + (p * nIn + i) * nOut by ring, Nat.add_mul_mod_self_right, Nat.mod_eq_of_lt ho]
  have hmodJ : (p * (nIn * nOut) + (i * nOut + o)) % (nIn * nOut) = i * nOut + o := by
    rw [Nat.add_comm, Nat.add_mul_mod_self_right, Nat.mod_eq_of_lt hj]
  simp only [C74_tables hr v P _ ls _ m hidx hg, hmod, hmodJ, lookup]
  have hfl : ⌊(iq (p * (nIn * nOut) + (i * nOut + o)) (x i) - v.l (p * (nIn * nOut) + (i * nOut + o))) /
      v.s (p * (nIn * nOut) + (i * nOut + o))⌋.toNat = t := by
    rw [hx, add_sub_cancel_left, mul_div_assoc, div_self hg.1.ne', mul_one]
    simp
  rw [hfl, List.getD_eq_getElem?_getD]
  simp only [List.map_map, List.getElem?_map]
  rw [List.getElem?_range (by omega)]
  simp only [Option.map_some, Option.getD_some, Function.comp_apply, hx]

/-- **C74, folded batch normalization, part.** With `center` the folded table equals Keras' batch normalization divided by `sqrt(n_in)`. Missing:
`center=False`, see `C74_center_violated`. -/
theorem C74_bn_partial (p : BnParams) (hc : p.center = true) (nIn o : ℕ) (v : ℝ) : replayBn p nIn o v = kerasBn p nIn o v := by
  unfold replayBn kerasBn
  simp only [hc, if_true]
  ring

/-- **C74 fails with `bn_center=False`.** Every table entry comes out `1/sqrt(n_in)` too large, so that without the table quantizer the traced
output exceeds the layer's by `sqrt(n_in)` for every input. -/
theorem C74_center_violated (p : BnParams) (hc : p.center = false) (nIn o : ℕ) (hn : 0 < nIn) :
    (∀ v, replayBn p nIn o v = kerasBn p nIn o v + 1 / Real.sqrt nIn) ∧
    ∀ f : ℕ → ℝ, ((List.range nIn).map fun i => replayBn p nIn o (f i)).sum = ((List.range nIn).map fun i => kerasBn p nIn o (f i)).sum + Real.sqrt nIn := by
  have h1 : ∀ v, replayBn p nIn o v = kerasBn p nIn o v + 1 / Real.sqrt nIn := by
    intro v
    unfold replayBn kerasBn
    simp only [hc, Bool.false_eq_true, if_false]
    ring
  refine ⟨h1, fun f => ?_⟩
  simp only [h1, List.sum_map_add]
  congr 1
  have hpos : (0 : ℝ) < nIn := by exact_mod_cast hn
  simp only [List.map_const', List.sum_replicate, List.length_range, nsmul_eq_mul]
  rw [mul_one_div, Real.div_sqrt]

/-- Hypotheses of `C74_dense`: one input, two outputs, a hidden layer of width 2, a quantizer rounding down to halves in `[-1, 1]`. -/
example : ∃ (v : Lhs) (iq : ℕ → ℝ → ℝ), ∀ x : ℝ, ∀ idx, ∃ m t : ℕ, Spec.Grid v idx m ∧ t ≤ m ∧ iq idx x = v.l idx + t * v.s idx := by
  refine ⟨⟨fun _ => -1, fun _ => 1, fun _ => 1 / 2⟩, fun _ x => -1 + (min 4 ⌊(x + 1) * 2⌋.toNat : ℕ) * (1 / 2), fun x _ => ?_⟩
  exact ⟨4, _, ⟨by norm_num, by norm_num⟩, min_le_left _ _, rfl⟩

/-! ## C76: activations -/

/-- **C76, part.** All activations with their own numpy version (except `hard_silu`, and `gelu`, which is not modelled) have Keras' values at
every point. -/
theorem C76_agree_partial (a : TableAct) (ha : a ≠ .hardSilu) (x : ℝ) : numpyAct a x = kerasAct a x := by
  cases a with
  | relu =>
    simp only [numpyAct, kerasAct]
    split
    · rename_i h; exact max_eq_right h.le
    · rename_i h; exact max_eq_left (not_lt.1 h)
  | tanh => simp only [numpyAct, kerasAct]; exact Real.tanh_eq x
  | linear => rfl
  | sigmoid => simp only [numpyAct, kerasAct, one_div]
  | swish => simp only [numpyAct, kerasAct, div_eq_mul_inv]
  | elu =>
    simp only [numpyAct, kerasAct]
    rcases lt_trichotomy x 0 with h | h | h
    · simp [h, h.le.not_gt]
    · simp [h]
    · simp [h, h.le.not_gt]
  | selu =>
    simp only [numpyAct, kerasAct]
    rcases lt_trichotomy x 0 with h | h | h
    · simp [h, h.le.not_gt]
    · simp [h]
    · simp [h, h.le.not_gt]
  | softplus => simp only [numpyAct, kerasAct, add_comm]
  | softsign => simp only [numpyAct, kerasAct, add_comm]
  | exponential => rfl
  | hardSilu => exact absurd rfl ha

/-- **C76 fails for `hard_silu`.** The numpy version used for the tables agrees with Keras' exactly for `x = 0` and `|x| ≥ 3`. -/
theorem C76_hard_silu_violated (x : ℝ) : numpyAct .hardSilu x = kerasAct .hardSilu x ↔ x = 0 ∨ 3 ≤ |x| := by
  simp only [numpyAct, kerasAct]
  rw [mul_eq_mul_left_iff]
  constructor
  · rintro (h | h)
    · by_contra hc
      push Not at hc
      obtain ⟨h0, h3⟩ := hc
      rw [abs_lt] at h3
      have h6 : min 6 (max 0 (x + 3)) = x + 3 := by rw [max_eq_right (by linarith), min_eq_right (by linarith)]
      rw [h6] at h
      rcases le_total x (-1) with h1 | h1
      · rw [max_eq_left (by linarith), min_eq_right (by norm_num)] at h; linarith
      · rw [max_eq_right (by linarith)] at h
        rcases le_total x 1 with h2 | h2
        · rw [min_eq_right (by linarith)] at h; apply h0; linarith
        · rw [min_eq_left (by linarith)] at h; linarith
    · exact Or.inl h
  · rintro (h | h)
    · exact Or.inr h
    · left
      rcases le_abs.1 h with h | h
      · rw [max_eq_right (by linarith), max_eq_right (by linarith), min_eq_left (by linarith), min_eq_left (by linarith)]; norm_num
      · rw [max_eq_left (by linarith), max_eq_left (by linarith)]; norm_num

/-! ## C75: QEinsumDenseT -/

section EinsumTable
variable {L : Type} [DecidableEq L]

/-- The coordinates of all axes from those of the contracted ones (`p`) and a labelling of the others. -/
def fillAxes (P : L → Bool) (σ : L → ℕ) : List L → List ℕ → List ℕ
  | [], _ => []
  | c :: ls, p => if P c then p.headD 0 :: fillAxes P σ ls p.tail else σ c :: fillAxes P σ ls p

theorem mem_redIdx (P : L → Bool) (dim σ : L → ℕ) (ls : List L) (q : List ℕ) :
    q ∈ redIdx (ls.map P) (ls.map dim) ((ls.filter fun c => !P c).map σ) ↔
      ∃ p, InShape p ((ls.filter P).map dim) ∧ q = fillAxes P σ ls p := by
  induction ls generalizing q with
  | nil => simp [redIdx, fillAxes, InShape]
  | cons c ls ih =>
    by_cases hc : P c = true
    · simp only [List.map_cons, hc, redIdx, List.mem_flatMap, List.mem_range, List.mem_map, List.filter_cons, Bool.not_true,
        Bool.false_eq_true, if_false, if_true, fillAxes, ih]
      constructor
      · rintro ⟨i, hi, q', ⟨p, hp, rfl⟩, rfl⟩
        exact ⟨i :: p, List.Forall₂.cons hi hp, rfl⟩
      · rintro ⟨p, hp, rfl⟩
        cases hp with
        | cons hi hp => exact ⟨_, hi, _, ⟨_, hp, rfl⟩, rfl⟩
    · have hc' : P c = false := by simpa using hc
      simp only [List.map_cons, hc', redIdx, List.mem_map, List.filter_cons, Bool.not_false, Bool.false_eq_true, if_false, if_true,
        fillAxes, ih]
      constructor
      · rintro ⟨q', ⟨p, hp, rfl⟩, rfl⟩
        exact ⟨p, hp, rfl⟩
      · rintro ⟨p, hp, rfl⟩
        exact ⟨_, ⟨p, hp, rfl⟩, rfl⟩

theorem nodup_redIdx (fl : List Bool) (sh idx : List ℕ) : (redIdx fl sh idx).Nodup := by
  induction fl generalizing sh idx with
  | nil => simp [redIdx]
  | cons b fl ih =>
    cases sh with
    | nil => cases b <;> simp [redIdx]
    | cons n sh =>
      cases b with
      | true =>
        simp only [redIdx]
        rw [List.nodup_flatMap]
        refine ⟨fun i _ => (ih sh idx).map (fun a b h => by simpa using h), ?_⟩
        refine (List.nodup_range (n := n)).imp ?_
        intro i j hij
        simp only [Function.onFun, List.disjoint_left, List.mem_map]
        rintro _ ⟨a, _, rfl⟩ ⟨b, _, h⟩
        exact hij (by simpa using (congrArg List.head? h).symm)
      | false =>
        cases idx with
        | nil => simp [redIdx]
        | cons i idx =>
          simp only [redIdx]
          exact (ih sh idx).map fun a b h => by simpa using h

/-- Labelling: contracted labels from `p`, the others from `σ`. -/
def Spec.assign (con : List L) (σ : L → ℕ) (p : List ℕ) (c : L) : ℕ := if c ∈ con then p.getD (con.idxOf c) 0 else σ c

theorem fillAxes_eq (P : L → Bool) (σ : L → ℕ) (ls : List L) (hnd : ls.Nodup) (p : List ℕ) (hp : p.length = (ls.filter P).length) :
    fillAxes P σ ls p = ls.map (Spec.assign (ls.filter P) σ p) := by
  induction ls generalizing p with
  | nil => rfl
  | cons c ls ih =>
    obtain ⟨hcn, hnd'⟩ := List.nodup_cons.1 hnd
    by_cases hc : P c = true
    · simp only [List.filter_cons, hc, if_true] at hp ⊢
      cases p with
      | nil => simp at hp
      | cons i p =>
        simp only [fillAxes, hc, if_true, List.headD_cons, List.tail_cons, List.map_cons]
        congr 1
        · simp [Spec.assign]
        · rw [ih hnd' p (by simpa using hp)]
          refine List.map_congr_left fun d hd => ?_
          have hne : d ≠ c := fun h => hcn (h ▸ hd)
          simp only [Spec.assign, List.mem_cons, hne, false_or]
          rw [List.idxOf_cons_ne _ (Ne.symm hne), List.getD_cons_succ]
    · have hc' : P c = false := by simpa using hc
      simp only [List.filter_cons, hc', Bool.false_eq_true, if_false] at hp ⊢
      simp only [fillAxes, hc', Bool.false_eq_true, if_false, List.map_cons]
      congr 1
      · simp [Spec.assign, List.mem_filter, hc']
      · exact ih hnd' p hp

theorem dropKept_false (fl : List Bool) (idx : List ℕ) (h : idx.length = (fl.filter (!·)).length) : dropKept false fl idx = idx := by
  induction fl generalizing idx with
  | nil => simp at h; simp [dropKept, h]
  | cons b fl ih =>
    cases b with
    | true => simp only [dropKept, Bool.false_eq_true, if_false]; exact ih idx (by simpa using h)
    | false =>
      cases idx with
      | nil => simp at h
      | cons i idx => simp only [dropKept]; rw [ih idx (by simpa using h)]

theorem redShape_false (P : L → Bool) (dim : L → ℕ) (ls : List L) :
    redShape false (ls.map P) (ls.map dim) = (ls.filter fun c => !P c).map dim := by
  induction ls with
  | nil => rfl
  | cons c ls ih => cases hc : P c <;> simp [redShape, hc, ih]

theorem idxOf_map_of_inj {α β : Type} [DecidableEq α] [DecidableEq β] (f : α → β) (l : List α) (a : α)
    (hinj : ∀ b ∈ l, f b = f a → b = a) : (l.map f).idxOf (f a) = l.idxOf a := by
  induction l with
  | nil => rfl
  | cons b l ih =>
    simp only [List.map_cons]
    by_cases h : b = a
    · subst h; simp
    · have : f b ≠ f a := fun h' => h (hinj b (List.mem_cons_self ..) h')
      rw [List.idxOf_cons_ne _ this, List.idxOf_cons_ne _ h, ih fun c hc => hinj c (List.mem_cons_of_mem _ hc)]

theorem map_idxOf_self {α : Type} [DecidableEq α] (l : List α) (h : l.Nodup) : l.map l.idxOf = List.range l.length := by
  apply List.ext_getElem
  · simp
  · intro i h1 h2
    simp only [List.getElem_map, List.getElem_range]
    exact h.idxOf_getElem i (by simpa using h1)

open Spec in
/-- **C75.** For every equation (input, kernel and output labels without repetition, every output label present, kernel-only labels in the
output), all axis sizes, tables, quantizers and inputs: output entry `output.map σ` is the activation of the sum, over all values of the
contracted labels, of the table at the kernel coordinates applied to the input entry at the input coordinates.  `l` is any listing of the
values of the contracted labels. -/
theorem C75_einsum_partial (e : EinsumT L) (norm : List L) (dim : L → ℕ) (f : List ℕ → List ℕ → List ℕ → ℝ → ℝ) (act : ℝ → ℝ) (x : List ℕ → ℝ)
    (hi : e.input.Nodup) (hk : e.kernel.Nodup) (ho : e.output.Nodup) (hout : ∀ c ∈ e.output, c ∈ e.input ∨ c ∈ e.kernel)
    (hext : ∀ c ∈ e.kernel, c ∉ e.input → c ∈ e.output) (hnorm : ∀ c ∈ norm, c ∈ e.input ∨ c ∈ e.kernel)
    (l : List (List ℕ)) (hl : Positions ((e.input.filter fun c => c ∉ e.output).map dim) l) :
    ∃ out, einsumDenseT e norm dim f act x = some out ∧ out.shape = e.output.map dim ∧
      ∀ σ : L → ℕ, out.get (e.output.map σ) = act ((l.map fun p =>
        let τ := assign (e.input.filter fun c => c ∉ e.output) σ p
        f (e.kernel.map τ) (norm.map τ) ((e.input ++ e.kernel.filter fun c => c ∉ e.input).map τ) (x (e.input.map τ))).sum) := by
  -- the presum labels
  set P : L → Bool := fun c => decide (c ∉ e.output) with hP
  have hextra : ∀ c ∈ e.extra, P c = false := by
    intro c hc
    have := List.mem_filter.1 hc
    simp [hP, hext c this.1 (by simpa using this.2)]
  have hcon : e.contract = e.presum.map P := by
    simp only [EinsumT.contract, EinsumT.presum, List.map_append]
    congr 1
    exact (List.map_congr_left fun c hc => hextra c hc).symm
  have hfp : e.presum.filter P = e.input.filter P := by
    have hnil : e.extra.filter P = [] := List.filter_eq_nil_iff.2 (fun c hc => by simp [hextra c hc])
    rw [EinsumT.presum, List.filter_append, hnil, List.append_nil]
  have hpost : e.post = e.presum.filter fun c => !P c := by
    rw [EinsumT.presum, List.filter_append, EinsumT.post]
    congr 1
    · apply List.filter_congr; intro c _; simp [hP]
    · exact (List.filter_eq_self.2 fun c hc => by simp [hextra c hc]).symm
  have hpnd : e.presum.Nodup := by
    rw [EinsumT.presum, List.nodup_append]
    refine ⟨hi, hk.filter _, ?_⟩
    intro a ha b hb hab
    subst hab
    simpa [EinsumT.extra, ha] using hb
  have hpostnd : e.post.Nodup := by rw [hpost]; exact hpnd.filter _
  have hmempost : ∀ c, c ∈ e.post ↔ c ∈ e.output := by
    intro c
    rw [hpost, List.mem_filter, EinsumT.presum, List.mem_append, EinsumT.extra, List.mem_filter]
    simp only [hP]
    constructor
    · rintro ⟨_, h⟩; simpa using h
    · intro h
      refine ⟨?_, by simpa using h⟩
      rcases hout c h with h1 | h1
      · exact Or.inl h1
      · by_cases h2 : c ∈ e.input
        · exact Or.inl h2
        · exact Or.inr ⟨h1, by simpa using h2⟩
  have hperm : e.output.Perm e.post := (List.perm_ext_iff_of_nodup ho hpostnd).2 fun c => (hmempost c).symm
  set pre : Arr ℝ := ⟨e.presum.map dim, fun c =>
    f (e.kernelAxes.map fun a => c.getD a 0) ((e.bnAxes norm).map fun a => c.getD a 0) c (x (c.take e.input.length))⟩ with hpre
  have hrs : (npReduce List.sum false e.contract pre).shape = e.post.map dim := by
    simp only [npReduce, hcon, hpre, redShape_false, hpost]
  have htp : e.transpose.Perm (List.range (npReduce List.sum false e.contract pre).shape.length) := by
    rw [hrs, List.length_map, ← map_idxOf_self _ hpostnd]
    exact hperm.map _
  have hgetpost : ∀ c ∈ e.output, ∀ g : L → ℕ, (e.post.map g).getD (e.post.idxOf c) 0 = g c := by
    intro c hc g
    rw [List.getD_eq_getElem?_getD, List.getElem?_map, List.getElem?_idxOf ((hmempost c).2 hc)]; rfl
  have hT : einsumDenseT e norm dim f act x = some ⟨e.transpose.map fun j => (npReduce List.sum false e.contract pre).shape.getD j 0,
      fun idx => act ((npReduce List.sum false e.contract pre).get
        ((List.range (npReduce List.sum false e.contract pre).shape.length).map fun j => idx.getD (e.transpose.idxOf j) 0))⟩ := by
    simp only [einsumDenseT, npTranspose]
    rw [if_pos htp, Option.map_some]
  refine ⟨_, hT, ?_, ?_⟩
  · simp only [hrs, EinsumT.transpose, List.map_map]
    exact List.map_congr_left fun c hc => hgetpost c hc dim
  · intro σ
    simp only [hrs, List.length_map]
    congr 1
    have hidx : (List.range e.post.length).map (fun j => (e.output.map σ).getD (e.transpose.idxOf j) 0) = e.post.map σ := by
      rw [← map_idxOf_self _ hpostnd, List.map_map]
      refine List.map_congr_left fun c hc => ?_
      have hco := (hmempost c).1 hc
      have h1 : e.transpose.idxOf (e.post.idxOf c) = e.output.idxOf c := by
        refine idxOf_map_of_inj e.post.idxOf e.output c fun b hb h => ?_
        exact (List.idxOf_inj ((hmempost b).2 hb)).1 h
      simp only [Function.comp_apply, h1]
      rw [List.getD_eq_getElem?_getD, List.getElem?_map, List.getElem?_idxOf hco]; rfl
    rw [hidx]
    simp only [npReduce, hcon, hpre]
    have hkept : (e.post.map σ).length = ((e.presum.map P).filter (!·)).length := by
      rw [List.length_map, hpost, List.filter_map, List.length_map]; rfl
    rw [dropKept_false _ _ hkept, hpost]
    -- the list of summed coordinates is a permutation of the listing
    have hperm2 : (redIdx (e.presum.map P) (e.presum.map dim) ((e.presum.filter fun c => !P c).map σ)).Perm
        (l.map fun p => e.presum.map (assign (e.input.filter P) σ p)) := by
      have hinj : ∀ p ∈ l, ∀ q ∈ l, e.presum.map (assign (e.input.filter P) σ p) = e.presum.map (assign (e.input.filter P) σ q) → p = q := by
        intro p hp q hq h
        have hlp := (List.Forall₂.length_eq ((hl.2 p).1 hp)).trans (List.length_map _)
        have hlq := (List.Forall₂.length_eq ((hl.2 q).1 hq)).trans (List.length_map _)
        apply List.ext_getElem (by rw [hlp, hlq])
        intro n h1 h2
        have hn : n < (e.input.filter P).length := by rw [← hlp]; exact h1
        have hmem : (e.input.filter P)[n] ∈ e.presum := by
          exact List.mem_append.2 (Or.inl (List.mem_filter.1 (List.getElem_mem _)).1)
        have hc := List.map_inj_left.1 h _ hmem
        have hidx' : (e.input.filter P).idxOf (e.input.filter P)[n] = n := (hi.filter _).idxOf_getElem n hn
        simp only [assign, List.getElem_mem, if_true, hidx', List.getD_eq_getElem?_getD, List.getElem?_eq_getElem h1,
          List.getElem?_eq_getElem h2, Option.getD_some] at hc
        exact hc
      rw [List.perm_ext_iff_of_nodup (nodup_redIdx _ _ _) (List.Nodup.map_on hinj hl.1)]
      intro q
      rw [mem_redIdx, hfp]
      simp only [List.mem_map, hl.2]
      have hflt : (e.input.filter P) = e.input.filter fun c => c ∉ e.output := rfl
      constructor
      · rintro ⟨p, hp, rfl⟩
        refine ⟨p, hp, ?_⟩
        rw [fillAxes_eq P σ _ hpnd p (by rw [hfp]; exact (List.Forall₂.length_eq hp).trans (List.length_map _)), hfp]
      · rintro ⟨p, hp, rfl⟩
        refine ⟨p, hp, ?_⟩
        rw [fillAxes_eq P σ _ hpnd p (by rw [hfp]; exact (List.Forall₂.length_eq hp).trans (List.length_map _)), hfp]
    rw [((hperm2.map _).sum_eq), List.map_map]
    congr 1
    refine List.map_congr_left fun p _ => ?_
    have hget : ∀ (τ : L → ℕ) (c : L), c ∈ e.presum → (e.presum.map τ).getD (e.presum.idxOf c) 0 = τ c := by
      intro τ c hc
      rw [List.getD_eq_getElem?_getD, List.getElem?_map, List.getElem?_idxOf hc]; rfl
    have hin : ∀ c, c ∈ e.input ∨ c ∈ e.kernel → c ∈ e.presum := by
      intro c hc
      rw [EinsumT.presum, List.mem_append, EinsumT.extra, List.mem_filter]
      by_cases h : c ∈ e.input
      · exact Or.inl h
      · exact Or.inr ⟨hc.resolve_left h, by simpa using h⟩
    simp only [Function.comp_apply, EinsumT.kernelAxes, EinsumT.bnAxes, List.map_map]
    congr 1
    · exact List.map_congr_left fun c hc => hget _ c (hin c (Or.inr hc))
    · exact List.map_congr_left fun c hc => hget _ c (hin c (hnorm c hc))
    · congr 1
      rw [EinsumT.presum, List.map_append, List.take_left' (List.length_map _)]

end EinsumTable

/-- A dense layer `bc,cd->bd` meets the hypotheses of `C75_einsum_partial`. -/
example : (⟨["b", "c"], ["c", "d"], ["b", "d"]⟩ : EinsumT String).transpose = [0, 1] ∧
    (⟨["b", "c"], ["c", "d"], ["b", "d"]⟩ : EinsumT String).kernelAxes = [1, 2] ∧
    (⟨["b", "c"], ["c", "d"], ["b", "d"]⟩ : EinsumT String).contract = [false, true, false] := by decide

end HGQ
