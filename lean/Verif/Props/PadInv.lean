import Verif.Props.SampleMask

/-!
# C124: padding does not change the valid steps

The same attention layer on short sequences and on longer ones, padded at the end and masked.
-/
namespace HGQ
open Spec

/-! ## Specification -/

/-- `y` consists of the first `L` steps of the sequences `x`. -/
def Spec.FirstSteps (L : ℕ) (x y : Arr ℚ) : Prop :=
  ∃ B S r, x.shape = B :: S :: r ∧ y.shape = B :: L :: r ∧ L ≤ S ∧ ∀ idx, InShape idx y.shape → x.get idx = y.get idx

/-- `long` is the mask `short`, for `Lq` queries and `Lk` keys, with further keys hidden. -/
def Spec.ExtendsMask (Lq Lk : ℕ) (long short : ℕ → List ℕ → Bool) : Prop :=
  ∀ b h t s, t < Lq → long b [h, t, s] = if s < Lk then short b [h, t, s] else false

/-- Scores of keys that are not masked are at least the value that replaces masked ones, softmax.py L117 (needed for the stable softmax only). -/
def Spec.ScoresAbove (m : MhaArr) (mask : ℕ → List ℕ → Bool) (query key : Arr ℚ) : Prop :=
  m.stable = true → ∀ Q K S, (m.q.layer (onlyIf m.enableIq m.qIq) (some m.q.oq) m.n 1 2).keras [query] = some Q →
    (m.k.layer (onlyIf m.enableIq m.kIq) (some m.k.oq) m.n 1 2).keras [key] = some K → kerasScores m Q K = some S →
    ∀ b h t s, InShape [b, h, t, s] S.shape → mask b [h, t, s] = true → -1000000000 ≤ S.get [b, h, t, s]

/-! ## Arrays -/

/-- The entries of the smaller array `y` are those of `x`. -/
def Sub (x y : Arr ℚ) : Prop := ∀ idx, InShape idx y.shape → InShape idx x.shape ∧ x.get idx = y.get idx

theorem first_sub {L : ℕ} {x y : Arr ℚ} (h : FirstSteps L x y) : Sub x y := by
  obtain ⟨B, S, r, h1, h2, h3, h4⟩ := h
  intro idx hi
  refine ⟨?_, h4 idx hi⟩
  rw [h2] at hi
  rw [h1]
  cases hi with
  | cons g1 g2 =>
    cases g2 with
    | cons g3 g4 => exact .cons g1 (.cons (lt_of_lt_of_le g3 h3) g4)

theorem sub_opt {q : Option ArrQuant} {x y u v : Arr ℚ} (h : Sub x y) (hu : kerasOpt q x = some u) (hv : kerasOpt q y = some v) : Sub u v := by
  intro idx hi
  rw [quant_shape hv] at hi
  obtain ⟨h1, h2⟩ := h idx hi
  refine ⟨by rw [quant_shape hu]; exact h1, ?_⟩
  rw [kerasOpt_get hu h1, kerasOpt_get hv hi, h2]

/-- Entries of two einsums, the second one of smaller arrays with equally many summed entries. -/
theorem sub_einsum {aL bL oL : List ℕ} {x y x' y' u v : Arr ℚ} (hx : Sub x x') (hy : Sub y y')
    (hsz : ∀ l, l ∈ aL ∨ l ∈ bL → labelSize aL bL x'.shape y'.shape l ≤ labelSize aL bL x.shape y.shape l)
    (hsum : ∀ l, l ∈ aL ∨ l ∈ bL → l ∉ oL → labelSize aL bL x'.shape y'.shape l = labelSize aL bL x.shape y.shape l)
    (hu : run (npEinsum aL bL oL x y) = some u) (hv : run (npEinsum aL bL oL x' y') = some v) : Sub u v := by
  obtain ⟨a, ha, rfl⟩ := Option.map_eq_some_iff.1 hu
  obtain ⟨a', ha', rfl⟩ := Option.map_eq_some_iff.1 hv
  unfold npEinsum at ha ha'
  split at ha
  swap
  · simp at ha
  rename_i hc
  split at ha'
  swap
  · simp at ha'
  rename_i hc'
  obtain rfl := Option.some.inj ha
  obtain rfl := Option.some.inj ha'
  intro idx hi
  have hi' : InShape idx (oL.map (labelSize aL bL x'.shape y'.shape)) := hi
  have hio : InShape idx (oL.map (labelSize aL bL x.shape y.shape)) := by
    rw [inShape_iff] at hi' ⊢
    refine ⟨by simpa using hi'.1, fun k hk => lt_of_lt_of_le (hi'.2 k (by simpa using hk)) ?_⟩
    have hk' : k < oL.length := by simpa using hk
    rw [List.getD_eq_getElem?_getD, List.getElem?_eq_getElem (by simpa using hk'), Option.getD_some, List.getElem_map,
      List.getD_eq_getElem?_getD, List.getElem?_eq_getElem (by simpa using hk'), Option.getD_some, List.getElem_map]
    exact hsz _ (hc.2.2 _ (List.getElem_mem _))
  refine ⟨hio, ?_⟩
  have hlen : idx.length = oL.length := by simpa using hi'.length_eq
  rw [norm_get (a := _) hio, norm_get (a := _) hi']
  simp only
  have hs : (summedLabels aL bL oL).map (labelSize aL bL x'.shape y'.shape) = (summedLabels aL bL oL).map (labelSize aL bL x.shape y.shape) := by
    refine List.map_congr_left fun l hl => ?_
    simp only [summedLabels, List.mem_dedup, List.mem_filter, List.mem_append, decide_eq_true_eq] at hl
    exact hsum l hl.1 hl.2
  rw [hs]
  congr 1
  refine List.map_congr_left fun s hs' => ?_
  rw [← hs] at hs'
  have hs' := (mem_indices _ _).1 hs'
  have hsl : s.length = (summedLabels aL bL oL).length := by simpa using hs'.length_eq.symm
  have hval : ∀ l, l ∈ aL ∨ l ∈ bL → labelVal aL bL oL idx s l < labelSize aL bL x'.shape y'.shape l := by
    intro l hl
    unfold labelVal
    split
    · rename_i ho'
      have := (List.forall₂_iff_get.1 hi').2 (oL.idxOf l) (by rw [hlen]; exact List.idxOf_lt_length_of_mem ho') (by simpa using List.idxOf_lt_length_of_mem ho')
      simp only [List.get_eq_getElem, List.getElem_map, List.getElem_idxOf] at this
      rwa [List.getD_eq_getElem?_getD, List.getElem?_eq_getElem (by rw [hlen]; exact List.idxOf_lt_length_of_mem ho'), Option.getD_some]
    · rename_i ho'
      have hm : l ∈ summedLabels aL bL oL := by
        simp [summedLabels, hl, ho']
      have := (List.forall₂_iff_get.1 hs').2 ((summedLabels aL bL oL).idxOf l) (by simpa using List.idxOf_lt_length_of_mem hm) (by rw [hsl]; exact List.idxOf_lt_length_of_mem hm)
      simp only [List.get_eq_getElem, List.getElem_map, List.getElem_idxOf] at this
      rwa [List.getD_eq_getElem?_getD, List.getElem?_eq_getElem (by rw [hsl]; exact List.idxOf_lt_length_of_mem hm), Option.getD_some]
  have e1 := (hx (aL.map (labelVal aL bL oL idx s)) (by
    rw [hc'.1, InShape, List.forall₂_map_left_iff, List.forall₂_map_right_iff, List.forall₂_same]
    exact fun l hl => hval l (Or.inl hl))).2
  have e2 := (hy (bL.map (labelVal aL bL oL idx s)) (by
    rw [hc'.2.1, InShape, List.forall₂_map_left_iff, List.forall₂_map_right_iff, List.forall₂_same]
    exact fun l hl => hval l (Or.inr hl))).2
  rw [e1, e2]

/-- Shapes of an einsum. -/
theorem einsum_shape {aL bL oL : List ℕ} {x y u : Arr ℚ} (hu : run (npEinsum aL bL oL x y) = some u) :
    x.shape = aL.map (labelSize aL bL x.shape y.shape) ∧ y.shape = bL.map (labelSize aL bL x.shape y.shape) ∧ u.shape = oL.map (labelSize aL bL x.shape y.shape) := by
  obtain ⟨a, ha, rfl⟩ := Option.map_eq_some_iff.1 hu
  unfold npEinsum at ha
  split at ha
  swap
  · simp at ha
  rename_i hc
  obtain rfl := Option.some.inj ha
  exact ⟨hc.1, hc.2.1, rfl⟩

/-! ## Projections -/

theorem idxOf_range {n l : ℕ} (h : l < n) : (List.range n).idxOf l = l := by
  have := (List.nodup_range (n := n)).idxOf_getElem l (by simpa using h)
  simpa using this

theorem proj_first {L : ℕ} (p : ProjArr) (iq oq : Option ArrQuant) (k m : ℕ) (hk : 1 ≤ k) {x y u v : Arr ℚ} (h : FirstSteps L x y)
    (hu : (p.layer iq oq 2 k m).keras [x] = some u) (hv : (p.layer iq oq 2 k m).keras [y] = some v) : FirstSteps L u v := by
  obtain ⟨x1, x2, h1, h2, h3⟩ := qlayer_stages hu
  obtain ⟨y1, y2, g1, g2, g3⟩ := qlayer_stages hv
  have hs := sub_opt (first_sub h) h1 g1
  obtain ⟨B, S, r, s1, s2, s3, -⟩ := h
  have sx : x1.shape = B :: S :: r := by rw [quant_shape h1, s1]
  have sy : y1.shape = B :: L :: r := by rw [quant_shape g1, s2]
  simp only [Core.keras, single, run] at h2 g2
  obtain ⟨_, h5, rfl⟩ := Option.map_eq_some_iff.1 h2
  obtain ⟨_, g5, rfl⟩ := Option.map_eq_some_iff.1 g2
  obtain ⟨a, h6, rfl⟩ := Option.map_eq_some_iff.1 h5
  obtain ⟨c, g6, rfl⟩ := Option.map_eq_some_iff.1 g5
  have hsize : ∀ l, l ≠ 1 → labelSize (projInL 2 k) (projKerL 2 k m) y1.shape p.kernel.shape l = labelSize (projInL 2 k) (projKerL 2 k m) x1.shape p.kernel.shape l := by
    intro l hl
    unfold labelSize
    split
    · rename_i hm
      rw [projInL, idxOf_range (by simpa [projInL] using hm), sx, sy]
      match l, hl with
      | 0, _ => rfl
      | l + 2, _ => rfl
    · rfl
  have memIn : ∀ l < 2 + k, l ∈ projInL 2 k := fun l hl => List.mem_range.2 hl
  have idxIn : ∀ l < 2 + k, (projInL 2 k).idxOf l = l := fun l hl => idxOf_range hl
  have h0 : labelSize (projInL 2 k) (projKerL 2 k m) x1.shape p.kernel.shape 0 = B := by
    unfold labelSize
    rw [if_pos (memIn 0 (by omega)), idxIn 0 (by omega), sx]; rfl
  have hx1 : labelSize (projInL 2 k) (projKerL 2 k m) x1.shape p.kernel.shape 1 = S := by
    unfold labelSize
    rw [if_pos (memIn 1 (by omega)), idxIn 1 (by omega), sx]; rfl
  have hy1 : labelSize (projInL 2 k) (projKerL 2 k m) y1.shape p.kernel.shape 1 = L := by
    unfold labelSize
    rw [if_pos (memIn 1 (by omega)), idxIn 1 (by omega), sy]; rfl
  have h1o : ∀ l, l ∉ projOutL 2 k m → l ≠ 1 := fun l hl h => hl (by rw [h]; simp [projOutL])
  have key := sub_einsum hs (fun idx hi => ⟨hi, rfl⟩) (fun l _ => by
      by_cases h1 : l = 1
      · rw [h1, hx1, hy1]; exact s3
      · exact (hsize l h1).le) (fun l _ hl => hsize l (h1o l hl)) (u := a.norm) (v := c.norm) (by rw [h6]; rfl) (by rw [g6]; rfl)
  have ea := (einsum_shape (u := a.norm) (by rw [h6]; rfl)).2.2
  have ec := (einsum_shape (u := c.norm) (by rw [g6]; rfl)).2.2
  have out : projOutL 2 k m = 0 :: 1 :: List.range' (2 + k) m := by simp [projOutL, List.range_succ]
  rw [out] at ea ec
  simp only [List.map_cons, h0, hx1, hy1, hsize 0 (by decide)] at ea ec
  rw [List.map_congr_left (g := labelSize (projInL 2 k) (projKerL 2 k m) x1.shape p.kernel.shape) fun l hl => hsize l (by rw [List.mem_range'_1] at hl; omega)] at ec
  have hb : Sub (addBias p.biasFn a).norm (addBias p.biasFn c).norm := by
    intro idx hi
    have hi' : InShape idx c.shape := hi
    obtain ⟨e1, e2⟩ := key idx hi'
    refine ⟨e1, ?_⟩
    rw [norm_get (a := a) e1, norm_get (a := c) hi'] at e2
    rw [norm_get (a := addBias p.biasFn a) e1, norm_get (a := addBias p.biasFn c) hi']
    simp only [addBias, e2]
  have hfin := sub_opt hb h3 g3
  exact ⟨B, S, _, (quant_shape h3).trans ea, (quant_shape g3).trans ec, s3, fun idx hi => (hfin idx hi).2⟩

/-! ## Softmax -/

theorem row_red (red : List ℚ → ℚ) {a : Arr ℚ} {B H T N : ℕ} (hs : a.shape = [B, H, T, N]) (b h t s : ℕ) :
    (npReduce red true (false :: attnAxes 2) a).get [b, h, t, s] = red ((List.range N).map fun s => a.get [b, h, t, s]) := by
  simp only [npReduce, hs, attnAxes, List.replicate, List.cons_append, List.nil_append, dropKept, redIdx, List.map_cons, List.map_nil]
  congr 1
  simp only [List.map_map, List.map_flatMap]
  rw [List.map_eq_flatMap]
  rfl

theorem row_red' (red : List ℚ → ℚ) {sh : List ℕ} {f : List ℕ → ℚ} {B H T N : ℕ} (hs : sh = [B, H, T, N]) (b h t s : ℕ) :
    (npReduce red true (false :: attnAxes 2) ⟨sh, f⟩).get [b, h, t, s] = red ((List.range N).map fun s => f [b, h, t, s]) :=
  row_red red (a := ⟨sh, f⟩) hs b h t s

theorem poolMax_append (l1 l2 : List ℚ) (u : ℚ) (hu : u ∈ l1) (h : ∀ v ∈ l2, v ≤ u) : poolMax 0 (l1 ++ l2) = poolMax 0 l1 := by
  have hne : l1 ≠ [] := List.ne_nil_of_mem hu
  obtain ⟨a1, a2⟩ := poolMax_top l1 hne
  obtain ⟨b1, b2⟩ := poolMax_top (l1 ++ l2) (by simp [hne])
  refine le_antisymm ?_ (b1 _ (List.mem_append_left _ a2))
  rcases List.mem_append.1 b2 with hm | hm
  · exact a1 _ hm
  · exact (h _ hm).trans (a1 _ hu)

theorem softmax_first (stable : Bool) (expT invT : List ℕ → ℚ → ℚ) {M M' : ℕ → List ℕ → Bool} {Lq Lk : ℕ} (hM : ExtendsMask Lq Lk M M') {x y : Arr ℚ} {B H Sq Sk : ℕ}
    (hx : x.shape = [B, H, Sq, Sk]) (hy : y.shape = [B, H, Lq, Lk]) (hk : Lk ≤ Sk) (hs : Sub x y)
    (hsc : stable = true → ∀ b h t s, InShape [b, h, t, s] y.shape → M' b [h, t, s] = true → -1000000000 ≤ y.get [b, h, t, s]) (b h t s : ℕ) (hb : b < B) (hh : h < H) (ht : t < Lq) :
    (s < Lk → (kerasSoftmaxB stable (attnAxes 2) expT invT M x).get [b, h, t, s] = (kerasSoftmaxB stable (attnAxes 2) expT invT M' y).get [b, h, t, s]) ∧
    (Lk ≤ s → (kerasSoftmaxB stable (attnAxes 2) expT invT M x).get [b, h, t, s] = 0) := by
  have hin : ∀ s < Lk, InShape [b, h, t, s] y.shape := fun s hs => by rw [hy]; exact .cons hb (.cons hh (.cons ht (.cons hs .nil)))
  have hxy : ∀ s < Lk, x.get [b, h, t, s] = y.get [b, h, t, s] := fun s h => (hs _ (hin s h)).2
  have hin' : ∀ s < Lk, M b [h, t, s] = M' b [h, t, s] := fun s hs => by rw [hM b h t s ht, if_pos hs]
  have hout : ∀ s, Lk ≤ s → M b [h, t, s] = false := fun s hs => by rw [hM b h t s ht, if_neg (by omega)]
  obtain ⟨j, rfl⟩ := Nat.exists_eq_add_of_le hk
  have split : List.range (Lk + j) = List.range Lk ++ List.range' Lk j := range_split Lk j
  -- the exponentials
  have he : ∀ s < Lk + j, boolQ (M b [h, t, s]) * expT [h, t, s] ((if stable then (⟨x.shape, fun idx => (npReduce (poolMax 0) true (false :: attnAxes 2)
        ⟨x.shape, fun idx => boolQ (M (idx.headD 0) idx.tail) * x.get idx - (1 - boolQ (M (idx.headD 0) idx.tail)) * 1000000000⟩).get idx -
          (boolQ (M (idx.headD 0) idx.tail) * x.get idx - (1 - boolQ (M (idx.headD 0) idx.tail)) * 1000000000)⟩ : Arr ℚ) else x).get [b, h, t, s]) =
      if s < Lk then boolQ (M' b [h, t, s]) * expT [h, t, s] ((if stable then (⟨y.shape, fun idx => (npReduce (poolMax 0) true (false :: attnAxes 2)
        ⟨y.shape, fun idx => boolQ (M' (idx.headD 0) idx.tail) * y.get idx - (1 - boolQ (M' (idx.headD 0) idx.tail)) * 1000000000⟩).get idx -
          (boolQ (M' (idx.headD 0) idx.tail) * y.get idx - (1 - boolQ (M' (idx.headD 0) idx.tail)) * 1000000000)⟩ : Arr ℚ) else y).get [b, h, t, s]) else 0 := by
    intro s _
    by_cases hsl : s < Lk
    · rw [if_pos hsl, hin' s hsl]
      cases hm : M' b [h, t, s] with
      | false => simp [boolQ]
      | true =>
        congr 2
        cases hst : stable with
        | false => exact hxy s hsl
        | true =>
          simp only [if_true]
          rw [row_red' (poolMax 0) hx, row_red' (poolMax 0) hy]
          simp only [List.headD_cons, List.tail_cons]
          rw [hin' s hsl, hm, hxy s hsl]
          congr 1
          rw [split, List.map_append, List.map_congr_left (l := List.range Lk) (g := fun s => boolQ (M' b [h, t, s]) * y.get [b, h, t, s] - (1 - boolQ (M' b [h, t, s])) * 1000000000)
            fun r hr => by rw [hin' r (List.mem_range.1 hr), hxy r (List.mem_range.1 hr)]]
          refine poolMax_append _ _ (y.get [b, h, t, s]) (List.mem_map.2 ⟨s, List.mem_range.2 hsl, by simp [hm, boolQ]⟩) ?_
          intro v hv
          obtain ⟨r, hr, rfl⟩ := List.mem_map.1 hv
          rw [hout r (List.mem_range'_1.1 hr).1]
          have := hsc hst b h t s (hin s hsl) hm
          simpa [boolQ] using this
    · rw [if_neg hsl, hout s (by omega)]
      simp [boolQ]
  have hsums : ((List.range (Lk + j)).map fun s => boolQ (M b [h, t, s]) * expT [h, t, s] ((if stable then (⟨x.shape, fun idx => (npReduce (poolMax 0) true (false :: attnAxes 2)
        ⟨x.shape, fun idx => boolQ (M (idx.headD 0) idx.tail) * x.get idx - (1 - boolQ (M (idx.headD 0) idx.tail)) * 1000000000⟩).get idx -
          (boolQ (M (idx.headD 0) idx.tail) * x.get idx - (1 - boolQ (M (idx.headD 0) idx.tail)) * 1000000000)⟩ : Arr ℚ) else x).get [b, h, t, s])).sum =
      ((List.range Lk).map fun s => boolQ (M' b [h, t, s]) * expT [h, t, s] ((if stable then (⟨y.shape, fun idx => (npReduce (poolMax 0) true (false :: attnAxes 2)
        ⟨y.shape, fun idx => boolQ (M' (idx.headD 0) idx.tail) * y.get idx - (1 - boolQ (M' (idx.headD 0) idx.tail)) * 1000000000⟩).get idx -
          (boolQ (M' (idx.headD 0) idx.tail) * y.get idx - (1 - boolQ (M' (idx.headD 0) idx.tail)) * 1000000000)⟩ : Arr ℚ) else y).get [b, h, t, s])).sum := by
    rw [List.map_congr_left fun s hs => he s (List.mem_range.1 hs), split, List.map_append, List.sum_append,
      List.map_congr_left fun s hs => if_pos (List.mem_range.1 hs),
      List.sum_eq_zero (l := List.map _ (List.range' Lk j)) (fun v hv => by
        obtain ⟨r, hr, rfl⟩ := List.mem_map.1 hv
        rw [if_neg (by have := (List.mem_range'_1.1 hr).1; omega)]), add_zero]
  refine ⟨fun hsl => ?_, fun hsl => ?_⟩
  · simp only [kerasSoftmaxB]
    rw [row_red' List.sum hx, row_red' List.sum hy]
    simp only [List.headD_cons, List.tail_cons]
    rw [hsums, he s (by omega), if_pos hsl]
  · simp only [kerasSoftmaxB, List.headD_cons, List.tail_cons]
    rw [hout s hsl]
    simp [boolQ]

/-! ## Attention -/

theorem ctx_get {W V C : Arr ℚ} (h : run (npEinsum [0, 2, 1, 4] [0, 4, 2, 3] [0, 1, 2, 3] W V) = some C) {b t h' d : ℕ} (hi : InShape [b, t, h', d] C.shape) :
    C.get [b, t, h', d] = ((List.range (W.shape.getD 3 0)).map fun s => W.get [b, h', t, s] * V.get [b, s, h', d]).sum := by
  obtain ⟨a, ha, rfl⟩ := Option.map_eq_some_iff.1 h
  unfold npEinsum at ha
  split at ha
  swap
  · simp at ha
  obtain rfl := Option.some.inj ha
  have hi' : InShape [b, t, h', d] ([0, 1, 2, 3].map (labelSize [0, 2, 1, 4] [0, 4, 2, 3] W.shape V.shape)) := hi
  rw [norm_get (a := _) hi']
  have e : summedLabels [0, 2, 1, 4] [0, 4, 2, 3] [0, 1, 2, 3] = [4] := by decide
  simp only [e, List.map_cons, List.map_nil, indices, List.map_flatMap]
  congr 1
  rw [List.map_eq_flatMap]
  rfl

theorem context_first (m : MhaArr) (hn : m.n = 2) (hc : m.conv = none) (ha : m.smOq.affine = none) {M M' : ℕ → List ℕ → Bool} {Lq Lk : ℕ} (hM : ExtendsMask Lq Lk M M')
    {Q Q' K K' V V' C C' : Arr ℚ} (hQ : FirstSteps Lq Q Q') (hK : FirstSteps Lk K K') (hV : FirstSteps Lk V V')
    (hsc : m.stable = true → ∀ S, kerasScores m Q' K' = some S → ∀ b h t s, InShape [b, h, t, s] S.shape → M' b [h, t, s] = true → -1000000000 ≤ S.get [b, h, t, s])
    (h : kerasContextB m M Q K V = some C) (h' : kerasContextB m M' Q' K' V' = some C') : FirstSteps Lq C C' := by
  unfold kerasContextB at h h'
  obtain ⟨S, hS, h⟩ := Option.bind_eq_some_iff.1 h
  obtain ⟨W, hW, h⟩ := Option.bind_eq_some_iff.1 h
  obtain ⟨S', hS', h'⟩ := Option.bind_eq_some_iff.1 h'
  obtain ⟨W', hW', h'⟩ := Option.bind_eq_some_iff.1 h'
  have hsc := fun hst => hsc hst S' hS'
  unfold kerasScores at hS hS'
  obtain ⟨S0, e0, hS⟩ := Option.bind_eq_some_iff.1 hS
  obtain ⟨S0', e0', hS'⟩ := Option.bind_eq_some_iff.1 hS'
  rw [hc] at hS hS'
  simp only [convKeras, Option.bind_some] at hS hS'
  have l1 : attnSrcL 2 = [0, 4, 2, 3] := rfl
  have l2 : attnTgtL 2 = [0, 1, 2, 3] := rfl
  have l3 : attnProdL 2 = [0, 2, 1, 4] := rfl
  rw [hn, l1, l2, l3] at e0 e0' h h'
  rw [hn] at hW hW'
  obtain ⟨k1, q1, z1⟩ := einsum_shape e0
  obtain ⟨k2, q2, z2⟩ := einsum_shape e0'
  obtain ⟨B, Sk, r, K1, K2, kle, -⟩ := id hK
  obtain ⟨B', Sq, r', Q1, Q2, qle, -⟩ := id hQ
  obtain ⟨z, hz⟩ : ∃ z, z = labelSize [0, 4, 2, 3] [0, 1, 2, 3] K.shape Q.shape := ⟨_, rfl⟩
  obtain ⟨z', hz'⟩ : ∃ z, z = labelSize [0, 4, 2, 3] [0, 1, 2, 3] K'.shape Q'.shape := ⟨_, rfl⟩
  rw [← hz] at k1 q1 z1
  rw [← hz'] at k2 q2 z2
  rw [K1] at k1
  rw [K2] at k2
  rw [Q1] at q1
  rw [Q2] at q2
  simp only [List.map_cons, List.map_nil, List.cons.injEq] at k1 q1 k2 q2
  obtain ⟨b1, s1, rfl⟩ := k1
  obtain ⟨b2, s2, k2⟩ := k2
  obtain ⟨-, t1, q1⟩ := q1
  obtain ⟨-, t2, q2⟩ := q2
  simp only [List.cons.injEq, and_true] at k2
  obtain ⟨k2, k3⟩ := k2
  have b3 : z' 0 = z 0 := by rw [← b1, ← b2]
  simp only [List.map_cons, List.map_nil] at z1 z2
  have subS : Sub S S' := by
    refine sub_opt (sub_einsum (first_sub hK) (first_sub hQ) ?_ ?_ e0 e0') hS hS'
    · rw [← hz, ← hz']
      intro l hl
      have : l = 0 ∨ l = 1 ∨ l = 2 ∨ l = 3 ∨ l = 4 := by simp at hl; omega
      rcases this with rfl | rfl | rfl | rfl | rfl
      · exact b3.le
      · rw [← t1, ← t2]; exact qle
      · exact k2.ge
      · exact k3.ge
      · rw [← s1, ← s2]; exact kle
    · rw [← hz, ← hz']
      intro l hl hl'
      have : l = 3 := by simp at hl hl'; omega
      subst this
      exact k3.symm
  have sS : S.shape = [z 0, z 2, Sq, Sk] := by rw [quant_shape hS, z1, t1, s1]
  have sS' : S'.shape = [z 0, z 2, Lq, Lk] := by rw [quant_shape hS', z2, t2, s2, b3, k2]
  have soft := fun b h t s => softmax_first m.stable m.expT m.invT hM sS sS' kle subS hsc b h t s
  have wS : W.shape = [z 0, z 2, Sq, Sk] := (quant_shape (q := some m.smOq) hW).trans sS
  have wS' : W'.shape = [z 0, z 2, Lq, Lk] := (quant_shape (q := some m.smOq) hW').trans sS'
  have wIn : ∀ b h t s, b < z 0 → h < z 2 → t < Lq → s < Sk → InShape [b, h, t, s] S.shape := fun b h t s hb hh ht hs => by
    rw [sS]; exact .cons hb (.cons hh (.cons (by omega) (.cons hs .nil)))
  have wIn' : ∀ b h t s, b < z 0 → h < z 2 → t < Lq → s < Lk → InShape [b, h, t, s] S'.shape := fun b h t s hb hh ht hs => by
    rw [sS']; exact .cons hb (.cons hh (.cons ht (.cons hs .nil)))
  have w1 : ∀ b h t s, b < z 0 → h < z 2 → t < Lq → s < Lk → W.get [b, h, t, s] = W'.get [b, h, t, s] := by
    intro b h t s hb hh ht hs
    have i1 := wIn b h t s hb hh ht (by omega)
    have i2 := wIn' b h t s hb hh ht hs
    rw [kerasOpt_get (q := some m.smOq) hW i1, kerasOpt_get (q := some m.smOq) hW' i2, norm_get (a := kerasSoftmaxB _ _ _ _ _ _) i1,
      norm_get (a := kerasSoftmaxB _ _ _ _ _ _) i2, (soft b h t s hb hh ht).1 hs]
  have w0 : ∀ b h t s, b < z 0 → h < z 2 → t < Lq → Lk ≤ s → s < Sk → W.get [b, h, t, s] = 0 := by
    intro b h t s hb hh ht hs hs'
    have i1 := wIn b h t s hb hh ht hs'
    rw [kerasOpt_get (q := some m.smOq) hW i1, norm_get (a := kerasSoftmaxB _ _ _ _ _ _) i1, (soft b h t s hb hh ht).2 hs, opt_zero ha]
  obtain ⟨-, v1, c1⟩ := einsum_shape h
  obtain ⟨-, v2, c2⟩ := einsum_shape h'
  have y0 : labelSize [0, 2, 1, 4] [0, 4, 2, 3] W.shape V.shape 0 = z 0 := by rw [wS]; rfl
  have y1 : labelSize [0, 2, 1, 4] [0, 4, 2, 3] W.shape V.shape 1 = Sq := by rw [wS]; rfl
  have y2 : labelSize [0, 2, 1, 4] [0, 4, 2, 3] W.shape V.shape 2 = z 2 := by rw [wS]; rfl
  have y0' : labelSize [0, 2, 1, 4] [0, 4, 2, 3] W'.shape V'.shape 0 = z 0 := by rw [wS']; rfl
  have y1' : labelSize [0, 2, 1, 4] [0, 4, 2, 3] W'.shape V'.shape 1 = Lq := by rw [wS']; rfl
  have y2' : labelSize [0, 2, 1, 4] [0, 4, 2, 3] W'.shape V'.shape 2 = z 2 := by rw [wS']; rfl
  obtain ⟨B'', Sv, rv, V1, V2, -, vget⟩ := hV
  have y4 : labelSize [0, 2, 1, 4] [0, 4, 2, 3] W'.shape V'.shape 4 = Lk := by rw [wS']; rfl
  simp only [List.map_cons, List.map_nil, y0, y1, y2] at v1 c1
  simp only [List.map_cons, List.map_nil, y0', y1', y2', y4] at v2 c2
  have v3 : labelSize [0, 2, 1, 4] [0, 4, 2, 3] W'.shape V'.shape 3 = labelSize [0, 2, 1, 4] [0, 4, 2, 3] W.shape V.shape 3 := by
    have h1 := V1.symm.trans v1
    have h2 := V2.symm.trans v2
    simp only [List.cons.injEq] at h1 h2
    have := h1.2.2.symm.trans h2.2.2
    simp only [List.cons.injEq] at this
    exact this.2.1.symm
  rw [v3] at c2 v2
  refine ⟨z 0, Sq, _, c1, c2, qle, fun idx hi => ?_⟩
  rw [c2] at hi
  cases hi with
  | @cons b _ _ _ hb hi =>
  cases hi with
  | @cons t _ _ _ ht hi =>
  cases hi with
  | @cons h0 _ _ _ hh hi =>
  cases hi with
  | @cons d _ _ _ hd hi =>
  cases hi
  rw [ctx_get h (by rw [c1]; exact .cons hb (.cons (by omega) (.cons hh (.cons hd .nil)))), ctx_get h' (by rw [c2]; exact .cons hb (.cons ht (.cons hh (.cons hd .nil)))), wS, wS']
  obtain ⟨j, rfl⟩ := Nat.exists_eq_add_of_le kle
  simp only [List.getD_cons_succ, List.getD_cons_zero]
  rw [range_split Lk j, List.map_append, List.sum_append, List.sum_eq_zero (l := List.map _ (List.range' Lk j)) (fun v hv => by
    obtain ⟨s, hs, rfl⟩ := List.mem_map.1 hv
    obtain ⟨g1, g2⟩ := List.mem_range'_1.1 hs
    rw [w0 b h0 t s hb hh ht g1 g2, zero_mul]), add_zero]
  congr 1
  refine List.map_congr_left fun s hs => ?_
  have hs := List.mem_range.1 hs
  rw [w1 b h0 t s hb hh ht hs, vget _ (by rw [v2]; exact .cons hb (.cons hs (.cons hh (.cons hd .nil))))]

theorem softmax_true (stable : Bool) (fl : List Bool) (expT invT : List ℕ → ℚ → ℚ) (x : Arr ℚ) :
    kerasSoftmaxM stable fl expT invT (some fun _ => true) x = kerasSoftmaxM stable fl expT invT none x := by
  simp [kerasSoftmaxM, boolQ]

/-- **C124 (attention, partial).** `QMultiHeadAttention` on sequences of any lengths, and the same layer on sequences with further steps, whatever they contain, whose mask hides the further
keys: the outputs at the steps of the shorter sequences are the same, bit for bit. -/
theorem C124_attention_partial (m : MhaArr) (hn : m.n = 2) (hc : m.conv = none) (ha : m.smOq.affine = none) (Lq Lk : ℕ) (long short : ℕ → List ℕ → Bool)
    (hM : ExtendsMask Lq Lk long short) {query value key query' value' key' out out' : Arr ℚ} (hQ : FirstSteps Lq query query') (hV : FirstSteps Lk value value')
    (hK : FirstSteps Lk key key') (hsc : ScoresAbove m short query' key') (h : kerasMhaB m long query value key = some out)
    (h' : kerasMhaB m short query' value' key' = some out') : FirstSteps Lq out out' := by
  unfold kerasMhaB at h h'
  obtain ⟨Q, a1, h⟩ := Option.bind_eq_some_iff.1 h
  obtain ⟨K, a2, h⟩ := Option.bind_eq_some_iff.1 h
  obtain ⟨V, a3, h⟩ := Option.bind_eq_some_iff.1 h
  obtain ⟨C, a4, h⟩ := Option.bind_eq_some_iff.1 h
  obtain ⟨Y, a5, h⟩ := Option.bind_eq_some_iff.1 h
  obtain ⟨Q', b1, h'⟩ := Option.bind_eq_some_iff.1 h'
  obtain ⟨K', b2, h'⟩ := Option.bind_eq_some_iff.1 h'
  obtain ⟨V', b3, h'⟩ := Option.bind_eq_some_iff.1 h'
  obtain ⟨C', b4, h'⟩ := Option.bind_eq_some_iff.1 h'
  obtain ⟨Y', b5, h'⟩ := Option.bind_eq_some_iff.1 h'
  have hsc' := fun hst => hsc hst Q' K'
  rw [hn] at a1 a2 a3 a5 b1 b2 b3 b5
  rw [hn] at hsc'
  have cQ := proj_first m.q _ _ 1 2 le_rfl hQ a1 b1
  have cK := proj_first m.k _ _ 1 2 le_rfl hK a2 b2
  have cV := proj_first m.v _ _ 1 2 le_rfl hV a3 b3
  have cC := context_first m hn hc ha hM cQ cK cV (fun hst S hS => hsc' hst S b1 b2 hS) a4 b4
  have cY := proj_first m.o _ _ 2 m.mo (by omega) cC a5 b5
  have hf := sub_opt (first_sub cY) h h'
  obtain ⟨B, S, r, e1, e2, e3, -⟩ := cY
  exact ⟨B, S, r, (quant_shape h).trans e1, (quant_shape h').trans e2, e3, fun idx hi => (hf idx hi).2⟩

/-- **C124 (no mask, partial).** The same when the layer has no mask on the shorter sequences: self-attention on padded sequences whose mask hides the padding gives at the valid steps
what attention without a mask gives on the sequences without padding. -/
theorem C124_unpadded_partial (m : MhaArr) (hn : m.n = 2) (hc : m.conv = none) (ha : m.smOq.affine = none) (L : ℕ) (mask : ℕ → List ℕ → Bool)
    (hM : ∀ b h t s, t < L → (mask b [h, t, s] = true ↔ s < L)) {x y out out' : Arr ℚ} (hx : FirstSteps L x y) (hsc : ScoresAbove m (fun _ _ => true) y y)
    (h : kerasMhaB m mask x x x = some out) (h' : kerasMha m none y y y = some out') : FirstSteps L out out' := by
  refine C124_attention_partial m hn hc ha L L mask (fun _ _ => true) ?_ hx hx hx hsc h (by
    rw [mhaB_const, ← h']
    simp only [kerasMha, kerasAttend, softmax_true])
  · intro b h t s ht
    by_cases hs : s < L
    · rw [if_pos hs]; exact (hM b h t s ht).2 hs
    · rw [if_neg hs]; exact Bool.eq_false_iff.2 fun e => hs ((hM b h t s ht).1 e)

/-- **C124 (batches of padded sequences, partial).** Sequences of different lengths padded to one batch, with the mask that hides the padding of every sample: the results for the valid steps of
each sample are those of attention without mask on this sample alone, without its padding; they do not depend on how much padding there is, nor on the other samples. -/
theorem C124_batch_partial (m : MhaArr) (hm : MhaBatch m) (hn : m.n = 2) (hc : m.conv = none) (ha : m.smOq.affine = none) (B b : ℕ) (hb : b < B) (len : ℕ → ℕ) (mask : ℕ → List ℕ → Bool)
    (hM : ∀ h t s, t < len b → (mask b [h, t, s] = true ↔ s < len b)) {x y out out' : Arr ℚ} (hB : IsBatch B x) (hx : FirstSteps (len b) (pick [b] x) y)
    (hsc : ScoresAbove m (fun _ _ => true) y y) (h : kerasMhaB m mask x x x = some out) (h' : kerasMha m none y y y = some out') : FirstSteps (len b) (pick [b] out) out' := by
  obtain ⟨-, o2⟩ := mhaB_batch (one_lt hb) m hm mask (fun _ => mask b) (fun j hj => (by simp only [List.length_singleton, Nat.lt_one_iff] at hj; subst hj; rfl)) x x x hB hB hB out h
  exact C124_unpadded_partial m hn hc ha (len b) (fun _ => mask b) (fun _ => hM) hx hsc o2 h'

/-- **C124 (self-attention layers, partial).** The same for the layer of a model: on a batch of padded sequences, the layer with a mask per sample gives at the valid steps of sample `b` what
the layer without mask gives on the sequence alone. -/
theorem C124_layer_partial (m : MhaArr) (hm : MhaBatch m) (hn : m.n = 2) (hc : m.conv = none) (ha : m.smOq.affine = none) (B b : ℕ) (hb : b < B) (len : ℕ → ℕ) (mask : ℕ → List ℕ → Bool)
    (low low' : ℚ) (hM : ∀ h t s, t < len b → (mask b [h, t, s] = true ↔ s < len b)) {x y out out' : Arr ℚ} (hB : IsBatch B x) (hx : FirstSteps (len b) (pick [b] x) y)
    (hsc : ScoresAbove m (fun _ _ => true) y y) (h : (SLayer.mha m .self mask low).keras [x] = some out)
    (h' : (XLayer.mha m .self none low').keras [y] = some out') : FirstSteps (len b) (pick [b] out) out' :=
  C124_batch_partial m hm hn hc ha B b hb len mask hM hB hx hsc h h'

/-! ## A concrete layer -/

/-- The sequences of `exSeqArr` (length 2), and a third step of padding. -/
def exPadArr : Arr ℚ := ⟨[2, 3, 2], fun idx => if idx.getD 1 0 < 2 then exSeqArr.get idx else 7 / 4⟩

/-- Queries attend the first two keys. -/
def exPadMask : ℕ → List ℕ → Bool := fun _ idx => decide (idx.getD 2 0 < 2)

/-- The hypotheses of C124 hold; attention on the padded sequences gives, at the first two steps, what it gives without padding and mask; without the mask it does not. -/
example : ∃ out out', kerasMhaB exMhaArr exPadMask exPadArr exPadArr exPadArr = some out ∧ kerasMha exMhaArr none exSeqArr exSeqArr exSeqArr = some out' ∧
    FirstSteps 2 out out' ∧ (kerasMha exMhaArr none exPadArr exPadArr exPadArr).map (fun a => a.get [1, 0, 0]) ≠ some (out'.get [1, 0, 0]) := by
  have hs : (kerasMhaB exMhaArr exPadMask exPadArr exPadArr exPadArr).isSome = true := by decide +kernel
  have hs' : (kerasMha exMhaArr none exSeqArr exSeqArr exSeqArr).isSome = true := by decide +kernel
  obtain ⟨out, hout⟩ := Option.isSome_iff_exists.1 hs
  obtain ⟨out', hout'⟩ := Option.isSome_iff_exists.1 hs'
  have hx : FirstSteps 2 exPadArr exSeqArr := by
    refine ⟨2, 3, [2], rfl, rfl, by decide, fun idx hi => ?_⟩
    have : idx ∈ indices [2, 2, 2] := (mem_indices _ _).2 (List.Forall₂.flip hi)
    fin_cases this <;> rfl
  have hsc : ScoresAbove exMhaArr (fun _ _ => true) exSeqArr exSeqArr := by
    intro _ Q K S hQ hK hS b h t s hi _
    have h0 : ((exMhaArr.q.layer (onlyIf exMhaArr.enableIq exMhaArr.qIq) (some exMhaArr.q.oq) exMhaArr.n 1 2).keras [exSeqArr]).bind (fun Q =>
        ((exMhaArr.k.layer (onlyIf exMhaArr.enableIq exMhaArr.kIq) (some exMhaArr.k.oq) exMhaArr.n 1 2).keras [exSeqArr]).bind fun K =>
          (kerasScores exMhaArr Q K).map fun S => (S.shape, (indices S.shape).all fun i => decide (-1000000000 ≤ S.get i))) = some ([2, 1, 2, 2], true) := by decide +kernel
    rw [hQ, Option.bind_some, hK, Option.bind_some, hS, Option.map_some, Option.some.injEq, Prod.mk.injEq] at h0
    exact of_decide_eq_true (List.all_eq_true.1 h0.2 _ ((mem_indices _ _).2 (List.Forall₂.flip hi)))
  refine ⟨out, out', hout, hout', C124_unpadded_partial exMhaArr rfl rfl rfl 2 exPadMask (fun b h t s _ => by simp [exPadMask]) hx hsc hout hout', ?_⟩
  have hv : (kerasMha exMhaArr none exPadArr exPadArr exPadArr).map (fun a => a.get [1, 0, 0]) ≠ (kerasMha exMhaArr none exSeqArr exSeqArr exSeqArr).map (fun a => a.get [1, 0, 0]) := by
    decide +kernel
  rwa [hout', Option.map_some] at hv

end HGQ
