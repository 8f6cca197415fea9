import Verif.Model.EinsumTArr
import Verif.Props.RnnLayers
import Verif.Props.Table

/-!
# C111: `QEinsumDenseT` on arrays
-/
namespace HGQ
open Spec

/-! ## Specification -/

/-- Coordinates of the labels `W` in an index of an array labelled `P`. -/
def Spec.coords (P W idx : List ℕ) : List ℕ := W.map fun c => idx.getD (P.idxOf c) 0

/-- The weights have the shapes Keras creates: kernels over the kernel labels `W` and the hidden axes, biases over the labels of the output. -/
def Spec.SubBuilt (P W : List ℕ) (dim : ℕ → ℕ) : ℕ → List SubDense → SubDense → Prop
  | d, [], last => last.kernel.shape = W.map dim ++ [d] ∧ ∀ b ∈ last.bias, b.shape = kerasBiasShape P W dim
  | d, s :: r, last => ∃ d', s.kernel.shape = W.map dim ++ [d, d'] ∧
      (∀ b ∈ s.bias, b.shape = kerasBiasShape P W dim ++ [d']) ∧ SubBuilt P W dim d' r last

/-- An equation `build` accepts, with the batch label first in input and output and not in the kernel; weights as built. -/
structure Spec.EinsumTBuilt (t : EinsumTArr) : Prop where
  batch : ∃ b i o, t.e.input = b :: i ∧ t.e.output = b :: o ∧ b ∉ t.e.kernel ∧ ∀ n ∈ t.bn, b ∉ n.norm
  inp : t.e.input.Nodup
  ker : t.e.kernel.Nodup ∧ t.e.kernel ≠ []
  out : t.e.output.Nodup
  known : ∀ c ∈ t.e.output, c ∈ t.e.input ∨ c ∈ t.e.kernel
  extra : ∀ c ∈ t.e.kernel, c ∉ t.e.input → c ∈ t.e.output
  sub : SubBuilt t.e.presum t.e.kernel t.dim 1 t.hidden t.last
  bn : ∀ n ∈ t.bn, n.norm.Nodup ∧ (∀ c ∈ n.norm, c ∈ t.e.presum) ∧ n.std.shape = n.norm.map t.dim

/-- The order of the axes: if there are biases, the kernel labels are the last axes of the array before the sum, in this order; the normalized labels are in the order of
this array. -/
def Spec.AxesInOrder (t : EinsumTArr) : Prop :=
  ((∃ s ∈ t.hidden ++ [t.last], s.bias ≠ none) → t.e.kernel <:+ t.e.presum) ∧ ∀ n ∈ t.bn, n.norm.Sublist t.e.presum

/-! ## Numpy -/

theorem inShape_append {a b s t : List ℕ} (h1 : InShape a s) (h2 : InShape b t) : InShape (a ++ b) (s ++ t) := by
  induction h1 with
  | nil => simpa using h2
  | cons h _ ih => exact .cons h ih

theorem inShape_split {idx s t : List ℕ} (h : InShape idx (s ++ t)) : ∃ a b, idx = a ++ b ∧ InShape a s ∧ InShape b t := by
  refine ⟨idx.take s.length, idx.drop s.length, (List.take_append_drop _ _).symm, ?_, ?_⟩
  · have := List.forall₂_take s.length h
    rwa [List.take_left' rfl] at this
  · have := List.forall₂_drop s.length h
    rwa [List.drop_left' rfl] at this

theorem bcDims_sub {t s : List ℕ} (h : List.Forall₂ (fun m n => m = n ∨ m = 1) t s) : bcDims s t = some s := by
  induction h with
  | nil => rfl
  | @cons m n t s hm _ ih =>
    simp only [bcDims]
    rw [if_pos (by rcases hm with rfl | rfl <;> simp), ih]; rfl

theorem bcastIdx_append (a b c d : List ℕ) (h : a.length = c.length) : bcastIdx (a ++ b) (c ++ d) = bcastIdx a c ++ bcastIdx b d := by
  unfold bcastIdx
  exact List.zipWith_append h

/-- Elementwise operation with an array that is broadcast along leading axes and axes of size 1. -/
theorem arith_suffix (op : ℚ → ℚ → ℚ) (a b : Arr ℚ) (s1 s2 : List ℕ) (ha : a.shape = s1 ++ s2) (hb : List.Forall₂ (fun m n => m = n ∨ m = 1) b.shape s2) :
    ∃ r, npArith op a b = some r ∧ r.shape = a.shape ∧
      ∀ idx, InShape idx a.shape → r.get idx = op (a.get idx) (b.get (bcastIdx b.shape (idx.drop s1.length))) := by
  have hbl : b.shape.length = s2.length := hb.length_eq
  have h1 : max a.shape.length b.shape.length - a.shape.length = 0 := by rw [ha, List.length_append, hbl]; omega
  have h2 : max a.shape.length b.shape.length - b.shape.length = s1.length := by rw [ha, List.length_append, hbl]; omega
  unfold npArith npBin
  rw [h1, h2]
  have hpa : (a.pad 0).shape = s1 ++ s2 := by simp [Arr.pad, ha]
  have hpb : (b.pad s1.length).shape = List.replicate s1.length 1 ++ b.shape := rfl
  rw [show bcDims (a.pad 0).shape (b.pad s1.length).shape = some (s1 ++ s2) by
    rw [hpa, hpb]; exact bcDims_append (bcDims_ones s1) (bcDims_sub hb)]
  refine ⟨_, rfl, by rw [ha], fun idx hidx => ?_⟩
  have hidx' : InShape idx (s1 ++ s2) := ha ▸ hidx
  obtain ⟨i1, i2, rfl, g1, g2⟩ := inShape_split hidx'
  have hl : i1.length = s1.length := g1.length_eq
  simp only [hpa, bcastIdx_eq hidx']
  simp only [hpb, Arr.pad, List.drop_zero]
  rw [bcastIdx_append _ _ _ _ (by simp [hl]), List.drop_left' (by simp [bcastIdx, hl]), List.drop_left' hl]

theorem getD_idxOf_map {P : List ℕ} (g : ℕ → ℕ) {c : ℕ} (hc : c ∈ P) : (P.map g).getD (P.idxOf c) 0 = g c := by
  rw [List.getD_eq_getElem?_getD, List.getElem?_map, List.getElem?_idxOf hc]; rfl

theorem map_getD_idxOf (P : List ℕ) (hP : P.Nodup) (ps : List ℕ) (hl : ps.length = P.length) : P.map (fun c => ps.getD (P.idxOf c) 0) = ps := by
  apply List.ext_getElem
  · simp [hl]
  · intro i h1 h2
    simp only [List.getElem_map]
    rw [hP.idxOf_getElem i (by simpa using h1), List.getD_eq_getElem?_getD, List.getElem?_eq_getElem h2]; rfl

section Labels
variable {P W : List ℕ} {hi ho : ℕ}

theorem idxOf_append_left {l : ℕ} (h : l ∈ P) (Q : List ℕ) : (P ++ Q).idxOf l = P.idxOf l := by
  rw [List.idxOf_append, if_pos h]

theorem idxOf_append_right {l : ℕ} (h : l ∉ P) (Q : List ℕ) : (P ++ Q).idxOf l = P.length + Q.idxOf l := by
  rw [List.idxOf_append, if_neg h]; omega

theorem getD_app_left {ps q : List ℕ} {n : ℕ} (h : n < ps.length) : (ps ++ q).getD n 0 = ps.getD n 0 := by
  simp [List.getD_eq_getElem?_getD, List.getElem?_append_left h]

theorem getD_app_right {ps q : List ℕ} {n k : ℕ} (h : n = ps.length + k) : (ps ++ q).getD n 0 = q.getD k 0 := by
  subst h
  rw [List.getD_eq_getElem?_getD, List.getD_eq_getElem?_getD, List.getElem?_append_right (by omega), Nat.add_sub_cancel_left]

/-- A hidden layer: `einsum('P i, W i o -> P o')`. -/
theorem einsum_hidden (hP : P.Nodup) (hW : ∀ c ∈ W, c ∈ P) (h1 : hi ∉ P) (h2 : ho ∉ P) (h3 : hi ≠ ho) (x K : Arr ℚ) (ps : List ℕ) (d d' : ℕ)
    (hl : ps.length = P.length) (hx : x.shape = ps ++ [d]) (hK : K.shape = coords P W ps ++ [d, d']) :
    ∃ y, npEinsum (P ++ [hi]) (W ++ [hi, ho]) (P ++ [ho]) x K = some y ∧ y.shape = ps ++ [d'] ∧
      ∀ idx, InShape idx ps → ∀ o < d', y.get (idx ++ [o]) = ((List.range d).map fun i => x.get (idx ++ [i]) * K.get (coords P W idx ++ [i, o])).sum := by
  have hiW : hi ∉ W := fun h => h1 (hW _ h)
  have hoW : ho ∉ W := fun h => h2 (hW _ h)
  have sP : ∀ c ∈ P, labelSize (P ++ [hi]) (W ++ [hi, ho]) x.shape K.shape c = ps.getD (P.idxOf c) 0 := by
    intro c hc
    rw [labelSize, if_pos (by simp [hc]), hx, idxOf_append_left hc, getD_app_left (by rw [hl]; exact List.idxOf_lt_length_iff.2 hc)]
  have sI : labelSize (P ++ [hi]) (W ++ [hi, ho]) x.shape K.shape hi = d := by
    rw [labelSize, if_pos (by simp), hx, idxOf_append_right h1, getD_app_right (k := 0) (by simp [hl])]; rfl
  have sO : labelSize (P ++ [hi]) (W ++ [hi, ho]) x.shape K.shape ho = d' := by
    rw [labelSize, if_neg (by simp [h2, Ne.symm h3]), hK, idxOf_append_right hoW, getD_app_right (k := 1) (by simp [coords, h3])]; rfl
  have hPm : P.map (labelSize (P ++ [hi]) (W ++ [hi, ho]) x.shape K.shape) = ps := by
    rw [List.map_congr_left sP, map_getD_idxOf P hP ps hl]
  have hS : summedLabels (P ++ [hi]) (W ++ [hi, ho]) (P ++ [ho]) = [hi] := by
    unfold summedLabels
    have f1 : P.filter (fun c => decide (c ∉ P ++ [ho])) = [] := List.filter_eq_nil_iff.2 fun c hc => by simp [hc]
    have f2 : W.filter (fun c => decide (c ∉ P ++ [ho])) = [] := List.filter_eq_nil_iff.2 fun c hc => by simp [hW c hc]
    simp only [List.filter_append, f1, f2, List.nil_append]
    simp [List.filter_cons, h1, h2, h3]
  unfold npEinsum
  split_ifs with hc
  · refine ⟨_, rfl, ?_, fun idx hidx o hlo => ?_⟩
    · simp only [List.map_append, hPm, List.map_cons, List.map_nil, sO]
    · simp only [hS, List.map_cons, List.map_nil, sI, indices]
      rw [← List.map_eq_flatMap, List.map_map]
      congr 1
      refine List.map_congr_left fun i _ => ?_
      have hil : idx.length = P.length := by rw [List.Forall₂.length_eq hidx, hl]
      have vP : ∀ c ∈ P, labelVal (P ++ [hi]) (W ++ [hi, ho]) (P ++ [ho]) (idx ++ [o]) [i] c = idx.getD (P.idxOf c) 0 := by
        intro c hc
        rw [labelVal, if_pos (by simp [hc]), idxOf_append_left hc, getD_app_left (by rw [hil]; exact List.idxOf_lt_length_iff.2 hc)]
      have vI : labelVal (P ++ [hi]) (W ++ [hi, ho]) (P ++ [ho]) (idx ++ [o]) [i] hi = i := by
        rw [labelVal, if_neg (by simp [h1, h3]), hS]; simp
      have vO : labelVal (P ++ [hi]) (W ++ [hi, ho]) (P ++ [ho]) (idx ++ [o]) [i] ho = o := by
        rw [labelVal, if_pos (by simp), idxOf_append_right h2, getD_app_right (k := 0) (by simp [hil])]; rfl
      simp only [Function.comp_apply, List.map_append, List.map_cons, List.map_nil, vI, vO, List.map_congr_left vP, map_getD_idxOf P hP idx hil,
        List.map_congr_left fun c hc => vP c (hW c hc)]
      rfl
  · refine absurd ⟨?_, ?_, ?_⟩ hc
    · simp only [List.map_append, hPm, List.map_cons, List.map_nil, sI]; exact hx
    · simp only [List.map_append, List.map_cons, List.map_nil, sI, sO]
      rw [List.map_congr_left fun c hc => sP c (hW c hc)]
      exact hK
    · intro l hl
      rcases List.mem_append.1 hl with h | h
      · left; simp [h]
      · right; simp at h; simp [h]

/-- The last layer: `einsum('P i, W i -> P')`. -/
theorem einsum_last (hP : P.Nodup) (hW : ∀ c ∈ W, c ∈ P) (h1 : hi ∉ P) (x K : Arr ℚ) (ps : List ℕ) (d : ℕ)
    (hl : ps.length = P.length) (hx : x.shape = ps ++ [d]) (hK : K.shape = coords P W ps ++ [d]) :
    ∃ y, npEinsum (P ++ [hi]) (W ++ [hi]) P x K = some y ∧ y.shape = ps ∧
      ∀ idx, InShape idx ps → y.get idx = ((List.range d).map fun i => x.get (idx ++ [i]) * K.get (coords P W idx ++ [i])).sum := by
  have hiW : hi ∉ W := fun h => h1 (hW _ h)
  have sP : ∀ c ∈ P, labelSize (P ++ [hi]) (W ++ [hi]) x.shape K.shape c = ps.getD (P.idxOf c) 0 := by
    intro c hc
    rw [labelSize, if_pos (by simp [hc]), hx, idxOf_append_left hc, getD_app_left (by rw [hl]; exact List.idxOf_lt_length_iff.2 hc)]
  have sI : labelSize (P ++ [hi]) (W ++ [hi]) x.shape K.shape hi = d := by
    rw [labelSize, if_pos (by simp), hx, idxOf_append_right h1, getD_app_right (k := 0) (by simp [hl])]; rfl
  have hPm : P.map (labelSize (P ++ [hi]) (W ++ [hi]) x.shape K.shape) = ps := by
    rw [List.map_congr_left sP, map_getD_idxOf P hP ps hl]
  have hS : summedLabels (P ++ [hi]) (W ++ [hi]) P = [hi] := by
    unfold summedLabels
    have f1 : P.filter (fun c => decide (c ∉ P)) = [] := List.filter_eq_nil_iff.2 fun c hc => by simp [hc]
    have f2 : W.filter (fun c => decide (c ∉ P)) = [] := List.filter_eq_nil_iff.2 fun c hc => by simp [hW c hc]
    simp only [List.filter_append, f1, f2, List.nil_append]
    simp [List.filter_cons, h1]
  unfold npEinsum
  split_ifs with hc
  · refine ⟨_, rfl, hPm, fun idx hidx => ?_⟩
    simp only [hS, List.map_cons, List.map_nil, sI, indices]
    rw [← List.map_eq_flatMap, List.map_map]
    congr 1
    refine List.map_congr_left fun i _ => ?_
    have hil : idx.length = P.length := by rw [List.Forall₂.length_eq hidx, hl]
    have vP : ∀ c ∈ P, labelVal (P ++ [hi]) (W ++ [hi]) P idx [i] c = idx.getD (P.idxOf c) 0 := by
      intro c hc
      rw [labelVal, if_pos hc]
    have vI : labelVal (P ++ [hi]) (W ++ [hi]) P idx [i] hi = i := by
      rw [labelVal, if_neg h1, hS]; simp
    simp only [Function.comp_apply, List.map_append, List.map_cons, List.map_nil, vI, List.map_congr_left vP, map_getD_idxOf P hP idx hil,
      List.map_congr_left fun c hc => vP c (hW c hc)]
    rfl
  · refine absurd ⟨?_, ?_, ?_⟩ hc
    · simp only [List.map_append, hPm, List.map_cons, List.map_nil, sI]; exact hx
    · simp only [List.map_append, List.map_cons, List.map_nil, sI]
      rw [List.map_congr_left fun c hc => sP c (hW c hc)]
      exact hK
    · intro l hl
      left; simp [hl]

end Labels

/-! ## The small networks in Keras -/

/-- Bias added at an index of the output of the layer. -/
def biasK (b : Option (Arr ℚ)) (idx : List ℕ) : ℚ :=
  match b with
  | none => 0
  | some b => b.get (bcastIdx b.shape (idx.drop (idx.length - b.shape.length)))

/-- What the network computes at an index of the array before the sum. -/
def netK (P W : List ℕ) : ℕ → List SubDense → SubDense → List ℕ → (ℕ → ℚ) → ℚ
  | d, [], last, idx, h => last.act (((List.range d).map fun i => h i * last.kernel.get (coords P W idx ++ [i])).sum + biasK last.bias idx)
  | d, s :: r, last, idx, h => netK P W (s.kernel.shape.getLastD 0) r last idx fun o =>
      s.act (((List.range d).map fun i => h i * s.kernel.get (coords P W idx ++ [i, o])).sum + biasK s.bias (idx ++ [o]))

theorem netK_congr (P W : List ℕ) (d : ℕ) (hid : List SubDense) (last : SubDense) (idx : List ℕ) (h h' : ℕ → ℚ) (hh : ∀ i < d, h i = h' i) :
    netK P W d hid last idx h = netK P W d hid last idx h' := by
  cases hid with
  | nil =>
    simp only [netK]
    rw [List.map_congr_left fun i hi => by rw [hh i (List.mem_range.1 hi)]]
  | cons s r =>
    simp only [netK]
    congr 1
    funext o
    rw [List.map_congr_left fun i hi => by rw [hh i (List.mem_range.1 hi)]]

/-- A bias over the labels from the first kernel label on. -/
theorem bias_val {P W : List ℕ} (hP : P.Nodup) (dim : ℕ → ℕ) (ps q : List ℕ) (hl : ps.length = P.length)
    (hd : ∀ c ∈ W, ps.getD (P.idxOf c) 0 = dim c) (b : Option (Arr ℚ)) (hb : ∀ r ∈ b, r.shape = kerasBiasShape P W dim ++ q) (y : Arr ℚ) (hy : y.shape = ps ++ q) :
    ∃ r, addBiasOpt b y = some r ∧ r.shape = y.shape ∧ ∀ idx, InShape idx y.shape → r.get idx = y.get idx + biasK b idx := by
  cases b with
  | none => exact ⟨y, rfl, rfl, fun idx _ => by simp [biasK]⟩
  | some b =>
    have hbs := hb b rfl
    obtain ⟨f, hf⟩ : ∃ f : ℕ → ℕ, f = fun c => ps.getD (P.idxOf c) 0 := ⟨_, rfl⟩
    have hps : ps = P.map f := by rw [hf, map_getD_idxOf P hP ps hl]
    obtain ⟨p, hp⟩ : ∃ p : ℕ → Bool, p = fun c => decide (c ∉ W) := ⟨_, rfl⟩
    have hsplit : y.shape = (P.takeWhile p).map f ++ ((P.dropWhile p).map f ++ q) := by
      rw [hy, hps, ← List.append_assoc, ← List.map_append, List.takeWhile_append_dropWhile]
    have hfor : List.Forall₂ (fun m n => m = n ∨ m = 1) b.shape ((P.dropWhile p).map f ++ q) := by
      rw [hbs, kerasBiasShape]
      refine List.rel_append ?_ ?_
      · rw [List.forall₂_map_left_iff, List.forall₂_map_right_iff, ← hp]
        refine List.forall₂_same.2 fun c _ => ?_
        by_cases hc : c ∈ W
        · left; rw [if_pos hc, hf]; exact (hd c hc).symm
        · right; rw [if_neg hc]
      · exact List.forall₂_same.2 fun c _ => Or.inl rfl
    obtain ⟨r, h1, h2, h3⟩ := arith_suffix (· + ·) y b _ _ hsplit hfor
    refine ⟨r, h1, h2, fun idx hidx => ?_⟩
    rw [h3 idx hidx]
    simp only [biasK]
    have hil := hidx.length_eq
    rw [hsplit, List.length_append] at hil
    rw [hil, hfor.length_eq, Nat.add_sub_cancel]

theorem coords_dim {P W : List ℕ} {dim : ℕ → ℕ} {ps : List ℕ} (hd : ∀ c ∈ W, ps.getD (P.idxOf c) 0 = dim c) : coords P W ps = W.map dim :=
  List.map_congr_left hd

theorem act_norm_val {y r : Arr ℚ} (act : ℚ → ℚ) (hr : r.shape = y.shape) (g : List ℕ → ℚ) (hg : ∀ idx, InShape idx y.shape → r.get idx = g idx) :
    ((r.norm).mapQ act).norm.shape = y.shape ∧ ∀ idx, InShape idx y.shape → ((r.norm).mapQ act).norm.get idx = act (g idx) := by
  refine ⟨hr, fun idx hidx => ?_⟩
  rw [norm_get (by simp only [Arr.mapQ, Arr.norm]; rw [hr]; exact hidx)]
  simp only [Arr.mapQ]
  rw [norm_get (by rw [hr]; exact hidx), hg idx hidx]

theorem norm_norm (a : Arr ℚ) : a.norm.norm = a.norm := norm_same ⟨rfl, fun idx h => norm_get (by exact h)⟩

theorem module_val {P W : List ℕ} (hP : P.Nodup) (hW : ∀ c ∈ W, c ∈ P) (dim : ℕ → ℕ) (ps : List ℕ) (hl : ps.length = P.length)
    (hd : ∀ c ∈ W, ps.getD (P.idxOf c) 0 = dim c) (hid : List SubDense) (last : SubDense) : ∀ (hi ho d : ℕ) (x : Arr ℚ), hi ∉ P → ho ∉ P → hi ≠ ho →
      SubBuilt P W dim d hid last → x.shape = ps ++ [d] →
      moduleKeras P W hi ho hid last x = some (Arr.norm ⟨ps, fun idx => netK P W d hid last idx fun i => x.get (idx ++ [i])⟩) := by
  induction hid with
  | nil =>
    intro hi ho d x h1 _ _ hsub hx
    obtain ⟨k1, k2⟩ := hsub
    obtain ⟨y, y1, y2, y3⟩ := einsum_last (hi := hi) hP hW h1 x last.kernel ps d hl hx (by rw [k1, coords_dim hd])
    obtain ⟨r, r1, r2, r3⟩ := bias_val hP dim ps [] hl hd last.bias (by simpa using k2) y.norm (by rw [List.append_nil]; exact y2)
    simp only [moduleKeras, SubDense.keras, y1, run, Option.map_some, Option.bind_some, r1]
    congr 1
    refine norm_same ⟨by simp only [Arr.mapQ, Arr.norm, r2, y2], fun idx hidx => ?_⟩
    have hidx' : InShape idx ps := by simpa [Arr.mapQ, Arr.norm, r2, y2] using hidx
    have hy' : InShape idx y.norm.shape := by simpa [Arr.norm, y2] using hidx'
    simp only [Arr.mapQ]
    rw [norm_get (by rw [r2]; exact hy'), r3 idx hy', norm_get (by rw [y2]; exact hidx'), y3 idx hidx']
    rfl
  | cons s hid ih =>
    intro hi ho d x h1 h2 h3 hsub hx
    obtain ⟨d', k1, k2, k3⟩ := hsub
    obtain ⟨y, y1, y2, y3⟩ := einsum_hidden hP hW h1 h2 h3 x s.kernel ps d d' hl hx (by rw [k1, coords_dim hd])
    obtain ⟨r, r1, r2, r3⟩ := bias_val hP dim ps [d'] hl hd s.bias k2 y.norm y2
    simp only [moduleKeras, SubDense.keras, y1, run, Option.map_some, Option.bind_some, r1]
    rw [ih ho hi d' _ h2 h1 (Ne.symm h3) k3 (by simp only [Arr.mapQ, Arr.norm, r2, y2])]
    congr 1
    refine norm_same ⟨rfl, fun idx hidx => ?_⟩
    have hlast : s.kernel.shape.getLastD 0 = d' := by
      rw [k1, show W.map dim ++ [d, d'] = (W.map dim ++ [d]) ++ [d'] by simp, getLastD_append_singleton]
    simp only [netK, hlast]
    refine netK_congr _ _ _ _ _ _ _ _ fun o ho' => ?_
    have hyo : InShape (idx ++ [o]) y.norm.shape := by
      simp only [Arr.norm, y2]
      exact inShape_append hidx (.cons ho' .nil)
    rw [norm_get (by simpa only [Arr.mapQ, Arr.norm, r2] using hyo)]
    simp only [Arr.mapQ]
    rw [norm_get (by rw [r2]; exact hyo), r3 _ hyo, norm_get (by exact hyo), y3 idx hidx o ho']

/-! ## Batch normalization in Keras -/

/-- Position of the normalization weight Keras uses at an index. -/
def bnIdxK (P : List ℕ) (dim : ℕ → ℕ) (norm : List ℕ) (idx : List ℕ) : List ℕ :=
  unflat (norm.map dim) (flat (bnBroadcast P dim norm) (bcastIdx (bnBroadcast P dim norm) idx))

def bnK (P : List ℕ) (dim : ℕ → ℕ) (bn : Option BnArr) (idx : List ℕ) (v : ℚ) : ℚ :=
  match bn with
  | none => v
  | some n => (v * n.kerasScaler.get (bnIdxK P dim n.norm idx) + n.kerasOffset.get (bnIdxK P dim n.norm idx)) / n.root

theorem bn_prod (dim : ℕ → ℕ) (norm P : List ℕ) : (bnBroadcast P dim norm).prod = ((P.filter fun c => decide (c ∈ norm)).map dim).prod := by
  induction P with
  | nil => rfl
  | cons c P ih =>
    simp only [bnBroadcast, List.map_cons, List.prod_cons, List.filter_cons] at ih ⊢
    by_cases h : c ∈ norm
    · simp [h, ih]
    · simp [h, ih]

theorem filter_norm_perm {P norm : List ℕ} (hP : P.Nodup) (hn : norm.Nodup) (hs : ∀ c ∈ norm, c ∈ P) : (P.filter fun c => decide (c ∈ norm)).Perm norm :=
  (List.perm_ext_iff_of_nodup (hP.filter _) hn).2 fun c => by
    simp only [List.mem_filter, decide_eq_true_eq]
    exact ⟨fun h => h.2, fun h => ⟨hs c h, h⟩⟩

theorem scaler_shape (n : BnArr) : n.kerasScaler.shape = n.std.shape := by
  unfold BnArr.kerasScaler
  cases n.gamma <;> rfl

theorem offset_shape (n : BnArr) : n.kerasOffset.shape = n.std.shape := by
  unfold BnArr.kerasOffset
  cases n.beta <;> rfl

theorem bn_val {P : List ℕ} (hP : P.Nodup) (dim : ℕ → ℕ) (bn : Option BnArr)
    (hbn : ∀ n ∈ bn, n.norm.Nodup ∧ (∀ c ∈ n.norm, c ∈ P) ∧ n.std.shape = n.norm.map dim) (v : Arr ℚ) (ps : List ℕ) (hv : v.shape = ps) (hl : ps.length = P.length)
    (hd : ∀ n ∈ bn, ∀ c ∈ n.norm, ps.getD (P.idxOf c) 0 = dim c) :
    bnKeras P dim bn v.norm = some (Arr.norm ⟨ps, fun idx => bnK P dim bn idx (v.get idx)⟩) := by
  cases bn with
  | none =>
    simp only [bnKeras]
    congr 1
    exact norm_same ⟨hv, fun idx _ => rfl⟩
  | some n =>
    obtain ⟨n1, n2, n3⟩ := hbn n rfl
    have hprod : (bnBroadcast P dim n.norm).prod = (n.norm.map dim).prod := by
      rw [bn_prod]
      exact ((filter_norm_perm hP n1 n2).map dim).prod_eq
    have hps : ps = P.map fun c => ps.getD (P.idxOf c) 0 := (map_getD_idxOf P hP ps hl).symm
    have hfor : List.Forall₂ (fun m n => m = n ∨ m = 1) (bnBroadcast P dim n.norm) ps := by
      rw [hps, bnBroadcast, List.forall₂_map_left_iff, List.forall₂_map_right_iff]
      refine List.forall₂_same.2 fun c _ => ?_
      by_cases hc : c ∈ n.norm
      · left; rw [if_pos hc]; exact (hd n rfl c hc).symm
      · right; rw [if_neg hc]
    simp only [bnKeras]
    unfold npReshape
    rw [if_pos (by rw [scaler_shape, n3]; exact hprod), if_pos (by rw [offset_shape, n3]; exact hprod)]
    simp only [Option.bind_some]
    obtain ⟨r, r1, r2, r3⟩ := arith_suffix (· * ·) v.norm ⟨bnBroadcast P dim n.norm, fun idx => n.kerasScaler.get (unflat n.kerasScaler.shape (flat (bnBroadcast P dim n.norm) idx))⟩
      [] ps hv hfor
    rw [r1]
    simp only [Option.bind_some]
    obtain ⟨u, u1, u2, u3⟩ := arith_suffix (· + ·) r ⟨bnBroadcast P dim n.norm, fun idx => n.kerasOffset.get (unflat n.kerasOffset.shape (flat (bnBroadcast P dim n.norm) idx))⟩
      [] ps (by rw [r2]; exact hv) hfor
    rw [u1]
    simp only [Option.map_some]
    congr 1
    have hu : u.shape = ps := by rw [u2, r2]; exact hv
    refine norm_same ⟨hu, fun idx hidx => ?_⟩
    have hi : InShape idx ps := by rw [← hu]; exact hidx
    have hr : r.shape = ps := by rw [r2]; exact hv
    simp only [Arr.mapQ]
    rw [u3 idx (by rw [hr]; exact hi), r3 idx (by simp only [Arr.norm]; rw [hv]; exact hi), norm_get (by rw [hv]; exact hi)]
    simp only [bnK, bnIdxK, scaler_shape, offset_shape, n3, List.length_nil, List.drop_zero]

/-! ## Sum and transpose -/

/-- The entry labelled by `σ` is the sum over all values of the contracted labels; `l` any listing of these. -/
theorem reduce_val (e : EinsumT ℕ) (dim : ℕ → ℕ) (hi : e.input.Nodup) (hk : e.kernel.Nodup) (ho : e.output.Nodup) (hout : ∀ c ∈ e.output, c ∈ e.input ∨ c ∈ e.kernel)
    (hext : ∀ c ∈ e.kernel, c ∉ e.input → c ∈ e.output) (l : List (List ℕ)) (hl : Positions ((e.input.filter fun c => c ∉ e.output).map dim) l)
    (z : Arr ℚ) (hz : z.shape = e.presum.map dim) :
    ∃ out, npTranspose e.transpose (npReduce List.sum false e.contract z) = some out ∧ out.shape = e.output.map dim ∧
      ∀ σ : ℕ → ℕ, out.get (e.output.map σ) = (l.map fun p => z.get (e.presum.map (assign (e.input.filter fun c => c ∉ e.output) σ p))).sum := by
  set P : ℕ → Bool := fun c => decide (c ∉ e.output) with hP
  have hextra : ∀ c ∈ e.extra, P c = false := by
    intro c hc
    have := List.mem_filter.1 hc
    simp [hP, hext c this.1 (by simpa using this.2)]
  have hcon : e.contract = e.presum.map P := by
    simp only [EinsumT.contract, EinsumT.presum, List.map_append]
    congr 1
    exact (List.map_congr_left fun c hc => hextra c hc).symm
  have hfp : e.presum.filter P = e.input.filter P := by
    have hnil : e.extra.filter P = [] := List.filter_eq_nil_iff.2 (fun c hc => by simp [hextra c hc])
    rw [EinsumT.presum, List.filter_append, hnil, List.append_nil]
  have hpost : e.post = e.presum.filter fun c => !P c := by
    rw [EinsumT.presum, List.filter_append, EinsumT.post]
    congr 1
    · apply List.filter_congr; intro c _; simp [hP]
    · exact (List.filter_eq_self.2 fun c hc => by simp [hextra c hc]).symm
  have hpnd : e.presum.Nodup := by
    rw [EinsumT.presum, List.nodup_append]
    refine ⟨hi, hk.filter _, ?_⟩
    intro a ha b hb hab
    subst hab
    simpa [EinsumT.extra, ha] using hb
  have hpostnd : e.post.Nodup := by rw [hpost]; exact hpnd.filter _
  have hmempost : ∀ c, c ∈ e.post ↔ c ∈ e.output := by
    intro c
    rw [hpost, List.mem_filter, EinsumT.presum, List.mem_append, EinsumT.extra, List.mem_filter]
    simp only [hP]
    constructor
    · rintro ⟨_, h⟩; simpa using h
    · intro h
      refine ⟨?_, by simpa using h⟩
      rcases hout c h with h1 | h1
      · exact Or.inl h1
      · by_cases h2 : c ∈ e.input
        · exact Or.inl h2
        · exact Or.inr ⟨h1, by simpa using h2⟩
  have hperm : e.output.Perm e.post := (List.perm_ext_iff_of_nodup ho hpostnd).2 fun c => (hmempost c).symm
  have hrs : (npReduce List.sum false e.contract z).shape = e.post.map dim := by
    simp only [npReduce, hcon, hz, redShape_false, hpost]
  have htp : e.transpose.Perm (List.range (npReduce List.sum false e.contract z).shape.length) := by
    rw [hrs, List.length_map, ← map_idxOf_self _ hpostnd]
    exact hperm.map _
  have hgetpost : ∀ c ∈ e.output, ∀ g : ℕ → ℕ, (e.post.map g).getD (e.post.idxOf c) 0 = g c := by
    intro c hc g
    rw [List.getD_eq_getElem?_getD, List.getElem?_map, List.getElem?_idxOf ((hmempost c).2 hc)]; rfl
  unfold npTranspose
  rw [if_pos htp]
  refine ⟨_, rfl, ?_, ?_⟩
  · simp only [hrs, EinsumT.transpose, List.map_map]
    exact List.map_congr_left fun c hc => hgetpost c hc dim
  · intro σ
    simp only [hrs, List.length_map]
    have hidx : (List.range e.post.length).map (fun j => (e.output.map σ).getD (e.transpose.idxOf j) 0) = e.post.map σ := by
      rw [← map_idxOf_self _ hpostnd, List.map_map]
      refine List.map_congr_left fun c hc => ?_
      have hco := (hmempost c).1 hc
      have h1 : e.transpose.idxOf (e.post.idxOf c) = e.output.idxOf c := by
        refine idxOf_map_of_inj e.post.idxOf e.output c fun b hb h => ?_
        exact (List.idxOf_inj ((hmempost b).2 hb)).1 h
      simp only [Function.comp_apply, h1]
      rw [List.getD_eq_getElem?_getD, List.getElem?_map, List.getElem?_idxOf hco]; rfl
    rw [hidx]
    simp only [npReduce, hcon, hz]
    have hkept : (e.post.map σ).length = ((e.presum.map P).filter (!·)).length := by
      rw [List.length_map, hpost, List.filter_map, List.length_map]; rfl
    rw [dropKept_false _ _ hkept, hpost]
    have hperm2 : (redIdx (e.presum.map P) (e.presum.map dim) ((e.presum.filter fun c => !P c).map σ)).Perm
        (l.map fun p => e.presum.map (assign (e.input.filter P) σ p)) := by
      have hinj : ∀ p ∈ l, ∀ q ∈ l, e.presum.map (assign (e.input.filter P) σ p) = e.presum.map (assign (e.input.filter P) σ q) → p = q := by
        intro p hp q hq h
        have hlp := (List.Forall₂.length_eq ((hl.2 p).1 hp)).trans (List.length_map _)
        have hlq := (List.Forall₂.length_eq ((hl.2 q).1 hq)).trans (List.length_map _)
        apply List.ext_getElem (by rw [hlp, hlq])
        intro n h1 h2
        have hn : n < (e.input.filter P).length := by rw [← hlp]; exact h1
        have hmem : (e.input.filter P)[n] ∈ e.presum := by
          exact List.mem_append.2 (Or.inl (List.mem_filter.1 (List.getElem_mem _)).1)
        have hc := List.map_inj_left.1 h _ hmem
        have hidx' : (e.input.filter P).idxOf (e.input.filter P)[n] = n := (hi.filter _).idxOf_getElem n hn
        simp only [assign, List.getElem_mem, if_true, hidx', List.getD_eq_getElem?_getD, List.getElem?_eq_getElem h1,
          List.getElem?_eq_getElem h2, Option.getD_some] at hc
        exact hc
      rw [List.perm_ext_iff_of_nodup (nodup_redIdx _ _ _) (List.Nodup.map_on hinj hl.1)]
      intro q
      rw [mem_redIdx, hfp]
      simp only [List.mem_map, hl.2]
      have hflt : (e.input.filter P) = e.input.filter fun c => c ∉ e.output := rfl
      constructor
      · rintro ⟨p, hp, rfl⟩
        refine ⟨p, hp, ?_⟩
        rw [fillAxes_eq P σ _ hpnd p (by rw [hfp]; exact (List.Forall₂.length_eq hp).trans (List.length_map _)), hfp]
      · rintro ⟨p, hp, rfl⟩
        refine ⟨p, hp, ?_⟩
        rw [fillAxes_eq P σ _ hpnd p (by rw [hfp]; exact (List.Forall₂.length_eq hp).trans (List.length_map _)), hfp]
    rw [((hperm2.map _).sum_eq), List.map_map]
    rfl

end HGQ
