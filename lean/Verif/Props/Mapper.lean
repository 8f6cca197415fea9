import Verif.Model.Mapper
import Verif.Props.Trace

/-! # C15, C16: bit-width tensor shape, broadcasting and reduction -/
namespace HGQ

namespace Spec
/-- Axis `a` of an `n`-dimensional tensor is named by the Python axis list `l` (negative = from the end). -/
def Named (l : List ℤ) (n a : ℕ) : Prop := (a : ℤ) ∈ l ∨ (a : ℤ) - n ∈ l
/-- All axes of `l` are legal for rank `n`. -/
def Legal (l : List ℤ) (n : ℕ) : Prop := ∀ z ∈ l, -(n : ℤ) ≤ z ∧ z < n
/-- Axis `a` gets its own bit-width per position: it is named as heterogeneous, or not named as homogeneous. -/
def IsHet (m : Mapper) (n a : ℕ) : Prop :=
  (∃ l, m.het = some l ∧ Named l n a) ∨ (m.het = none ∧ ∃ l, m.hom = some l ∧ ¬ Named l n a)
/-- The axis list given by the user (whichever of the two) is legal. -/
def LegalM (m : Mapper) (n : ℕ) : Prop :=
  (∃ l, m.het = some l ∧ Legal l n) ∨ (m.het = none ∧ ∃ l, m.hom = some l ∧ Legal l n)
/-- `idx` is an in-range multi-index of `shape`. -/
def InRange : List ℕ → List ℕ → Prop := List.Forall₂ (fun n i => i < n)
end Spec
open Spec

/-! ## helper lemmas -/

theorem checkAxis_isSome (l : List ℤ) (n : ℕ) : (checkAxis l n).isSome ↔ Legal l n := by
  unfold checkAxis Legal
  simp only []
  split_ifs with h
  · simp only [Option.isSome_some, true_iff]
    simp only [List.all_map, List.all_eq_true, Function.comp, decide_eq_true_eq] at h
    intro z hz
    have := h z hz
    split_ifs at this <;> omega
  · simp only [Option.isSome_none, Bool.false_eq_true, false_iff]
    intro h'
    apply h
    simp only [List.all_map, List.all_eq_true, Function.comp, decide_eq_true_eq]
    intro z hz
    have := h' z hz
    split_ifs <;> omega

theorem checkAxis_mem {l : List ℤ} {n : ℕ} {r : List ℕ} (h : checkAxis l n = some r) (a : ℕ) :
    a ∈ r ↔ a < n ∧ Named l n a := by
  have hl : Legal l n := (checkAxis_isSome l n).1 (by simp [h])
  unfold checkAxis at h
  simp only [] at h
  split_ifs at h with hh
  simp only [Option.some.injEq] at h
  subst h
  simp only [List.map_map, List.mem_map, Function.comp, Named]
  constructor
  · rintro ⟨z, hz, rfl⟩
    have := hl z hz
    split_ifs with h0
    · refine ⟨by omega, Or.inl ?_⟩
      rwa [Int.toNat_of_nonneg h0]
    · refine ⟨by omega, Or.inr ?_⟩
      rw [Int.toNat_of_nonneg (by omega)]
      rwa [show z + (n : ℤ) - n = z by ring]
  · rintro ⟨ha, h | h⟩
    · exact ⟨a, h, by simp⟩
    · refine ⟨(a : ℤ) - n, h, ?_⟩
      have : ¬ ((a : ℤ) - n ≥ 0) := by omega
      rw [if_neg this]; omega

theorem setdiffRange_mem (n : ℕ) (l : List ℕ) (a : ℕ) : a ∈ setdiffRange n l ↔ a < n ∧ a ∉ l := by
  simp [setdiffRange]

theorem fillShape_spec (shape : List (Option ℕ)) (het : List ℕ) (ws : List ℕ) :
    (∀ r, fillShape shape het ws = some r → r.length = ws.length ∧
      ∀ a, r[a]? = if a ∈ het then (if a < ws.length then (shape[a]?).join else none) else ws[a]?) ∧
    ((fillShape shape het ws).isSome ↔ ∀ a ∈ het, ∃ d, shape[a]? = some (some d)) := by
  induction het generalizing ws with
  | nil => simp only [fillShape]; simp
  | cons b het ih =>
    simp only [fillShape]
    split
    · rename_i d hd
      obtain ⟨ih1, ih2⟩ := ih (ws.set b d)
      constructor
      · intro r hr
        obtain ⟨h1, h2⟩ := ih1 r hr
        refine ⟨by simpa using h1, ?_⟩
        intro a
        rw [h2 a]
        simp only [List.length_set, List.mem_cons, List.getElem?_set]
        by_cases hab : a ∈ het
        · simp [hab]
        · by_cases hb : a = b
          · subst hb; simp [hab, hd]
          · simp [hab, hb, Ne.symm hb]
      · rw [ih2]
        simp only [List.forall_mem_cons]
        exact ⟨fun h => ⟨⟨d, hd⟩, h⟩, fun h => h.2⟩
    · rename_i hd
      constructor
      · intro r hr; simp at hr
      · simp only [Option.isSome_none, Bool.false_eq_true, List.forall_mem_cons, false_iff, not_and]
        rintro ⟨d, h⟩
        exact absurd h (hd d)

theorem resolve_spec {m : Mapper} {n : ℕ} {het hom : List ℕ} (h : m.resolve n = some (het, hom)) (a : ℕ) :
    (a ∈ het ↔ a < n ∧ IsHet m n a) ∧ (a ∈ hom ↔ a < n ∧ ¬ IsHet m n a) := by
  unfold Mapper.resolve at h
  cases hh : m.het with
  | some l =>
    simp only [hh, Option.map_eq_some_iff, Prod.mk.injEq] at h
    obtain ⟨r, hr, rfl, rfl⟩ := h
    have := checkAxis_mem hr a
    have hi : IsHet m n a ↔ Named l n a := by simp [IsHet, hh]
    rw [setdiffRange_mem, this, hi]
    tauto
  | none =>
    simp only [hh] at h
    cases hm : m.hom with
    | none => simp [hm] at h
    | some l =>
      simp only [hm, Option.map_eq_some_iff, Prod.mk.injEq] at h
      obtain ⟨r, hr, rfl, rfl⟩ := h
      have := checkAxis_mem hr a
      have hi : IsHet m n a ↔ ¬ Named l n a := by simp [IsHet, hh, hm]
      rw [setdiffRange_mem, this, hi]
      tauto

theorem resolve_isSome (m : Mapper) (n : ℕ) : (m.resolve n).isSome ↔ LegalM m n := by
  unfold Mapper.resolve LegalM
  cases m.het with
  | some l => simp [← checkAxis_isSome]
  | none => cases m.hom with
    | some l => simp [← checkAxis_isSome]
    | none => simp

/-! ## C15 -/

/-- **C15** (axes) When the axes are legal the resolved heterogeneous and homogeneous axes partition the axes of the
tensor as the user asked; otherwise they are rejected. -/
theorem C15_axes_partition (m : Mapper) (n : ℕ) :
    ((m.resolve n).isSome ↔ LegalM m n) ∧
    ∀ het hom, m.resolve n = some (het, hom) → ∀ a,
      (a ∈ het ↔ a < n ∧ IsHet m n a) ∧ (a ∈ hom ↔ a < n ∧ ¬ IsHet m n a) :=
  ⟨resolve_isSome m n, fun _ _ h a => resolve_spec h a⟩

/-- **C15** (shape) The bit-width tensor has the input rank, the input size on heterogeneous axes and 1 elsewhere;
construction fails exactly if an axis is illegal or a heterogeneous dimension is unknown. -/
theorem C15_weight_shape (m : Mapper) (shape : List (Option ℕ)) :
    ((m.weightShape shape).isSome ↔
      LegalM m shape.length ∧ ∀ a < shape.length, IsHet m shape.length a → ∃ d, shape[a]? = some (some d)) ∧
    ∀ ws, m.weightShape shape = some ws → ws.length = shape.length ∧
      ∀ a < shape.length,
        (IsHet m shape.length a → shape[a]? = some (ws[a]?)) ∧ (¬ IsHet m shape.length a → ws[a]? = some 1) := by
  unfold Mapper.weightShape
  cases hr : m.resolve shape.length with
  | none =>
    have : ¬ LegalM m shape.length := by rw [← resolve_isSome, hr]; simp
    simp [this]
  | some p =>
    obtain ⟨het, hom⟩ := p
    have hl : LegalM m shape.length := by rw [← resolve_isSome, hr]; simp
    have hs := resolve_spec hr
    obtain ⟨f1, f2⟩ := fillShape_spec shape het (List.replicate shape.length 1)
    constructor
    · simp only [f2, hl, true_and]
      constructor
      · intro h a ha hi; exact h a (((hs a).1).2 ⟨ha, hi⟩)
      · intro h a ha; have := ((hs a).1).1 ha; exact h a this.1 this.2
    · intro ws hws
      obtain ⟨h1, h2⟩ := f1 ws hws
      have h3 : ∀ a ∈ het, ∃ d, shape[a]? = some (some d) := f2.1 (by simp only [] at hws; rw [hws]; rfl)
      refine ⟨by simpa using h1, ?_⟩
      intro a ha
      constructor
      · intro hi
        have hmem := ((hs a).1).2 ⟨ha, hi⟩
        obtain ⟨d, hd⟩ := h3 a hmem
        rw [h2 a]; simp [hmem, ha, hd]
      · intro hi
        have hmem : a ∉ het := fun h => hi (((hs a).1).1 h).2
        rw [h2 a]; simp [hmem, ha]

/-- NHWC activation, per-channel bit-widths given as `heterogeneous_axis=(-1,)`, unknown batch size. -/
example : Mapper.weightShape ⟨some [-1], none⟩ [none, some 8, some 8, some 3] = some [1, 1, 1, 3] := by decide
example : Mapper.weightShape ⟨none, some [0]⟩ [none, some 8, some 3] = some [1, 8, 3] := by decide
example : Mapper.weightShape ⟨some [-1], none⟩ [none, none] = none := by decide
example : Mapper.weightShape ⟨some [3], none⟩ [none, some 8, some 3] = none := by decide

/-! ## C16 -/

theorem mem_indices (shape idx : List ℕ) : idx ∈ indices shape ↔ InRange shape idx := by
  induction shape generalizing idx with
  | nil => simp [indices, InRange]
  | cons n ns ih =>
    simp only [indices, List.mem_flatMap, List.mem_range, List.mem_map]
    constructor
    · rintro ⟨i, hi, r, hr, rfl⟩
      exact List.Forall₂.cons hi ((ih r).1 hr)
    · intro h
      cases h with
      | cons h1 h2 => exact ⟨_, h1, _, (ih _).2 h2, rfl⟩

/-- The position read by broadcasting is the position the element is reduced into. -/
theorem bcast_eq_keep {m : Mapper} {shape : List ℕ} {ws het hom : List ℕ}
    (hws : m.weightShape (shape.map some) = some ws) (hr : m.resolve shape.length = some (het, hom))
    {idx : List ℕ} (hidx : InRange shape idx) : bcastIdx ws idx = keepIdx hom idx := by
  have hlen := hidx.length_eq
  obtain ⟨h1, h2⟩ := (C15_weight_shape m (shape.map some)).2 ws hws
  simp only [List.length_map] at h1 h2
  apply List.ext_getElem?
  intro a
  unfold bcastIdx keepIdx
  by_cases ha : a < shape.length
  · have haw : a < ws.length := by omega
    have hai : a < idx.length := by omega
    rw [List.getElem?_zipWith, List.getElem?_eq_getElem haw, List.getElem?_eq_getElem hai, List.getElem?_mapIdx,
      List.getElem?_eq_getElem hai]
    simp only [Option.map_some, Option.some.injEq]
    have hs := resolve_spec hr a
    have hlt : idx[a] < shape[a] := by
      have := (List.forall₂_iff_get.1 hidx).2 a ha hai
      simpa using this
    by_cases hi : IsHet m shape.length a
    · have hmem : a ∉ hom := fun h => (hs.2.1 h).2 hi
      have := (h2 a ha).1 hi
      rw [List.getElem?_map, List.getElem?_eq_getElem ha, List.getElem?_eq_getElem haw] at this
      simp only [Option.map_some, Option.some.injEq] at this
      simp only [List.contains_iff_mem, hmem, if_false]
      split_ifs with hw
      · omega
      · rfl
    · have hmem : a ∈ hom := hs.2.2 ⟨ha, hi⟩
      have := (h2 a ha).2 hi
      rw [List.getElem?_eq_getElem haw] at this
      simp only [Option.some.injEq] at this
      simp [hmem, this]
  · have haw : ws.length ≤ a := by omega
    have hai : idx.length ≤ a := by omega
    rw [List.getElem?_eq_none (by simp; omega), List.getElem?_eq_none (by simpa using hai)]

/-- **C16** The calibration reduction of cell `j` ranges over exactly the elements of the input that read cell `j` when
the bit-widths are broadcast; so its result is the largest magnitude (is attained, and bounds all) and the sign flag tells
whether one of them is negative. -/
theorem C16_reduction_is_fibre (m : Mapper) (shape : List ℕ) (ws het hom : List ℕ)
    (hws : m.weightShape (shape.map some) = some ws) (hr : m.resolve shape.length = some (het, hom))
    (x : List ℕ → ℚ) (j : List ℕ) :
    (∀ idx, idx ∈ fibre hom shape j ↔ InRange shape idx ∧ bcastIdx ws idx = j) ∧
    (∀ idx, InRange shape idx → bcastIdx ws idx = j → |x idx| ≤ xToBwAbsmax hom shape x j) ∧
    ((∃ idx, InRange shape idx ∧ bcastIdx ws idx = j) →
      ∃ idx, InRange shape idx ∧ bcastIdx ws idx = j ∧ |x idx| = xToBwAbsmax hom shape x j) ∧
    (xToBwSign hom shape x j = true ↔ ∃ idx, InRange shape idx ∧ bcastIdx ws idx = j ∧ x idx < 0) := by
  have hf : ∀ idx, idx ∈ fibre hom shape j ↔ InRange shape idx ∧ bcastIdx ws idx = j := by
    intro idx
    simp only [fibre, List.mem_filter, mem_indices, decide_eq_true_eq]
    refine and_congr_right fun h => ?_
    rw [bcast_eq_keep hws hr h]
  refine ⟨hf, ?_, ?_, ?_⟩
  · intro idx h1 h2
    exact le_absmax (List.mem_map_of_mem ((hf idx).2 ⟨h1, h2⟩))
  · rintro ⟨idx, h⟩
    have hne : (fibre hom shape j).map x ≠ [] := by
      intro h0
      rw [List.map_eq_nil_iff] at h0
      have := (hf idx).2 h
      rw [h0] at this; simp at this
    obtain ⟨y, hy, hy'⟩ := absmax_mem hne
    obtain ⟨i, hi, rfl⟩ := List.mem_map.1 hy
    exact ⟨i, ((hf i).1 hi).1, ((hf i).1 hi).2, hy'⟩
  · unfold xToBwSign
    rw [anyNeg_iff]
    simp only [List.mem_map, exists_exists_and_eq_and]
    simp only [hf, and_assoc]

/-- **C16** (every cell is fed) Every in-range position of the bit-width tensor is read by some input element, provided no
dimension of the input is 0. -/
theorem C16_every_cell_fed (m : Mapper) (shape : List ℕ) (ws het hom : List ℕ)
    (hws : m.weightShape (shape.map some) = some ws) (hr : m.resolve shape.length = some (het, hom))
    (hpos : ∀ d ∈ shape, 0 < d) (j : List ℕ) (hj : InRange ws j) :
    fibre hom shape j ≠ [] := by
  obtain ⟨h1, h2⟩ := (C15_weight_shape m (shape.map some)).2 ws hws
  simp only [List.length_map] at h1 h2
  have hjl := hj.length_eq
  have hin : InRange shape j := by
    unfold InRange
    rw [List.forall₂_iff_get]
    refine ⟨by omega, ?_⟩
    intro a ha haj
    have hlt := (List.forall₂_iff_get.1 hj).2 a (by omega) haj
    by_cases hi : IsHet m shape.length a
    · have := (h2 a ha).1 hi
      rw [List.getElem?_map, List.getElem?_eq_getElem ha, List.getElem?_eq_getElem (by omega)] at this
      simp only [Option.map_some, Option.some.injEq] at this
      simp only [List.get_eq_getElem] at *
      omega
    · have := (h2 a ha).2 hi
      rw [List.getElem?_eq_getElem (by omega)] at this
      simp only [Option.some.injEq] at this
      have := hpos shape[a] (List.getElem_mem ha)
      simp only [List.get_eq_getElem] at *
      omega
  have hb : bcastIdx ws j = j := by
    apply List.ext_getElem?
    intro a
    unfold bcastIdx
    by_cases ha : a < ws.length
    · have haj : a < j.length := by omega
      rw [List.getElem?_zipWith, List.getElem?_eq_getElem ha, List.getElem?_eq_getElem haj]
      have hlt := (List.forall₂_iff_get.1 hj).2 a ha haj
      simp only [List.get_eq_getElem] at hlt
      simp only [Option.some.injEq]
      split_ifs <;> omega
    · rw [List.getElem?_eq_none (by simp; omega), List.getElem?_eq_none (by omega)]
  intro h0
  have := ((C16_reduction_is_fibre m shape ws het hom hws hr (fun _ => 0) j).1 j).2 ⟨hin, hb⟩
  rw [h0] at this; simp at this

theorem kifTensorTrace_cell (q : QOpts) (hom : List ℕ) (reset : Bool) (st : List ℕ → KIFState) (xs : List Tensor)
    (j : List ℕ) : kifTensorTrace q hom reset st xs j =
      kifTraceMinmax q reset (st j) (xs.map (fun x => (fibre hom x.shape j).map x.val)) := by
  unfold kifTensorTrace kifTraceMinmax kifTrace
  have : ∀ (xs : List Tensor) (s : List ℕ → KIFState),
      xs.foldl (fun st x => kifTensorState q hom st .tracing x) s j =
      (xs.map (fun x => (fibre hom x.shape j).map x.val)).foldl (fun s xs => (kifCall q s .tracing xs).1) (s j) := by
    intro xs
    induction xs with
    | nil => intro s; rfl
    | cons x xs ih => intro s; simp only [List.foldl_cons, List.map_cons]; rw [ih]; rfl
  rw [this]
  cases reset <;> rfl

/-- **C16 + C08 at tensor level** Calibrate a WRAP kif quantizer of any granularity on any sequence of tensors (whose
shapes give the same bit-width tensor, e.g. differ in the batch size); then inference on every element of every
calibration tensor is plain rounding with the `f` of its own cell. -/
theorem C16_tensor_calibration (q : QOpts) (hom : q.om = .WRAP) (htr : q.trainable = true) (reset : Bool)
    (m : Mapper) (ws het hm : List ℕ) (st : List ℕ → KIFState) (xs : List Tensor)
    (hshape : ∀ x ∈ xs, m.weightShape (x.shape.map some) = some ws ∧ m.resolve x.shape.length = some (het, hm))
    (M : ℤ) (hM : ∀ n : ℤ, n ≤ M → (n : ℚ) ≤ applyC q.ic n)
    (hfit : ∀ x ∈ xs, ∀ idx, InRange x.shape idx →
      |roundAt q.rm (st (bcastIdx ws idx)).f (x.val idx)| ≤ high M (st (bcastIdx ws idx)).f) :
    ∀ x ∈ xs, ∀ idx, InRange x.shape idx →
      kifTensorOut q ws (kifTensorTrace q hm reset st xs) .false x idx =
        some (roundAt q.rm (st (bcastIdx ws idx)).f (x.val idx)) := by
  intro x hx idx hidx
  unfold kifTensorOut
  rw [kifTensorTrace_cell]
  set j := bcastIdx ws idx with hj
  have h := (C08_calibrated_no_overflow q hom htr reset (st j)
    (xs.map (fun x => (fibre hm x.shape j).map x.val)) M hM (by
      intro l hl
      obtain ⟨y, hy, rfl⟩ := List.mem_map.1 hl
      intro v hv
      obtain ⟨i, hi, rfl⟩ := List.mem_map.1 hv
      obtain ⟨hs1, hs2⟩ := hshape y hy
      have := ((C16_reduction_is_fibre m y.shape ws het hm hs1 hs2 y.val j).1 i).1 hi
      have hf := hfit y hy i this.1
      rw [this.2] at hf
      exact hf)).2
  obtain ⟨hs1, hs2⟩ := hshape x hx
  have hmem := ((C16_reduction_is_fibre m x.shape ws het hm hs1 hs2 x.val j).1 idx).2 ⟨hidx, rfl⟩
  rw [h _ (List.mem_map_of_mem hx) (x.val idx) (List.mem_map_of_mem hmem)]
  rfl

/-- A (2,3) tensor with per-column bit-widths: the cell `[0,1]` is fed by elements `[0,1]` and `[1,1]`. -/
example : Mapper.weightShape ⟨some [-1], none⟩ ([2, 3].map some) = some [1, 3] ∧
    Mapper.resolve ⟨some [-1], none⟩ 2 = some ([1], [0]) ∧ fibre [0] [2, 3] [0, 1] = [[0, 1], [1, 1]] ∧
    bcastIdx [1, 3] [1, 1] = [0, 1] := by decide

end HGQ
