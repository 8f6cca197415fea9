import Verif.Model.Instantiate
import Verif.Props.Mapper
import Mathlib.Tactic

/-! # C88: sharing one bit-width mapper between quantizers -/
namespace HGQ

namespace Spec
/-- The mapper gives every quantizer the shape it would have got from a mapper of its own. -/
def HistoryIndependent (m : Mapper) (hist : List (List (Option ℕ))) : Prop := m.inferAll hist = hist.map m.weightShape
end Spec
open Spec

theorem checkAxis_nonneg (l : List ℕ) (n : ℕ) (h : ∀ a ∈ l, a < n) : checkAxis (l.map Int.ofNat) n = some l := by
  unfold checkAxis
  have e : ((l.map Int.ofNat).map fun a => if a ≥ 0 then a else a + (n : ℤ)) = l.map Int.ofNat := by
    rw [List.map_map]
    exact List.map_congr_left fun a _ => by simp
  rw [e, if_pos]
  · simp [List.map_map, Function.comp_def]
  · simp only [List.all_map, List.all_eq_true, Function.comp_apply, decide_eq_true_eq]
    intro a ha
    have := h a ha
    simp only [Int.ofNat_eq_natCast]
    omega

/-- Two mappers that resolve to the same heterogeneous axes give the same shapes. -/
theorem weightShape_congr {m m' : Mapper} {shape : List (Option ℕ)}
    (h : (m.resolve shape.length).map Prod.fst = (m'.resolve shape.length).map Prod.fst) : m.weightShape shape = m'.weightShape shape := by
  unfold Mapper.weightShape
  cases h1 : m.resolve shape.length <;> cases h2 : m'.resolve shape.length <;> simp_all

theorem infer_fst (m : Mapper) (shape : List (Option ℕ)) : (m.infer shape).1 = m.weightShape shape := by
  unfold Mapper.infer Mapper.weightShape
  cases m.resolve shape.length <;> rfl

theorem infer_snd_none {m : Mapper} {shape : List (Option ℕ)} (h : m.resolve shape.length = none) : (m.infer shape).2 = m := by
  unfold Mapper.infer; rw [h]

theorem infer_snd_some {m : Mapper} {shape : List (Option ℕ)} {het hom : List ℕ} (h : m.resolve shape.length = some (het, hom)) :
    (m.infer shape).2 = ⟨some (het.map Int.ofNat), some (hom.map Int.ofNat)⟩ := by
  unfold Mapper.infer; rw [h]

theorem inferAll_of_inv (P : Mapper → Prop) (Q : List (Option ℕ) → Prop) (m : Mapper) (hm : P m)
    (hstep : ∀ m', P m' → ∀ s, Q s → P (m'.infer s).2) (heq : ∀ m', P m' → ∀ s, Q s → m'.weightShape s = m.weightShape s)
    (hist : List (List (Option ℕ))) (hQ : ∀ s ∈ hist, Q s) : HistoryIndependent m hist := by
  have : ∀ m', P m' → m'.inferAll hist = hist.map m.weightShape := by
    induction hist with
    | nil => intros; rfl
    | cons s ss ih =>
      intro m' h'
      have hs := hQ s (by simp)
      rw [Mapper.inferAll, infer_fst, heq m' h' s hs, ih (fun t ht => hQ t (by simp [ht])) _ (hstep m' h' s hs)]
      rfl
  exact this m hm

theorem resolve_het_lt {m : Mapper} {n : ℕ} {het hom : List ℕ} (h : m.resolve n = some (het, hom)) : ∀ a ∈ het, a < n :=
  fun a ha => ((resolve_spec h a).1.1 ha).1

theorem resolve_resolved (het hom : List ℕ) (n : ℕ) (h : ∀ a ∈ het, a < n) :
    (⟨some (het.map Int.ofNat), some (hom.map Int.ofNat)⟩ : Mapper).resolve n = some (het, setdiffRange n het) := by
  simp only [Mapper.resolve, checkAxis_nonneg het n h, Option.map_some]

/-- **C88 (partial)**: quantizers of one rank may share a mapper: each gets the bit-width shape it would get from a mapper of its own, in
any order and any number.  Missing: quantizers of different ranks, for which it is false in general. -/
theorem C88_same_rank_partial (m : Mapper) (n : ℕ) (hist : List (List (Option ℕ))) (h : ∀ s ∈ hist, s.length = n) :
    HistoryIndependent m hist := by
  refine inferAll_of_inv (fun m' => m' = m ∨ ∃ het hom hom', m.resolve n = some (het, hom) ∧
    m' = ⟨some (het.map Int.ofNat), some (List.map Int.ofNat hom')⟩) (fun s => s.length = n) m (Or.inl rfl) ?_ ?_ hist h
  · rintro m' (rfl | ⟨het, hom, hom', hr, rfl⟩) s rfl
    · cases hr : m'.resolve s.length with
      | none => exact Or.inl (infer_snd_none hr)
      | some p => exact Or.inr ⟨p.1, p.2, p.2, rfl, infer_snd_some hr⟩
    · exact Or.inr ⟨het, hom, setdiffRange s.length het, hr, infer_snd_some (resolve_resolved het hom' _ (resolve_het_lt hr))⟩
  · rintro m' (rfl | ⟨het, hom, hom', hr, rfl⟩) s rfl
    · rfl
    · refine weightShape_congr ?_
      rw [resolve_resolved het hom' _ (resolve_het_lt hr), hr]
      rfl

/-- **C88**, counting from the front: a mapper given its heterogeneous axes as non-negative numbers may be shared by quantizers of any
ranks (those that lack an axis are rejected, as with a mapper of their own). -/
theorem C88_front_axes (l : List ℕ) (hom : Option (List ℤ)) (hist : List (List (Option ℕ))) :
    HistoryIndependent ⟨some (l.map Int.ofNat), hom⟩ hist := by
  have hres : ∀ (hom' : Option (List ℤ)) (n : ℕ), ((⟨some (l.map Int.ofNat), hom'⟩ : Mapper).resolve n).map Prod.fst =
      if ∀ a ∈ l, a < n then some l else none := by
    intro hom' n
    by_cases h : ∀ a ∈ l, a < n
    · simp only [Mapper.resolve, checkAxis_nonneg l n h, Option.map_some, if_pos h]
    · rw [if_neg h]
      have : checkAxis (l.map Int.ofNat) n = none := by
        cases hc : checkAxis (l.map Int.ofNat) n with
        | none => rfl
        | some r =>
          exfalso
          apply h
          have := (checkAxis_isSome (l.map Int.ofNat) n).1 (by rw [hc]; rfl)
          intro a ha
          have := (this (Int.ofNat a) (List.mem_map_of_mem ha)).2
          simpa using this
      simp [Mapper.resolve, this]
  refine inferAll_of_inv (fun m' => m'.het = some (l.map Int.ofNat)) (fun _ => True) _ rfl ?_ ?_ hist (fun _ _ => trivial)
  · rintro ⟨het', hom'⟩ rfl s _
    have := hres hom' s.length
    cases hr : (⟨some (l.map Int.ofNat), hom'⟩ : Mapper).resolve s.length with
    | none => rw [infer_snd_none hr]
    | some p =>
      rw [infer_snd_some (het := p.1) (hom := p.2) hr]
      rw [hr] at this
      split at this
      · simp only [Option.map_some, Option.some.injEq] at this
        rw [this]
      · simp at this
  · rintro ⟨het', hom'⟩ rfl s _
    exact weightShape_congr (by rw [hres, hres])

/-- A shape whose dimensions after the first are known and larger than one. -/
def Spec.RealShape (s : List (Option ℕ)) : Prop := s ≠ [] ∧ ∀ a, 0 < a → a < s.length → ∃ d, s[a]? = some (some d) ∧ d ≠ 1

theorem own_last {s : List (Option ℕ)} (hs : RealShape s) (m : Mapper) (hl : LegalM m s.length) (a : ℕ) (h0 : 0 < a) (ha : a < s.length)
    (hhet : ∀ b < s.length, IsHet m s.length b → 0 < b) (hia : IsHet m s.length a) :
    ∃ ws, m.weightShape s = some ws ∧ ws[a]? ≠ some 1 := by
  obtain ⟨h1, h2⟩ := C15_weight_shape m s
  have hsome : (m.weightShape s).isSome := h1.2 ⟨hl, fun b hb hi => by
    obtain ⟨d, hd, _⟩ := hs.2 b (hhet b hb hi) hb
    exact ⟨d, hd⟩⟩
  obtain ⟨ws, hws⟩ := Option.isSome_iff_exists.1 hsome
  refine ⟨ws, hws, ?_⟩
  obtain ⟨d, hd, hd1⟩ := hs.2 a h0 ha
  have h3 := ((h2 ws hws).2 a ha).1 hia
  rw [hd] at h3
  have : ws[a]? = some d := (Option.some.inj h3).symm
  rw [this]
  simpa using hd1

/-- **C88 violated**, `homogeneous_axis=(0,)` (the default of data lanes): two quantizers sharing such a mapper get the right shapes if
and only if their ranks are equal. -/
theorem C88_homogeneous_violated (s t : List (Option ℕ)) (hs : RealShape s) (ht : RealShape t) :
    HistoryIndependent ⟨none, some [0]⟩ [s, t] ↔ s.length = t.length := by
  have hsl : 0 < s.length := List.length_pos_iff.2 hs.1
  have htl : 0 < t.length := List.length_pos_iff.2 ht.1
  constructor
  · intro h
    by_contra hne
    simp only [HistoryIndependent, Mapper.inferAll, List.map_cons, List.map_nil, List.cons.injEq, and_true, infer_fst] at h
    have hlegal : ∀ n : ℕ, 0 < n → LegalM ⟨none, some [0]⟩ n := fun n hn => Or.inr ⟨rfl, [0], rfl, by simp [Legal]; omega⟩
    have hhet : ∀ n a : ℕ, IsHet ⟨none, some [0]⟩ n a ↔ a ≠ 0 ∧ a ≠ n := by
      intro n a
      simp only [IsHet, Named, reduceCtorEq, false_and, exists_false, false_or, true_and, Option.some.injEq, exists_eq_left',
        List.mem_singleton]
      omega
    obtain ⟨p, hp⟩ := Option.isSome_iff_exists.1 ((resolve_isSome ⟨none, some [0]⟩ s.length).2 (hlegal _ hsl))
    obtain ⟨het, hom⟩ := p
    have hmem := fun a => (resolve_spec hp a).1
    rw [infer_snd_some hp] at h
    obtain ⟨_, h⟩ := h
    rcases lt_or_gt_of_ne hne with hlt | hgt
    · -- the second tensor has more axes: its last axis is missed
      obtain ⟨ws, hws, hw1⟩ := own_last ht ⟨none, some [0]⟩ (hlegal _ htl) (t.length - 1) (by omega) (by omega)
        (fun b hb hi => by have := (hhet _ _).1 hi; omega) ((hhet _ _).2 (by omega))
      rw [hws] at h
      refine hw1 (((C15_weight_shape _ t).2 ws h).2 (t.length - 1) (by omega) |>.2 ?_)
      rintro (⟨l, hl, hn⟩ | ⟨hl, _⟩)
      · simp only [Option.some.injEq] at hl
        subst hl
        rcases hn with hn | hn
        · obtain ⟨a, ha, e⟩ := List.mem_map.1 hn
          have := (hmem a).1 ha
          simp only [Int.ofNat_eq_natCast] at e
          omega
        · obtain ⟨a, ha, e⟩ := List.mem_map.1 hn
          simp only [Int.ofNat_eq_natCast] at e
          omega
      · simp at hl
    · -- the second tensor has fewer axes: it is rejected
      have hown : ((⟨none, some [0]⟩ : Mapper).weightShape t).isSome := by
        refine (C15_weight_shape _ t).1.2 ⟨hlegal _ htl, fun a ha hi => ?_⟩
        obtain ⟨d, hd, _⟩ := ht.2 a (by have := (hhet _ _).1 hi; omega) ha
        exact ⟨d, hd⟩
      rw [← h] at hown
      have := ((C15_weight_shape _ t).1.1 hown).1
      rcases this with ⟨l, hl, hleg⟩ | ⟨hl, _⟩
      · simp only [Option.some.injEq] at hl
        subst hl
        have hin : s.length - 1 ∈ het := (hmem _).2 ⟨by omega, (hhet _ _).2 (by omega)⟩
        have := (hleg _ (List.mem_map_of_mem hin)).2
        simp only [Int.ofNat_eq_natCast] at this
        omega
      · simp at hl
  · intro h
    exact C88_same_rank_partial _ s.length [s, t] (by simp [h])

/-- **C88 violated**, `heterogeneous_axis=(-1,)`: as above, the ranks must be equal. -/
theorem C88_last_axis_violated (s t : List (Option ℕ)) (hs : RealShape s) (ht : RealShape t) (h1 : 1 < t.length) :
    HistoryIndependent ⟨some [-1], none⟩ [s, t] ↔ s.length = t.length := by
  have hsl : 0 < s.length := List.length_pos_iff.2 hs.1
  constructor
  · intro h
    by_contra hne
    simp only [HistoryIndependent, Mapper.inferAll, List.map_cons, List.map_nil, List.cons.injEq, and_true, infer_fst] at h
    have hlegal : ∀ n : ℕ, 0 < n → LegalM ⟨some [-1], none⟩ n := fun n hn => Or.inl ⟨[-1], rfl, by simp [Legal]; omega⟩
    have hhet : ∀ n a : ℕ, IsHet ⟨some [-1], none⟩ n a ↔ a + 1 = n := by
      intro n a
      have e : IsHet ⟨some [-1], none⟩ n a ↔ ((a : ℤ) = -1 ∨ (a : ℤ) - n = -1) := by simp [IsHet, Named]
      rw [e]
      omega
    obtain ⟨p, hp⟩ := Option.isSome_iff_exists.1 ((resolve_isSome ⟨some [-1], none⟩ s.length).2 (hlegal _ hsl))
    obtain ⟨het, hom⟩ := p
    have hmem := fun a => (resolve_spec hp a).1
    rw [infer_snd_some hp] at h
    obtain ⟨_, h⟩ := h
    obtain ⟨ws, hws, hw1⟩ := own_last ht ⟨some [-1], none⟩ (hlegal _ (by omega)) (t.length - 1) (by omega) (by omega)
      (fun b hb hi => by have := (hhet _ _).1 hi; omega) ((hhet _ _).2 (by omega))
    rw [hws] at h
    refine hw1 (((C15_weight_shape _ t).2 ws h).2 (t.length - 1) (by omega) |>.2 ?_)
    rintro (⟨l, hl, hn⟩ | ⟨hl, _⟩)
    · simp only [Option.some.injEq] at hl
      subst hl
      rcases hn with hn | hn
      · obtain ⟨a, ha, e⟩ := List.mem_map.1 hn
        have := (hmem a).1 ha
        rw [hhet] at this
        simp only [Int.ofNat_eq_natCast] at e
        omega
      · obtain ⟨a, ha, e⟩ := List.mem_map.1 hn
        simp only [Int.ofNat_eq_natCast] at e
        omega
    · simp at hl
  · intro h
    exact C88_same_rank_partial _ s.length [s, t] (by simp [h])

/-- Concrete case: a mapper shared by inputs `(None, 4)`, `(None, 3, 5)`: the second is quantized per step instead of per feature and step.
-/
example : (⟨none, some [0]⟩ : Mapper).inferAll [[none, some 4], [none, some 3, some 5]] = [some [1, 4], some [1, 3, 1]] ∧
    [[none, some 4], [none, some 3, some 5]].map (⟨none, some [0]⟩ : Mapper).weightShape = [some [1, 4], some [1, 3, 5]] := by
  decide +kernel

end HGQ
