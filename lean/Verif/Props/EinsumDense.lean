import Verif.Model.EinsumDense
import Mathlib.Algebra.BigOperators.Intervals
import Mathlib.Data.Fintype.BigOperators
import Mathlib.Tactic

/-!
# C95: the number of parallel positions of an einsum layer
-/

namespace HGQ

open Finset

namespace Spec

/-- Where the ellipsis of an equation is.  These are the only forms Keras' `EinsumDense` accepts. -/
inductive Ell | none | left | right
  deriving DecidableEq

/-- An einsum equation `inp,ker->out` (with `...` in front of, or behind, `inp` and `out`). -/
structure Eqn where
  ell : Ell
  inp : List Char
  ker : List Char
  out : List Char

/-- One operand with its ellipsis, as written. -/
def Eqn.operand (e : Eqn) (ls : List Char) : List Char :=
  match e.ell with
  | .none => ls
  | .left => ['.', '.', '.'] ++ ls
  | .right => ls ++ ['.', '.', '.']

/-- The equation as written. -/
def Eqn.text (e : Eqn) : List Char := e.operand e.inp ++ [','] ++ e.ker ++ ['-', '>'] ++ e.operand e.out

/-- Labels are letters; the rank fits the equation. -/
def Eqn.ok (e : Eqn) (rank : ℕ) : Prop :=
  (∀ c, c ∈ e.inp ∨ c ∈ e.ker ∨ c ∈ e.out → c.isAlpha = true) ∧
    (match e.ell with | .none => e.inp.length = rank | _ => e.inp.length ≤ rank)

/-- The label of input axis `i`; `none`: the axis is covered by the ellipsis. -/
def Eqn.label (e : Eqn) (rank i : ℕ) : Option Char :=
  match e.ell with
  | .none => e.inp[i]?
  | .left => if i < rank - e.inp.length then Option.none else e.inp[i - (rank - e.inp.length)]?
  | .right => e.inp[i]?

/-- Axis `i` of the input is *free*: it survives in the output and the kernel does not touch it, so the same kernel is
applied at every position of the axis. -/
def Eqn.free (e : Eqn) (rank i : ℕ) : Prop :=
  match e.label rank i with
  | Option.none => True
  | some c => c ∉ e.ker ∧ c ∈ e.out

instance (e : Eqn) (rank i : ℕ) : Decidable (e.free rank i) := by
  unfold Eqn.free; cases e.label rank i <;> simp only [] <;> infer_instance

/-- The loop that runs over input axis `i`: named by its label, or by its position when it is covered by the ellipsis. -/
def Eqn.name (e : Eqn) (rank i : ℕ) : Char ⊕ ℕ :=
  match e.label rank i with
  | some c => .inl c
  | Option.none => .inr i

/-- The loops over the kernel. -/
def Eqn.kerLoops (e : Eqn) : Finset (Char ⊕ ℕ) := e.ker.toFinset.image Sum.inl

/-- All loops of the contraction of one sample: those over the input axes but the batch axis, and those over the kernel. -/
def Eqn.loops (e : Eqn) (rank : ℕ) : Finset (Char ⊕ ℕ) := (Ico 1 rank).image (e.name rank) ∪ e.kerLoops

/-- The loops over the output of one sample. -/
def Eqn.outLoops (e : Eqn) (rank : ℕ) : Finset (Char ⊕ ℕ) :=
  (e.loops rank).filter fun l => l.elim (fun c => decide (c ∈ e.out)) (fun _ => true) = true

/-- Indices running over a set of loops of sizes `sz`: for `loops` these are the executed products, for `kerLoops` the kernel
entries. -/
abbrev Idx (sz : Char ⊕ ℕ → ℕ) (s : Finset (Char ⊕ ℕ)) : Type := ∀ l : s, Fin (sz l)

/-- The same indices, seen by fewer loops. -/
def Idx.restrict {sz : Char ⊕ ℕ → ℕ} {s t : Finset (Char ⊕ ℕ)} (h : t ⊆ s) (a : Idx sz s) : Idx sz t :=
  fun l => a ⟨l.1, h l.2⟩

end Spec

open Spec

/-! ## The text functions on rendered equations -/

theorem pySplit1_comma (a b : List Char) (h : ',' ∉ a) : pySplit1 [','] (a ++ [','] ++ b) = some (a, b) := by
  induction a with
  | nil => simp [pySplit1]
  | cons c cs ih =>
    simp only [List.mem_cons, not_or] at h
    have := ih h.2
    simp only [List.append_assoc, List.cons_append, List.nil_append] at this ⊢
    simp [pySplit1, this, List.isPrefixOf, h.1]

theorem pySplit1_arrow (a b : List Char) (h : '-' ∉ a) : pySplit1 ['-', '>'] (a ++ ['-', '>'] ++ b) = some (a, b) := by
  induction a with
  | nil => simp [pySplit1]
  | cons c cs ih =>
    simp only [List.mem_cons, not_or] at h
    have := ih h.2
    simp only [List.append_assoc, List.cons_append, List.nil_append] at this ⊢
    simp [pySplit1, this, List.isPrefixOf, h.1]

theorem replaceDots_letters (new a b : List Char) (h : '.' ∉ a) : replaceDots new (a ++ b) = a ++ replaceDots new b := by
  induction a with
  | nil => rfl
  | cons c cs ih =>
    simp only [List.mem_cons, not_or] at h
    rw [List.cons_append, List.cons_append, ← ih h.2]
    rw [replaceDots]
    intro cs' h1 _
    exact absurd h1.symm h.1

theorem replaceDots_nil (new : List Char) : replaceDots new [] = [] := by simp [replaceDots]

theorem replaceDots_dots (new b : List Char) : replaceDots new ('.' :: '.' :: '.' :: b) = new ++ replaceDots new b := by
  rw [replaceDots]

/-- The fold of `_einsum_free0_size` is a product over positions. -/
theorem free0_fold (P : Char → Prop) [DecidablePred P] (d : ℕ → ℕ) : ∀ (L : List Char) (S : List (Option ℕ)) (k acc : ℕ),
    L.length = S.length → (∀ (i : ℕ) (c : Char), L[i]? = some c → P c → S[i]? = some (some (d (k + i)))) →
    (L.zip S).foldl (fun acc p => acc.bind fun n => if P p.1 then p.2.map (n * ·) else some n) (some acc)
      = some (acc * ∏ i ∈ range L.length, (L[i]?).elim 1 fun c => if P c then d (k + i) else 1) := by
  intro L
  induction L with
  | nil => intro S k acc _ _; simp
  | cons c cs ih =>
    intro S k acc hl h
    cases S with
    | nil => simp at hl
    | cons s ss =>
      simp only [List.length_cons, Nat.add_right_cancel_iff] at hl
      have h' : ∀ (i : ℕ) (c : Char), cs[i]? = some c → P c → ss[i]? = some (some (d (k + 1 + i))) := by
        intro i c' hc hp
        have := h (i + 1) c' (by simpa using hc) hp
        rw [show k + 1 + i = k + (i + 1) by omega]; simpa using this
      rw [List.zip_cons_cons, List.foldl_cons, List.length_cons, prod_range_succ']
      have e : ∀ i, ((c :: cs)[i + 1]?).elim 1 (fun c' => if P c' then d (k + (i + 1)) else 1)
          = (cs[i]?).elim 1 (fun c' => if P c' then d (k + 1 + i) else 1) := by
        intro i; rw [show k + 1 + i = k + (i + 1) by omega]; simp
      simp only [e]
      by_cases hp : P c
      · have hs := h 0 c (by simp) hp
        simp only [List.getElem?_cons_zero, Option.some.injEq] at hs
        subst hs
        simp only [Option.bind_some, if_pos hp, Option.map_some]
        rw [ih ss (k + 1) _ hl h']
        simp only [List.getElem?_cons_zero, Option.elim_some, if_pos hp]; congr 1; ring
      · simp only [Option.bind_some, if_neg hp]
        rw [ih ss (k + 1) _ hl h']
        simp only [List.getElem?_cons_zero, Option.elim_some, if_neg hp]; congr 1; ring

/-- The fold fails if a counted axis has no known size. -/
theorem free0_fold_none (P : Char → Prop) [DecidablePred P] (L : List Char) (S : List (Option ℕ)) (i : ℕ) (c : Char) :
    L[i]? = some c → P c → S[i]? = some none → ∀ acc,
    (L.zip S).foldl (fun acc p => acc.bind fun n => if P p.1 then p.2.map (n * ·) else some n) acc = none := by
  have hn : ∀ l : List (Char × Option ℕ),
      l.foldl (fun acc p => acc.bind fun n => if P p.1 then p.2.map (n * ·) else some n) none = none := by
    intro l; induction l with
    | nil => rfl
    | cons a l ih => simpa using ih
  induction L generalizing S i with
  | nil => intro h; simp at h
  | cons a as ih =>
    intro h1 h2 h3 acc
    cases S with
    | nil => simp at h3
    | cons s ss =>
      cases i with
      | zero =>
        simp only [List.getElem?_cons_zero, Option.some.injEq] at h1 h3
        subst h1; subst h3
        rw [List.zip_cons_cons, List.foldl_cons]
        cases acc <;> simp [h2, hn]
      | succ i =>
        rw [List.zip_cons_cons, List.foldl_cons]
        exact ih ss i (by simpa using h1) h2 (by simpa using h3) _

/-- The axis names after the ellipsis has been expanded: a label, or `'?'`. -/
theorem expanded (e : Eqn) (rank : ℕ) (ok : e.ok rank) :
    let L := replaceDots (List.replicate ((rank : ℤ) - (e.operand e.inp).length + 3).toNat '?') (e.operand e.inp)
    L.length = rank ∧ ∀ i, i < rank → L[i]? = some ((e.label rank i).getD '?') := by
  obtain ⟨ha, hr⟩ := ok
  have hd : '.' ∉ e.inp := fun h => absurd (ha '.' (Or.inl h)) (by decide)
  have e0 : replaceDots (List.replicate ((rank : ℤ) - (e.operand e.inp).length + 3).toNat '?') e.inp = e.inp := by
    have := replaceDots_letters (List.replicate ((rank : ℤ) - (e.operand e.inp).length + 3).toNat '?') e.inp [] hd
    simpa [replaceDots_nil] using this
  cases hell : e.ell with
  | none =>
    rw [hell] at hr
    have ho : e.operand e.inp = e.inp := by simp [Eqn.operand, hell]
    have e0' := e0
    simp only [ho] at e0' ⊢
    rw [e0']
    refine ⟨hr, fun i hi => ?_⟩
    simp only [Eqn.label, hell]
    rw [List.getElem?_eq_getElem (by omega)]; rfl
  | left =>
    rw [hell] at hr
    have ho : e.operand e.inp = '.' :: '.' :: '.' :: e.inp := by simp [Eqn.operand, hell]
    have hl : ((rank : ℤ) - (e.operand e.inp).length + 3).toNat = rank - e.inp.length := by
      rw [ho]; simp only [List.length_cons]; push_cast; omega
    simp only [hl, ho] at e0 ⊢
    have hl' : ((rank : ℤ) - (('.' :: '.' :: '.' :: e.inp).length : ℕ) + 3).toNat = rank - e.inp.length := by rw [← ho]; exact hl
    rw [hl'] at e0 ⊢
    rw [replaceDots_dots, e0]
    refine ⟨by simp; omega, fun i hi => ?_⟩
    simp only [Eqn.label, hell]
    by_cases h : i < rank - e.inp.length
    · rw [if_pos h, List.getElem?_append_left (by simpa using h), List.getElem?_replicate, if_pos h]; rfl
    · rw [if_neg h, List.getElem?_append_right (by simpa using h), List.length_replicate,
        List.getElem?_eq_getElem (by omega)]; rfl
  | right =>
    rw [hell] at hr
    have ho : e.operand e.inp = e.inp ++ ['.', '.', '.'] := by simp [Eqn.operand, hell]
    have hl' : ((rank : ℤ) - ((e.inp ++ ['.', '.', '.']).length : ℕ) + 3).toNat = rank - e.inp.length := by
      simp only [List.length_append, List.length_cons, List.length_nil]; push_cast; omega
    simp only [ho]
    rw [hl', replaceDots_letters _ _ _ hd, replaceDots_dots, replaceDots_nil, List.append_nil]
    refine ⟨by simp; omega, fun i hi => ?_⟩
    simp only [Eqn.label, hell]
    by_cases h : i < e.inp.length
    · rw [List.getElem?_append_left h, List.getElem?_eq_getElem h]; rfl
    · rw [List.getElem?_append_right (by omega), List.getElem?_replicate, if_pos (by omega),
        List.getElem?_eq_none (by omega)]; rfl

/-- What the loop of `_einsum_free0_size` tests, in terms of the equation. -/
theorem free_iff (e : Eqn) (rank i : ℕ) (ok : e.ok rank) :
    (((e.label rank i).getD '?') ∉ e.ker ∧ (((e.label rank i).getD '?') ∈ e.operand e.out ∨ ((e.label rank i).getD '?') = '?'))
      ↔ e.free rank i := by
  have hq : '?' ∉ e.ker := fun h => absurd (ok.1 '?' (Or.inr (Or.inl h))) (by decide)
  unfold Eqn.free
  cases hlab : e.label rank i with
  | none => simp [hq]
  | some c =>
    have hc : c ∈ e.inp := by
      unfold Eqn.label at hlab
      cases hell : e.ell <;> rw [hell] at hlab <;> simp only [] at hlab
      · exact List.mem_of_getElem? hlab
      · split at hlab
        · simp at hlab
        · exact List.mem_of_getElem? hlab
      · exact List.mem_of_getElem? hlab
    have hal := ok.1 c (Or.inl hc)
    have h1 : c ≠ '?' := by rintro rfl; exact absurd hal (by decide)
    have h2 : c ≠ '.' := by rintro rfl; exact absurd hal (by decide)
    have : c ∈ e.operand e.out ↔ c ∈ e.out := by
      unfold Eqn.operand; cases e.ell <;> simp [h2]
    simp [h1, this]

theorem einsumFree0_text (e : Eqn) (shape : List (Option ℕ)) (ok : e.ok shape.length) :
    einsumFree0 e.text shape =
      (((replaceDots (List.replicate ((shape.length : ℤ) - (e.operand e.inp).length + 3).toNat '?') (e.operand e.inp)).drop 1).zip
        (shape.drop 1)).foldl (fun acc p => acc.bind fun n =>
          if p.1 ∉ e.ker ∧ (p.1 ∈ e.operand e.out ∨ p.1 = '?') then p.2.map (n * ·) else some n) (some 1) := by
  have h1 : ',' ∉ e.operand e.inp := by
    have : ',' ∉ e.inp := fun h => absurd (ok.1 ',' (Or.inl h)) (by decide)
    unfold Eqn.operand; cases e.ell <;> simp [this]
  have h2 : '-' ∉ e.ker := fun h => absurd (ok.1 '-' (Or.inr (Or.inl h))) (by decide)
  have ht : e.text = e.operand e.inp ++ [','] ++ (e.ker ++ ['-', '>'] ++ e.operand e.out) := by
    simp [Eqn.text]
  unfold einsumFree0
  rw [ht, pySplit1_comma _ _ h1]
  simp only [Option.bind_some]
  rw [pySplit1_arrow _ _ h2]
  simp only [Option.bind_some]

/-- **C95.** For every equation Keras' `EinsumDense` accepts and every input shape of matching rank, the number of parallel
positions is the product of the sizes of the free axes other than the batch axis. -/
theorem C95_free_size (e : Eqn) (shape : List (Option ℕ)) (d : ℕ → ℕ) (ok : e.ok shape.length)
    (known : ∀ i, 1 ≤ i → i < shape.length → e.free shape.length i → shape[i]? = some (some (d i))) :
    einsumFree0 e.text shape = some (∏ i ∈ (Ico 1 shape.length).filter (e.free shape.length), d i) := by
  rw [einsumFree0_text e shape ok]
  obtain ⟨hL, hi⟩ := expanded e shape.length ok
  generalize replaceDots (List.replicate ((shape.length : ℤ) - (e.operand e.inp).length + 3).toNat '?') (e.operand e.inp) = L at hL hi
  have key := free0_fold (fun c => c ∉ e.ker ∧ (c ∈ e.operand e.out ∨ c = '?')) d (L.drop 1) (shape.drop 1) 1 1
    (by simp [hL]) (by
      intro i c hc hp
      rw [List.getElem?_drop] at hc ⊢
      have hlt : 1 + i < shape.length := by
        rw [← hL]; by_contra hge; rw [List.getElem?_eq_none (by omega)] at hc; simp at hc
      rw [hi _ hlt] at hc; simp only [Option.some.injEq] at hc; subst hc
      exact known _ (by omega) hlt ((free_iff e _ _ ok).1 hp))
  rw [key, one_mul, prod_filter, prod_Ico_eq_prod_range, List.length_drop, hL]
  congr 1
  refine prod_congr rfl fun i hr => ?_
  have hlt : 1 + i < shape.length := by have := mem_range.1 hr; omega
  rw [List.getElem?_drop, hi _ hlt, Option.elim_some]
  simp only [free_iff e _ _ ok]

/-- **C95.** Building the layer raises when a free axis other than the batch axis has no static size. -/
theorem C95_unknown_size (e : Eqn) (shape : List (Option ℕ)) (ok : e.ok shape.length) (i : ℕ) (h1 : 1 ≤ i)
    (hf : e.free shape.length i) (hn : shape[i]? = some none) : einsumFree0 e.text shape = none := by
  rw [einsumFree0_text e shape ok]
  obtain ⟨hL, hi⟩ := expanded e shape.length ok
  generalize replaceDots (List.replicate ((shape.length : ℤ) - (e.operand e.inp).length + 3).toNat '?') (e.operand e.inp) = L at hL hi
  have hlt : i < shape.length := by
    by_contra hge; rw [List.getElem?_eq_none (by omega)] at hn; simp at hn
  refine free0_fold_none (fun c => c ∉ e.ker ∧ (c ∈ e.operand e.out ∨ c = '?')) _ _ (i - 1) ((e.label shape.length i).getD '?') ?_ ?_ ?_ _
  · rw [List.getElem?_drop, show 1 + (i - 1) = i by omega]; exact hi i hlt
  · exact (free_iff e _ _ ok).2 hf
  · rw [List.getElem?_drop, show 1 + (i - 1) = i by omega]; exact hn

/-! ## Consequences for the EBOPs -/

theorem kerLoops_subset (e : Eqn) (rank : ℕ) : e.kerLoops ⊆ e.loops rank := subset_union_right

/-- Indices over `s` are indices over a part `t` together with indices over the rest. -/
def idxSplit (sz : Char ⊕ ℕ → ℕ) {s t : Finset (Char ⊕ ℕ)} (h : t ⊆ s) : Idx sz s ≃ Idx sz t × Idx sz (s \ t) where
  toFun a := (Idx.restrict h a, Idx.restrict sdiff_subset a)
  invFun p l := if ht : l.1 ∈ t then p.1 ⟨l.1, ht⟩ else p.2 ⟨l.1, mem_sdiff.2 ⟨l.2, ht⟩⟩
  left_inv a := by funext l; by_cases ht : l.1 ∈ t <;> simp [ht, Idx.restrict]
  right_inv p := by
    refine Prod.ext (funext fun l => ?_) (funext fun l => ?_)
    · simp [Idx.restrict, l.2]
    · have := (mem_sdiff.1 l.2).2
      simp [Idx.restrict, this]

theorem sum_restrict (sz : Char ⊕ ℕ → ℕ) {s t : Finset (Char ⊕ ℕ)} (h : t ⊆ s) (f : Idx sz t → ℚ) :
    ∑ a : Idx sz s, f (Idx.restrict h a) = (∏ l ∈ s \ t, (sz l : ℚ)) * ∑ k, f k := by
  rw [Fintype.sum_equiv (idxSplit sz h) (fun a => f (Idx.restrict h a)) (fun p => f p.1) (fun a => rfl), Fintype.sum_prod_type]
  simp only [sum_const, card_univ, nsmul_eq_mul, ← mul_sum]
  congr 1
  rw [Fintype.card_pi]; simp only [Fintype.card_fin]
  rw [prod_coe_sort (s \ t) (fun l => sz l)]
  push_cast; rfl

theorem label_inj (e : Eqn) (rank : ℕ) (nd : e.inp.Nodup) {i j : ℕ} {c : Char}
    (hi : e.label rank i = some c) (hj : e.label rank j = some c) : i = j := by
  have get : ∀ a b : ℕ, e.inp[a]? = some c → e.inp[b]? = some c → a = b := by
    intro a b ha hb
    obtain ⟨ha', _⟩ := List.getElem?_eq_some_iff.1 ha
    exact (List.getElem?_inj ha' nd).1 (ha.trans hb.symm)
  unfold Eqn.label at hi hj
  cases hell : e.ell <;> rw [hell] at hi hj <;> simp only [] at hi hj
  · exact get _ _ hi hj
  · split at hi
    · simp at hi
    · split at hj
      · simp at hj
      · have := get _ _ hi hj; omega
  · exact get _ _ hi hj

theorem name_inj (e : Eqn) (rank : ℕ) (nd : e.inp.Nodup) : Function.Injective (e.name rank) := by
  intro i j h
  unfold Eqn.name at h
  cases hi : e.label rank i with
  | none =>
    cases hj : e.label rank j with
    | none => rw [hi, hj] at h; simpa using h
    | some c => rw [hi, hj] at h; simp at h
  | some c =>
    cases hj : e.label rank j with
    | none => rw [hi, hj] at h; simp at h
    | some c' =>
      rw [hi, hj] at h; simp only [Sum.inl.injEq] at h; subst h
      exact label_inj e rank nd hi hj

/-- The parallel positions are the loops that are not loops over the kernel. -/
theorem free_prod (e : Eqn) (rank : ℕ) (nd : e.inp.Nodup) (sz : Char ⊕ ℕ → ℕ)
    (used : ∀ i c, 1 ≤ i → i < rank → e.label rank i = some c → c ∈ e.ker ∨ c ∈ e.out) :
    ∏ i ∈ (Ico 1 rank).filter (e.free rank), sz (e.name rank i) = ∏ l ∈ e.loops rank \ e.kerLoops, sz l := by
  have : e.loops rank \ e.kerLoops = ((Ico 1 rank).filter (e.free rank)).image (e.name rank) := by
    ext l
    simp only [Eqn.loops, mem_sdiff, mem_union, mem_image, mem_filter, Finset.mem_Ico]
    constructor
    · rintro ⟨h | h, hn⟩
      · obtain ⟨i, hi, rfl⟩ := h
        refine ⟨i, ⟨hi, ?_⟩, rfl⟩
        unfold Eqn.free Eqn.name at *
        cases hl : e.label rank i with
        | none => trivial
        | some c =>
          rw [hl] at hn
          have hk : c ∉ e.ker := by
            intro hc; apply hn; simp [Eqn.kerLoops, hc]
          exact ⟨hk, (used i c hi.1 hi.2 hl).resolve_left hk⟩
      · exact absurd h hn
    · rintro ⟨i, ⟨hi, hf⟩, rfl⟩
      refine ⟨Or.inl ⟨i, hi, rfl⟩, ?_⟩
      unfold Eqn.free Eqn.name at *
      cases hl : e.label rank i with
      | none => simp [Eqn.kerLoops]
      | some c =>
        rw [hl] at hf
        simp [Eqn.kerLoops, hf.1]
  rw [this, prod_image fun i _ j _ h => name_inj e rank nd h]

/-- **C95.** What `parallelization_factor` means for an einsum layer: when the input widths are the same at all parallel
positions, the EBOPs with factor `pf` are `pf` times the cost of applying the kernel once, and with the default factor they are the
cost of all executed products. -/
theorem C95_parallel_factor (e : Eqn) (rank : ℕ) (ok : e.ok rank) (nd : e.inp.Nodup) (sz : Char ⊕ ℕ → ℕ) (pos : ∀ l, 0 < sz l)
    (used : ∀ i c, 1 ≤ i → i < rank → e.label rank i = some c → c ∈ e.ker ∨ c ∈ e.out)
    (shape : List (Option ℕ)) (hr : shape.length = rank)
    (hs : ∀ i, 1 ≤ i → i < rank → shape[i]? = some (some (sz (e.name rank i))))
    (bi bk : Idx sz e.kerLoops → ℚ) (size : ℕ) :
    let view := fun a : Idx sz (e.loops rank) => Idx.restrict (kerLoops_subset e rank) a
    (∀ pf : ℚ, 0 ≤ pf →
      qEinsumDenseEbops (m := 0) e.text shape (fun a => bi (view a)) (fun a => bk (view a)) none size pf
        = some (pf * ∑ k, bi k * bk k)) ∧
    (∀ pf : ℚ, pf < 0 →
      qEinsumDenseEbops (m := 0) e.text shape (fun a => bi (view a)) (fun a => bk (view a)) none size pf
        = some (∑ a, bi (view a) * bk (view a))) := by
  subst hr
  intro view
  have hn := C95_free_size e shape (fun i => sz (e.name shape.length i)) ok (fun i h1 h2 _ => hs i h1 h2)
  rw [free_prod e _ nd sz used] at hn
  have hp : ((∏ l ∈ e.loops shape.length \ e.kerLoops, sz l : ℕ) : ℚ) ≠ 0 := by
    rw [Nat.cast_ne_zero]; exact (prod_pos fun l _ => pos l).ne'
  refine ⟨fun pf h => ?_, fun pf h => ?_⟩
  · unfold qEinsumDenseEbops
    rw [hn, Option.map_some]
    simp only [einsumEbops, resolvePf, not_lt.2 h, if_false]
    have := sum_restrict sz (kerLoops_subset e shape.length) (fun k => bi k * bk k)
    rw [this, ← Nat.cast_prod]
    congr 1; field_simp
  · unfold qEinsumDenseEbops
    rw [hn, Option.map_some]
    simp only [einsumEbops, resolvePf, h, if_true]
    congr 1; field_simp

/-- **C95.** Bias: for every subset `bl` of the output loops (`bias_axes`), the bias term is the sum over the output elements of
the width of the bias entry added to it. -/
theorem C95_bias (e : Eqn) (rank : ℕ) (ok : e.ok rank) (nd : e.inp.Nodup) (sz : Char ⊕ ℕ → ℕ) (pos : ∀ l, 0 < sz l)
    (used : ∀ i c, 1 ≤ i → i < rank → e.label rank i = some c → c ∈ e.ker ∨ c ∈ e.out)
    (shape : List (Option ℕ)) (hr : shape.length = rank)
    (hs : ∀ i, 1 ≤ i → i < rank → shape[i]? = some (some (sz (e.name rank i))))
    (bi bk : Idx sz (e.loops rank) → ℚ) (bl : Finset (Char ⊕ ℕ)) (hb : bl ⊆ e.outLoops rank) {m : ℕ} (ix : Idx sz bl ≃ Fin m)
    (bb : Fin m → ℚ) (pf : ℚ) (h : pf < 0) :
    qEinsumDenseEbops e.text shape bi bk (some bb) (Fintype.card (Idx sz (e.outLoops rank))) pf
      = some ((∑ a, bi a * bk a) + ∑ o : Idx sz (e.outLoops rank), bb (ix (Idx.restrict hb o))) := by
  subst hr
  have hn := C95_free_size e shape (fun i => sz (e.name shape.length i)) ok (fun i h1 h2 _ => hs i h1 h2)
  rw [free_prod e _ nd sz used] at hn
  have hp : ((∏ l ∈ e.loops shape.length \ e.kerLoops, sz l : ℕ) : ℚ) ≠ 0 := by
    rw [Nat.cast_ne_zero]; exact (prod_pos fun l _ => pos l).ne'
  have hm : m = ∏ l ∈ bl, sz l := by
    have := Fintype.card_congr ix
    rw [Fintype.card_pi] at this; simp only [Fintype.card_fin] at this
    rw [← this, prod_coe_sort bl (fun l => sz l)]
  have hm0 : (m : ℚ) ≠ 0 := by rw [hm, Nat.cast_ne_zero]; exact (prod_pos fun l _ => pos l).ne'
  have hc : Fintype.card (Idx sz (e.outLoops shape.length)) = (∏ l ∈ e.outLoops shape.length \ bl, sz l) * m := by
    rw [Fintype.card_pi]; simp only [Fintype.card_fin]
    rw [prod_coe_sort (e.outLoops shape.length) (fun l => sz l), hm, prod_sdiff hb]
  have hsum := sum_restrict sz hb (fun k => bb (ix k))
  rw [Equiv.sum_comp ix bb] at hsum
  unfold qEinsumDenseEbops
  rw [hn, Option.map_some]
  simp only [einsumEbops, resolvePf, h, if_true, meanV]
  rw [hsum, hc, ← Nat.cast_prod]
  congr 1
  rw [mul_div_assoc, div_self hp, mul_one]
  push_cast
  field_simp

/-! ## Concrete cases -/

/-- `'...x,xy->...y'` on `(None, 5, 7, 3)`: 35 positions share the kernel. -/
example : einsumFree0 "...x,xy->...y".toList [none, some 5, some 7, some 3] = some 35 := by decide +kernel
/-- The same equation as a `Spec.Eqn`; it meets the hypotheses of the theorems. -/
def exEqn : Eqn := ⟨.left, ['x'], ['x', 'y'], ['y']⟩
example : exEqn.text = "...x,xy->...y".toList := by decide +kernel
example : exEqn.ok 4 := ⟨by intro c; simp only [exEqn, List.mem_cons, List.not_mem_nil, or_false]; rintro (rfl | (rfl | rfl) | rfl) <;> decide, by simp [exEqn]⟩
example : (Ico 1 4).filter (exEqn.free 4) = {1, 2} := by decide
/-- A multi-axis contraction: `'abcd,cde->abe'`; the batch axis `a` does not count. -/
example : einsumFree0 "abcd,cde->abe".toList [none, some 5, some 7, some 3] = some 5 := by decide +kernel
/-- Axis behind the labels. -/
example : einsumFree0 "abc...,cd->abd...".toList [none, some 5, some 7, some 3, some 2] = some 30 := by decide +kernel
/-- A sequence of unknown length cannot be built, whatever `parallelization_factor` is. -/
example : einsumFree0 "abc,cd->abd".toList [none, none, some 7] = none := by decide +kernel

/-- **Violated** for a repeated input label (a diagonal): the layer for `'bxx,cd->bxcd'` on `(None, 3, 3)` executes its kernel at
3 positions but counts 9. -/
theorem C95_repeated_label_violated :
    einsumFree0 "bxx,cd->bxcd".toList [none, some 3, some 3] = some 9 ∧
      ((⟨.none, ['b', 'x', 'x'], ['c', 'd'], ['b', 'x', 'c', 'd']⟩ : Eqn).loops 3 \
        (⟨.none, ['b', 'x', 'x'], ['c', 'd'], ['b', 'x', 'c', 'd']⟩ : Eqn).kerLoops) = {Sum.inl 'x'} := by
  constructor <;> decide +kernel

end HGQ
