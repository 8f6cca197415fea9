import Verif.Model.Dataset
import Mathlib.Data.List.Flatten
import Mathlib.Tactic.Ring
import Mathlib.Tactic.Linarith

/-! # C28, C29, C57: batching -/
namespace HGQ

namespace Spec
/-- States a `Dataset` of `n` samples can be in: built with any batch size, re-batched, shuffled and shifted in any order
with any outcome of the random draws. -/
inductive DSReach (n : ℕ) (dl sh : Bool) : DS → Prop
  | init (b : ℕ) (hb : 0 < b) (r : ℕ) (hr : r ≤ n % b) (p : List ℕ) (hp : p.Perm (List.range (batches n b dl))) :
      DSReach n dl sh (DS.init n dl sh (some b) r p)
  | initNone (r : ℕ) (p : List ℕ) : DSReach n dl sh (DS.init n dl sh none r p)
  | rebatch (d : DS) (h : DSReach n dl sh d) (b : ℕ) (hb : 0 < b) (r : ℕ) (hr : r ≤ n % b) (p : List ℕ)
      (hp : p.Perm (List.range (batches n b dl))) : DSReach n dl sh (d.batch (some b) r p)
  | epochEnd (d : DS) (h : DSReach n dl sh d) (p : List ℕ) (hp : ∀ m, d.imap = some m → p.Perm m) :
      DSReach n dl sh (d.epochEnd p)
  | epochBegin (d : DS) (h : DSReach n dl sh d) (r : ℕ) (hr : r ≤ d.rem) : DSReach n dl sh (d.epochBegin r)

/-- One epoch: the batches at indices `0 .. len-1`, if none of the accesses fails. -/
def epoch {α β} (d : DS) (x : List α) (y : List β) (len : ℕ) : Option (List (List α × List β)) :=
  (List.range len).mapM (fun i : ℕ => d.getItem x y (i : ℤ))
end Spec
open Spec

/-- Invariant of reachable states. -/
structure DSInv (n : ℕ) (dl sh : Bool) (d : DS) : Prop where
  hn : d.n = n
  hdl : d.dropLast = dl
  hsh : d.shuffle = sh
  hb : ∀ b, d.bs = some b → 0 < b ∧ d.rem = n % b ∧ d.shift ≤ n % b ∧
    (sh = false → d.imap = none) ∧ (sh = true → ∃ m, d.imap = some m ∧ m.Perm (List.range (batches n b dl)))
  hnone : d.bs = none → d.rem = 0 ∧ d.imap = none

theorem reach_inv {n dl sh d} (h : DSReach n dl sh d) : DSInv n dl sh d := by
  induction h with
  | init b hb r hr p hp =>
    refine ⟨rfl, rfl, rfl, ?_, by simp [DS.init, DS.batch]⟩
    intro b' h'
    simp [DS.init, DS.batch] at h'
    subst h'
    refine ⟨hb, rfl, hr, ?_, ?_⟩
    · intro h; simp [DS.init, DS.batch, h]
    · intro h; exact ⟨p, by simp [DS.init, DS.batch, h], hp⟩
  | initNone r p => exact ⟨rfl, rfl, rfl, by simp [DS.init, DS.batch], by simp [DS.init, DS.batch]⟩
  | rebatch d h b hb r hr p hp ih =>
    refine ⟨ih.hn, ih.hdl, ih.hsh, ?_, by simp [DS.batch]⟩
    intro b' h'
    simp [DS.batch] at h'
    subst h'
    refine ⟨hb, by simp [DS.batch, ih.hn], hr, ?_, ?_⟩
    · intro h; simp [DS.batch, ih.hsh, h]
    · intro h; exact ⟨p, by simp [DS.batch, ih.hsh, h], hp⟩
  | epochEnd d h p hp ih =>
    refine ⟨ih.hn, ih.hdl, ih.hsh, ?_, ?_⟩
    · intro b hb
      obtain ⟨h1, h2, h3, h4, h5⟩ := ih.hb b hb
      refine ⟨h1, h2, h3, ?_, ?_⟩
      · intro hs; simp [DS.epochEnd, h4 hs]
      · intro hs
        obtain ⟨m, hm, hp'⟩ := h5 hs
        exact ⟨p, by simp [DS.epochEnd, hm], (hp m hm).trans hp'⟩
    · intro hb
      have := ih.hnone hb
      exact ⟨this.1, by simp [DS.epochEnd, this.2]⟩
  | epochBegin d h r hr ih =>
    unfold DS.epochBegin
    split_ifs with hd
    · refine ⟨ih.hn, ih.hdl, ih.hsh, ?_, ih.hnone⟩
      intro b hb
      obtain ⟨h1, h2, h3, h4⟩ := ih.hb b hb
      exact ⟨h1, h2, by rw [h2] at hr; exact hr, h4⟩
    · exact ih

/-- Slice number `i`. -/
def slice {α} (x : List α) (b s : ℕ) (i : ℕ) : List α := (x.drop (i * b + s)).take b

theorem flatten_slices {α} (x : List α) (b s : ℕ) (len : ℕ) :
    ((List.range len).map (slice x b s)).flatten = (x.drop s).take (len * b) := by
  induction len with
  | zero => simp
  | succ m ih =>
    rw [List.range_succ, List.map_append, List.flatten_append, ih]
    simp only [List.map_cons, List.map_nil, List.flatten_cons, List.flatten_nil, List.append_nil, slice]
    rw [Nat.succ_mul, List.take_add, List.drop_drop, Nat.add_comm s]

theorem bounds_eq {n dl sh d} (h : DSInv n dl sh d) {b : ℕ} (hb : d.bs = some b) (j : ℕ) (hj : j < batches n b dl) :
    ∃ i, d.slot j = some i ∧ i < batches n b dl ∧
      d.bounds (j : ℤ) = some (if dl then (i * b + d.shift, i * b + b + d.shift) else (i * b, min (i * b + b) n)) := by
  obtain ⟨h1, h2, h3, h4, h5⟩ := h.hb b hb
  have hi : ∃ i, d.slot j = some i ∧ i < batches n b dl := by
    cases hs : sh with
    | false => exact ⟨j, by rw [DS.slot, h4 hs], hj⟩
    | true =>
      obtain ⟨m, hm, hp⟩ := h5 hs
      rw [DS.slot, hm]
      have hlen : j < m.length := by rw [hp.length_eq]; simpa using hj
      refine ⟨m[j], by simp [hlen], ?_⟩
      have : m[j] ∈ List.range (batches n b dl) := hp.subset (List.getElem_mem hlen)
      simpa using this
  obtain ⟨i, hi, hlt⟩ := hi
  refine ⟨i, hi, hlt, ?_⟩
  unfold DS.bounds
  simp only [hb, h.hn, h.hdl]
  have e1 : ¬ ((j : ℤ) < 0 ∧ batches n b dl = 0) := by omega
  have e2 : ¬ ((j : ℤ) < 0) := by omega
  have e3 : ¬ ((batches n b dl : ℤ) ≤ (j : ℤ)) := by omega
  simp only [if_neg e1, if_neg e2, if_neg e3, Int.toNat_natCast]
  rw [hi]
  simp only [Option.map_some]
  cases dl with
  | false => simp
  | true =>
    simp only [if_true]
    have : i * b + b ≤ n := by
      simp only [batches, if_true] at hlt
      have h7 := Nat.div_mul_le_self n b
      have h8 : (i + 1) * b ≤ n / b * b := Nat.mul_le_mul_right b hlt
      rw [Nat.add_mul, Nat.one_mul] at h8
      omega
    rw [Nat.min_eq_left this]

theorem pySlice_eq {γ} {n b i : ℕ} (z : List γ) (hz : z.length = n) :
    pySlice z (i * b) (min (i * b + b) n) = slice z b 0 i := by
  unfold pySlice slice
  rw [Nat.add_zero]
  rcases Nat.le_total (i * b + b) n with g | g
  · rw [Nat.min_eq_left g]; congr 1; omega
  · rw [Nat.min_eq_right g, List.take_of_length_le (by simp [hz]), List.take_of_length_le (by simp [hz]; omega)]

/-- Data of the right length: the slice taken by an access. -/
theorem getItem_eq {α β} {n dl sh d} (h : DSInv n dl sh d) {b : ℕ} (hb : d.bs = some b) (x : List α) (y : List β)
    (hx : x.length = n) (hy : y.length = n) (j : ℕ) (hj : j < batches n b dl) :
    ∃ i, d.slot j = some i ∧ i < batches n b dl ∧
      d.getItem x y (j : ℤ) =
        some (slice x b (if dl then d.shift else 0) i, slice y b (if dl then d.shift else 0) i) := by
  obtain ⟨i, hi, hlt, he⟩ := bounds_eq h hb j hj
  refine ⟨i, hi, hlt, ?_⟩
  have hs := @pySlice_eq α n b i x hx
  have hs' := @pySlice_eq β n b i y hy
  unfold DS.getItem
  rw [he]
  cases dl with
  | false => simp only [Bool.false_eq_true, if_false, Option.map_some]; rw [hs, hs']
  | true =>
    simp only [if_true, Option.map_some]
    unfold pySlice slice
    have : i * b + b + d.shift - (i * b + d.shift) = b := by omega
    rw [this]

theorem mapM_some {α β} (l : List α) (f : α → Option β) (g : α → β) (h : ∀ a ∈ l, f a = some (g a)) :
    l.mapM f = some (l.map g) := by
  induction l with
  | nil => rfl
  | cons a r ih =>
    rw [List.mapM_cons, h a (by simp), ih (fun b hb => h b (by simp [hb]))]
    rfl

theorem epoch_eq {α β} {n dl sh d} (h : DSInv n dl sh d) {b : ℕ} (hb : d.bs = some b) (x : List α) (y : List β)
    (hx : x.length = n) (hy : y.length = n) :
    ∃ m : List ℕ, m.Perm (List.range (batches n b dl)) ∧ (sh = false → m = List.range (batches n b dl)) ∧
      epoch d x y (batches n b dl) = some (m.map (fun i =>
        (slice x b (if dl then d.shift else 0) i, slice y b (if dl then d.shift else 0) i))) := by
  obtain ⟨h1, h2, h3, h4, h5⟩ := h.hb b hb
  have hm : ∃ m : List ℕ, m.Perm (List.range (batches n b dl)) ∧ (sh = false → m = List.range (batches n b dl)) ∧
      ∀ j, j < batches n b dl → d.slot j = m[j]? := by
    cases hs : sh with
    | false =>
      refine ⟨_, List.Perm.refl _, fun _ => rfl, ?_⟩
      intro j hj
      rw [DS.slot, h4 hs]
      simp [hj]
    | true =>
      obtain ⟨m, hm, hp⟩ := h5 hs
      exact ⟨m, hp, by simp, fun j hj => by rw [DS.slot, hm]⟩
  obtain ⟨m, hp, hr, hj⟩ := hm
  refine ⟨m, hp, hr, ?_⟩
  have hlen : m.length = batches n b dl := by rw [hp.length_eq]; simp
  unfold epoch
  rw [mapM_some _ _ (fun j => (slice x b (if dl then d.shift else 0) (m[j]?.getD 0),
    slice y b (if dl then d.shift else 0) (m[j]?.getD 0)))]
  · congr 1
    apply List.ext_getElem
    · simp [hlen]
    · intro j hj1 hj2
      simp at hj1
      simp [hlen, hj1]
  · intro j hjm
    have hlt : j < batches n b dl := by simpa using hjm
    obtain ⟨i, hi, -, he⟩ := getItem_eq h hb x y hx hy j hlt
    rw [he, ← hj j hlt, hi]
    rfl

theorem batches_cover (n b : ℕ) (hb : 0 < b) : n ≤ batches n b false * b := by
  unfold batches
  simp only [Bool.false_eq_true, if_false]
  have h := Nat.div_add_mod (n + b - 1) b
  have h2 := Nat.mod_lt (n + b - 1) hb
  rw [Nat.mul_comm] at h
  omega

/-- **C28** Without shuffling: with `drop_last=False` the batches in index order concatenate to exactly the data (inputs and
targets); with `drop_last=True` every batch has exactly `batch_size` samples and they concatenate to a contiguous block of
`⌊n/b⌋·b` samples of the data; negative indices count from the end, any other index raises. -/
theorem C28_partition {α β} {n : ℕ} {dl : Bool} {d : DS} (h : DSReach n dl false d) {b : ℕ} (hb : d.bs = some b)
    (x : List α) (y : List β) (hx : x.length = n) (hy : y.length = n) :
    (dl = false → ∃ e, epoch d x y (batches n b dl) = some e ∧ (e.map Prod.fst).flatten = x ∧ (e.map Prod.snd).flatten = y ∧
      ∀ p ∈ e, p.1.length ≤ b ∧ p.1 ≠ []) ∧
    (dl = true → ∃ e, epoch d x y (batches n b dl) = some e ∧ (∃ s, s ≤ n % b ∧
      (e.map Prod.fst).flatten = (x.drop s).take (n / b * b) ∧ (e.map Prod.snd).flatten = (y.drop s).take (n / b * b)) ∧
      (e.map Prod.fst).flatten.length = n / b * b ∧ ∀ p ∈ e, p.1.length = b ∧ p.2.length = b) ∧
    (∀ j : ℕ, j < batches n b dl → d.getItem x y (-(j : ℤ) - 1) = d.getItem x y ((batches n b dl : ℤ) - 1 - j)) ∧
    (∀ j : ℤ, (batches n b dl : ℤ) ≤ j → d.getItem x y j = none) := by
  have hi := reach_inv h
  obtain ⟨h1, h2, h3, -, -⟩ := hi.hb b hb
  obtain ⟨m, -, hr, he⟩ := epoch_eq hi hb x y hx hy
  have hm := hr rfl
  subst hm
  refine ⟨?_, ?_, ?_, ?_⟩
  · rintro rfl
    refine ⟨_, he, ?_, ?_, ?_⟩
    · simp only [Bool.false_eq_true, if_false, List.map_map]
      have := flatten_slices x b 0 (batches n b false)
      rw [List.drop_zero, List.take_of_length_le (by rw [hx]; exact batches_cover n b h1)] at this
      exact this
    · simp only [Bool.false_eq_true, if_false, List.map_map]
      have := flatten_slices y b 0 (batches n b false)
      rw [List.drop_zero, List.take_of_length_le (by rw [hy]; exact batches_cover n b h1)] at this
      exact this
    · intro p hp
      obtain ⟨i, hi', rfl⟩ := List.mem_map.1 hp
      simp only [List.mem_range, batches, Bool.false_eq_true, if_false] at hi'
      simp only [Bool.false_eq_true, if_false, slice, Nat.add_zero]
      refine ⟨by simp, ?_⟩
      have h7 : i * b < n := by
        have h8 : (i + 1) * b ≤ n + b - 1 := by
          calc (i + 1) * b ≤ (n + b - 1) / b * b := Nat.mul_le_mul_right b hi'
            _ ≤ _ := Nat.div_mul_le_self _ _
        rw [Nat.add_mul, Nat.one_mul] at h8
        omega
      intro hnil
      have := congrArg List.length hnil
      simp [hx] at this
      omega
  · rintro rfl
    have hlen : n / b * b + n % b = n := by rw [Nat.mul_comm]; exact Nat.div_add_mod n b
    have f1 := flatten_slices x b d.shift (n / b)
    have f2 := flatten_slices y b d.shift (n / b)
    refine ⟨_, he, ⟨d.shift, h3, ?_, ?_⟩, ?_, ?_⟩
    · simp only [if_true, List.map_map, batches]; exact f1
    · simp only [if_true, List.map_map, batches]; exact f2
    · simp only [if_true, List.map_map, batches]
      have : ((List.range (n / b)).map (Prod.fst ∘ fun i => (slice x b d.shift i, slice y b d.shift i))).flatten =
        (x.drop d.shift).take (n / b * b) := f1
      rw [this]
      simp [hx]; omega
    · intro p hp
      obtain ⟨i, hi', rfl⟩ := List.mem_map.1 hp
      simp only [List.mem_range, batches, if_true] at hi'
      have h8 : (i + 1) * b ≤ n / b * b := Nat.mul_le_mul_right b hi'
      rw [Nat.add_mul, Nat.one_mul] at h8
      simp only [if_true, slice, List.length_take, List.length_drop, hx, hy]
      constructor <;> omega
  · intro j hj
    unfold DS.getItem DS.bounds
    simp only [hb, hi.hn, hi.hdl]
    have e0 : ¬ (batches n b dl = 0) := by omega
    have e1 : (-(j : ℤ) - 1) % (batches n b dl : ℤ) = (batches n b dl : ℤ) - 1 - j := by
      rw [← Int.add_emod_right, Int.emod_eq_of_lt] <;> omega
    have e2 : ¬ ((batches n b dl : ℤ) - 1 - j < 0) := by omega
    have e3 : (-(j : ℤ) - 1) < 0 := by omega
    simp only [e0, and_false, if_false, if_pos e3, if_neg e2, e1]
  · intro j hj
    unfold DS.getItem DS.bounds
    simp only [hb, hi.hn, hi.hdl]
    have e2 : ¬ (j < 0) := by omega
    simp only [e2, false_and, if_false, if_pos hj, Option.map_none]

/-- **C29** With shuffling, in every reachable state (any number of epochs, any random draws, any re-batching): an epoch
raises nothing; the pairs (input, target) it yields are a permutation of the aligned pairs of the data — of all of them
with `drop_last=False`, of a contiguous block of `⌊n/b⌋·b` with `drop_last=True`. -/
theorem C29_shuffled_epoch {α β} {n : ℕ} {dl sh : Bool} {d : DS} (h : DSReach n dl sh d) {b : ℕ} (hb : d.bs = some b)
    (x : List α) (y : List β) (hx : x.length = n) (hy : y.length = n) :
    ∃ e, epoch d x y (batches n b dl) = some e ∧ (∀ p ∈ e, p.1.length = p.2.length) ∧
      ∃ s, s ≤ n % b ∧ (e.flatMap (fun p => p.1.zip p.2)).Perm
        (if dl then ((x.zip y).drop s).take (n / b * b) else x.zip y) := by
  have hi := reach_inv h
  obtain ⟨h1, h2, h3, -, -⟩ := hi.hb b hb
  obtain ⟨m, hp, -, he⟩ := epoch_eq hi hb x y hx hy
  refine ⟨_, he, ?_, d.shift, h3, ?_⟩
  · intro p hp'
    obtain ⟨i, -, rfl⟩ := List.mem_map.1 hp'
    simp [slice, hx, hy]
  · have hz : ∀ s i, (slice x b s i).zip (slice y b s i) = slice (x.zip y) b s i := by
      intro s i
      unfold slice
      simp only [List.zip, ← List.take_zipWith, ← List.drop_zipWith]
    rw [List.flatMap_map]
    simp only [hz]
    rw [List.flatMap_def]
    refine ((hp.map _).flatten).trans ?_
    rw [flatten_slices]
    cases dl with
    | true => simp [batches]
    | false =>
      simp only [Bool.false_eq_true, if_false, List.drop_zero]
      rw [List.take_of_length_le]
      rw [List.length_zip, hx, hy, Nat.min_self]
      exact batches_cover n b h1

/-- Instance: 5 samples, batch size 2, shuffled and shifted. -/
example : DSReach 5 true true ((DS.init 5 true true (some 2) 0 [0, 1]).epochEnd [1, 0] |>.epochBegin 1) ∧
    epoch ((DS.init 5 true true (some 2) 0 [0, 1]).epochEnd [1, 0] |>.epochBegin 1) [0, 1, 2, 3, 4] [10, 11, 12, 13, 14] 2 =
      some [([3, 4], [13, 14]), ([1, 2], [11, 12])] := by
  refine ⟨.epochBegin _ (.epochEnd _ (.init 2 (by omega) 0 (by omega) _ (by decide)) _ ?_) _ (by decide), by decide⟩
  intro m hm
  simp [DS.init, DS.batch] at hm
  subst hm
  decide

/-- **C57** is false: one input array passed as a one-element list gives a dataset of one sample (unless it has exactly one). -/
theorem C57_one_element_list_violated (n : ℕ) (hn : n ≠ 1) :
    (DS.init (initDataLen true n) false false (some 1) 0 []).n ≠ (DS.init (initDataLen false n) false false (some 1) 0 []).n := by
  simpa [DS.init, DS.batch, initDataLen] using fun h : 1 = n => hn h.symm

end HGQ
