import Verif.Model.Patches
import Verif.Props.Replay
import Verif.Props.EndToEnd
import Verif.Props.EinsumTAlkaid
import Verif.Props.MhaArr
import Mathlib.Tactic

/-!
# C116: traced convolutions with concrete geometry
-/
namespace HGQ
open Finset Spec

/-! ## One axis -/

theorem ceil_div_nat (n s : ℕ) (hs : 0 < s) : ((n + s - 1) / s : ℕ) = ⌈(n : ℚ) / s⌉ := by
  symm
  rw [Int.ceil_eq_iff]
  have hs' : (0 : ℚ) < s := by exact_mod_cast hs
  have h1 := Nat.div_add_mod (n + s - 1) s
  have h2 := Nat.mod_lt (n + s - 1) hs
  set q := (n + s - 1) / s
  have h3 : s * q < n + s := by omega
  have h4 : n ≤ s * q := by omega
  have h3' : (s : ℚ) * q < n + s := by exact_mod_cast h3
  have h4' : (n : ℚ) ≤ s * q := by exact_mod_cast h4
  push_cast
  constructor
  · rw [lt_div_iff₀ hs']; nlinarith
  · rw [div_le_iff₀ hs']; nlinarith

/-- The numbers of output positions and the padding of the model are those of the specification. -/
theorem out_eq (same : Bool) (w : Win) (n : ℕ) (hs : 0 < w.s) (hk : 0 < w.k) (hf : same = true ∨ w.ext ≤ n) :
    (w.out same n : ℤ) = outPositions same n w := by
  unfold Win.out outPositions
  cases same with
  | true => simpa using ceil_div_nat n w.s hs
  | false =>
    have hf : w.ext ≤ n := by simpa using hf
    simp only [Bool.false_eq_true, if_false]
    have e : (((w.k : ℤ) - 1) * w.d + 1 : ℤ) = (w.ext : ℤ) := by
      unfold Win.ext; push_cast [Nat.cast_sub hk]; ring
    rw [e]
    have : ((n : ℚ) - ((w.ext : ℤ) : ℚ)) / w.s = ((n - w.ext : ℕ) : ℚ) / (w.s : ℚ) := by
      rw [Nat.cast_sub hf]; push_cast; rfl
    rw [this, Rat.floor_natCast_div_natCast]
    push_cast; rfl

theorem front_eq (same : Bool) (w : Win) (n : ℕ) (hs : 0 < w.s) (hk : 0 < w.k) (hn : 0 < n) :
    (w.front same n : ℤ) = padFront same n w := by
  unfold Win.front padFront
  cases same with
  | false => simp
  | true =>
    simp only [if_true]
    have hq : (w.out true n : ℤ) = ⌈(n : ℚ) / w.s⌉ := by
      unfold Win.out; simpa using ceil_div_nat n w.s hs
    rw [← hq]
    have hpos : 0 < w.out true n := by
      unfold Win.out; simp only [if_true]; exact Nat.div_pos (by omega) hs
    have e : (((w.k : ℤ) - 1) * w.d + 1 : ℤ) = (w.ext : ℤ) := by
      unfold Win.ext; push_cast [Nat.cast_sub hk]; ring
    have hA : (((w.out true n - 1) * w.s + w.ext : ℕ) : ℤ) = ((w.out true n : ℤ) - 1) * w.s + ((w.k : ℤ) - 1) * w.d + 1 := by
      push_cast [Nat.cast_sub hpos]; rw [← e]; ring
    rw [← hA]
    generalize (w.out true n - 1) * w.s + w.ext = A
    push_cast
    congr 1
    omega

/-- One axis: the source is the integer position if it lies inside. -/
theorem src_eq (same : Bool) (w : Win) (n o a : ℕ) (hs : 0 < w.s) (hk : 0 < w.k) (hn : 0 < n) :
    w.src same n o a = if 0 ≤ (o : ℤ) * w.s + (a : ℤ) * w.d - padFront same n w ∧ (o : ℤ) * w.s + (a : ℤ) * w.d - padFront same n w < n
      then some ((o : ℤ) * w.s + (a : ℤ) * w.d - padFront same n w).toNat else none := by
  rw [← front_eq same w n hs hk hn]
  unfold Win.src
  have e : (o : ℤ) * w.s + (a : ℤ) * w.d = ((o * w.s + a * w.d : ℕ) : ℤ) := by push_cast; rfl
  rw [e]
  generalize o * w.s + a * w.d = z
  generalize w.front same n = f
  by_cases h : f ≤ z ∧ z - f < n
  · simp only [h, and_self, if_true]
    rw [if_pos (by omega)]
    congr 1; omega
  · simp only [h, if_false]
    rw [if_neg (by omega)]

/-! ## All axes -/

/-- Windows with positive sizes and strides. -/
def WinsOk (ws : List Win) : Prop := ∀ w ∈ ws, 0 < w.k ∧ 0 < w.s

theorem inside_cons (z : ℤ) (zs : List ℤ) (n : ℕ) (sp : List ℕ) : Inside (z :: zs) (n :: sp) ↔ (0 ≤ z ∧ z < n) ∧ Inside zs sp := by
  unfold Inside; rw [List.forall₂_cons]

open Classical in
theorem srcs_eq (same : Bool) (ws : List Win) (sp p κ : List ℕ) (hw : WinsOk ws) (hn : ∀ n ∈ sp, 0 < n) (hl : ws.length = sp.length)
    (hp : p.length = sp.length) (hκ : κ.length = sp.length) :
    srcs same ws sp p κ = if Inside (tap same sp ws p κ) sp then some ((tap same sp ws p κ).map Int.toNat) else none := by
  induction sp generalizing ws p κ with
  | nil =>
    cases ws with
    | nil => simp [srcs, tap, Inside]
    | cons w ws => simp at hl
  | cons n sp ih =>
    cases ws with
    | nil => simp at hl
    | cons w ws =>
      cases p with
      | nil => simp at hp
      | cons o p =>
        cases κ with
        | nil => simp at hκ
        | cons a κ =>
          obtain ⟨h1, h2⟩ := hw w (List.mem_cons_self ..)
          have hs := src_eq same w n o a h2 h1 (hn n (List.mem_cons_self ..))
          have ih := ih ws p κ (fun w h => hw w (List.mem_cons_of_mem _ h)) (fun m h => hn m (List.mem_cons_of_mem _ h)) (by simpa using hl)
            (by simpa using hp) (by simpa using hκ)
          simp only [srcs, hs, ih, tap, inside_cons, List.map_cons]
          by_cases c1 : 0 ≤ (o : ℤ) * w.s + (a : ℤ) * w.d - padFront same n w ∧ (o : ℤ) * w.s + (a : ℤ) * w.d - padFront same n w < n
          · by_cases c2 : Inside (tap same sp ws p κ) sp
            · rw [if_pos c1, if_pos c2, if_pos ⟨c1, c2⟩]
            · rw [if_pos c1, if_neg c2, if_neg (fun h => c2 h.2)]
          · rw [if_neg c1]; exact (if_neg fun h => c1 h.1).symm

theorem srcs_inShape (same : Bool) (ws : List Win) (sp p κ s : List ℕ) (hw : WinsOk ws) (hn : ∀ n ∈ sp, 0 < n) (hl : ws.length = sp.length)
    (hp : p.length = sp.length) (hκ : κ.length = sp.length) (hs : srcs same ws sp p κ = some s) : InShape s sp := by
  rw [srcs_eq same ws sp p _ hw hn hl hp hκ] at hs
  split at hs
  · rename_i hin
    obtain rfl := Option.some.inj hs
    clear hs
    unfold Inside at hin
    unfold InShape
    rw [List.forall₂_map_left_iff]
    exact hin.imp fun z n h => by omega
  · simp at hs

theorem sumIdx_eq (sh : List ℕ) (f : List ℕ → ℚ) : sumIdx sh f = ∑ j ∈ range sh.prod, f (unflat sh j) := by
  induction sh generalizing f with
  | nil => simp [sumIdx, unflat]
  | cons n sh ih =>
    rw [List.prod_cons, sum_range_mul', sumIdx]
    refine sum_congr rfl fun i _ => ?_
    rw [ih]
    refine sum_congr rfl fun j hj => ?_
    have hj := mem_range.1 hj
    have hpos : 0 < sh.prod := by omega
    simp only [unflat]
    rw [Nat.mul_comm i, Nat.mul_add_div hpos, Nat.div_eq_of_lt hj, Nat.mul_add_mod, Nat.mod_eq_of_lt hj, Nat.add_zero]

/-! ## Axes of size one in front -/

theorem flat_pad (r : ℕ) (sh idx : List ℕ) : flat (List.replicate r 1 ++ sh) (List.replicate r 0 ++ idx) = flat sh idx := by
  induction r with
  | zero => rfl
  | succ r ih => simp [List.replicate_succ, flat, ih]

theorem unflat_pad (r : ℕ) (sh : List ℕ) (k : ℕ) (hk : k < sh.prod) :
    unflat (List.replicate r 1 ++ sh) k = List.replicate r 0 ++ unflat sh k := by
  induction r with
  | zero => rfl
  | succ r ih =>
    have hp : (List.replicate r 1 ++ sh).prod = sh.prod := by simp
    simp only [List.replicate_succ, List.cons_append, unflat, hp]
    rw [Nat.div_eq_of_lt hk, Nat.mod_eq_of_lt hk, ih]

theorem srcs_pad (same : Bool) (r : ℕ) (ws : List Win) (sp p κ : List ℕ) :
    srcs same (List.replicate r ⟨1, 1, 1⟩ ++ ws) (List.replicate r 1 ++ sp) (List.replicate r 0 ++ p) (List.replicate r 0 ++ κ) =
      (srcs same ws sp p κ).map (List.replicate r 0 ++ ·) := by
  induction r with
  | zero => simp
  | succ r ih =>
    have e : Win.src same ⟨1, 1, 1⟩ 1 0 0 = some 0 := by cases same <;> rfl
    simp only [List.replicate_succ, List.cons_append, srcs, e, ih]
    cases srcs same ws sp p κ <;> simp

theorem outs_pad (same : Bool) (r : ℕ) (ws : List Win) (sp : List ℕ) :
    outs same (List.replicate r ⟨1, 1, 1⟩ ++ ws) (List.replicate r 1 ++ sp) = List.replicate r 1 ++ outs same ws sp := by
  induction r with
  | zero => rfl
  | succ r ih =>
    have e : Win.out same ⟨1, 1, 1⟩ 1 = 1 := by cases same <;> rfl
    unfold outs at ih ⊢
    simp [List.replicate_succ, e, ih]

theorem fits_pad (same : Bool) (r : ℕ) (ws : List Win) (sp : List ℕ) :
    fits same (List.replicate r ⟨1, 1, 1⟩ ++ ws) (List.replicate r 1 ++ sp) = fits same ws sp := by
  induction r with
  | zero => rfl
  | succ r ih => simp [List.replicate_succ, fits, ih, Win.ext]

theorem flat_snoc (sh idx : List ℕ) (n i : ℕ) (h : idx.length = sh.length) : flat (sh ++ [n]) (idx ++ [i]) = flat sh idx * n + i := by
  induction sh generalizing idx with
  | nil =>
    cases idx with
    | nil => simp [flat]
    | cons _ _ => simp at h
  | cons m sh ih =>
    cases idx with
    | nil => simp at h
    | cons j idx =>
      simp only [List.cons_append, flat, List.prod_append, List.prod_singleton]
      rw [ih idx (by simpa using h)]; ring

theorem unflat_snoc (sh : List ℕ) (n q c : ℕ) (hq : q < sh.prod) (hc : c < n) : unflat (sh ++ [n]) (q * n + c) = unflat sh q ++ [c] := by
  have h1 := unflat_inShape sh q hq
  have h2 : q * n + c = flat (sh ++ [n]) (unflat sh q ++ [c]) := by
    rw [flat_snoc _ _ _ _ h1.length_eq]
    congr 2
    clear h1
    induction sh generalizing q with
    | nil => simp at hq; simp [flat, unflat, hq]
    | cons m sh ih =>
      rw [List.prod_cons] at hq
      have hpos : 0 < sh.prod := Nat.pos_of_ne_zero (by rintro h; simp [h] at hq)
      simp only [flat, unflat]
      rw [← ih _ (Nat.mod_lt _ hpos), Nat.mul_comm, Nat.div_add_mod]
  rw [h2]
  apply unflat_flat_id
  exact List.rel_append h1 (.cons hc .nil)

/-! ## Moving the channel axis -/

theorem normAxis_last (n : ℕ) : normAxis (n + 1) (-1) = some n := by
  unfold normAxis; rw [if_pos (by constructor <;> push_cast <;> omega)]
  have : (-1 : ℤ) % ((n + 1 : ℕ) : ℤ) = n := by
    rw [← Int.add_emod_right, Int.emod_eq_of_lt (by push_cast; omega) (by push_cast; omega)]; push_cast; ring
  rw [this]; rfl

theorem normAxis_zero (n : ℕ) : normAxis (n + 1) 0 = some 0 := by
  unfold normAxis; rw [if_pos (by constructor <;> push_cast <;> omega)]; simp

theorem map_getD_range {V : Type} (l : List V) (d : V) : ((List.range l.length).map fun j => l.getD j d) = l := by
  apply List.ext_getElem (by simp)
  intro i h1 h2
  simp [List.getD_eq_getElem?_getD, h2]

theorem moveaxis_first_last {V : Type} (x : Arr V) (C : ℕ) (sp : List ℕ) (hx : x.shape = C :: sp) :
    ∃ y, npMoveaxis 0 (-1) x = some y ∧ y.shape = sp ++ [C] ∧ ∀ idx c, idx.length = sp.length → y.get (idx ++ [c]) = x.get (c :: idx) := by
  have hl : x.shape.length = sp.length + 1 := by simp [hx]
  have hm : moveOrder (sp.length + 1) 0 sp.length = (List.range sp.length).map (· + 1) ++ [0] := by
    unfold moveOrder
    rw [List.range_succ_eq_map, List.erase_cons_head]
    have := List.insertIdx_length_self (l := (List.range sp.length).map Nat.succ) (x := 0)
    simpa using this
  have hperm : ((List.range sp.length).map (· + 1) ++ [0]).Perm (List.range x.shape.length) := by
    rw [hl, List.range_succ_eq_map]
    exact List.perm_append_comm
  refine ⟨_, by unfold npMoveaxis; rw [hl, normAxis_last, normAxis_zero]; simp only [hm, npTranspose]; rw [if_pos hperm], ?_, ?_⟩
  · simp only [List.map_append, List.map_map, List.map_cons, List.map_nil, hx, List.getD_cons_zero]
    congr 1
    exact map_getD_range sp 0
  · intro idx c hidx
    simp only [hl, List.range_succ_eq_map, List.map_cons, List.map_map]
    congr 2
    · rw [List.idxOf_append_of_notMem (by simp)]
      simp [← hidx, List.getD_eq_getElem?_getD]
    · rw [← hidx]
      refine Eq.trans (List.map_congr_left fun j hj => ?_) (map_getD_range idx 0)
      have hj := List.mem_range.1 hj
      simp only [Function.comp_apply, Nat.succ_eq_add_one]
      rw [List.idxOf_append_of_mem (by simp [hj])]
      have hi : ((List.range idx.length).map (· + 1)).idxOf (j + 1) = j := by
        rw [idxOf_map_succ]
        exact idxOf_range_self hj
      rw [hi, getD_left hj]

theorem moveaxis_last_first {V : Type} (x : Arr V) (C : ℕ) (sp : List ℕ) (hx : x.shape = sp ++ [C]) :
    ∃ y, npMoveaxis (-1) 0 x = some y ∧ y.shape = C :: sp ∧ ∀ idx c, idx.length = sp.length → y.get (c :: idx) = x.get (idx ++ [c]) := by
  have hl : x.shape.length = sp.length + 1 := by simp [hx]
  have hm : moveOrder (sp.length + 1) sp.length 0 = sp.length :: List.range sp.length := by
    unfold moveOrder
    rw [List.range_succ, List.erase_append_right _ (by simp)]
    simp
  have hperm : (sp.length :: List.range sp.length).Perm (List.range x.shape.length) := by
    rw [hl, List.range_succ]
    exact List.perm_append_comm (l₁ := [sp.length])
  refine ⟨_, by unfold npMoveaxis; rw [hl, normAxis_last, normAxis_zero]; simp only [hm, npTranspose]; rw [if_pos hperm], ?_, ?_⟩
  · simp only [List.map_cons, hx]
    congr 1
    · simp [List.getD_eq_getElem?_getD]
    · refine Eq.trans (List.map_congr_left fun j hj => ?_) (map_getD_range sp 0)
      have hj := List.mem_range.1 hj
      rw [getD_left hj]
  · intro idx c hidx
    simp only [hl, List.range_succ, List.map_append, List.map_cons, List.map_nil]
    congr 2
    · rw [← hidx]
      refine Eq.trans (List.map_congr_left fun j hj => ?_) (map_getD_range idx 0)
      have hj := List.mem_range.1 hj
      rw [List.idxOf_cons_ne _ (by omega), idxOf_range_self hj]
      simp
    · simp

/-! ## Patches -/

/-- The traced patches of an image with channels last: at every output position, kernel entry and channel, the image entry or the padding. -/
theorem symbolicPatches_last {V : Type} (same : Bool) (ws : List Win) (pad : V) (x : Arr V) (sp : List ℕ) (C : ℕ) (hx : x.shape = sp ++ [C])
    (hrank : sp.length ≤ 3) (hl : ws.length = sp.length) (hf : fits same ws sp = true) (hw : WinsOk ws) (hn : ∀ n ∈ sp, 0 < n)
    (hsize : (sp ++ [C]).prod ≤ 2 ^ 24) :
    ∃ y, symbolicPatches false same ws pad x = some y ∧ y.shape = outs same ws sp ++ [(ws.map (·.k)).prod * C] ∧
      ∀ p q c, InShape p (outs same ws sp) → q < (ws.map (·.k)).prod → c < C →
        y.get (p ++ [q * C + c]) = match srcs same ws sp p (unflat (ws.map (·.k)) q) with | some s => x.get (s ++ [c]) | none => pad := by
  set r := 3 - sp.length with hr
  set R := List.replicate r 1 with hR
  have hrr : x.shape.length - 1 = ws.length := by simp [hx, hl]
  have e1 : npReshape (R ++ x.shape) x = some ⟨R ++ x.shape, fun idx => x.get (unflat x.shape (flat (R ++ x.shape) idx))⟩ := by
    unfold npReshape; rw [if_pos (by simp [hR])]
  set x3 : Arr V := ⟨R ++ x.shape, fun idx => x.get (unflat x.shape (flat (R ++ x.shape) idx))⟩ with hx3
  have hsp3 : x3.shape.dropLast = R ++ sp := by simp only [hx3, hx]; rw [← List.append_assoc, List.dropLast_concat]
  have hC3 : x3.shape.getLastD 0 = C := by simp only [hx3, hx]; rw [← List.append_assoc]; simp
  set ws3 := List.replicate r (⟨1, 1, 1⟩ : Win) ++ ws with hws3
  have hks3 : ws3.map (·.k) = R ++ ws.map (·.k) := by simp [hws3, hR]
  have hP3 : (ws3.map (·.k)).prod = (ws.map (·.k)).prod := by rw [hks3]; simp [hR]
  have houts : outs same ws3 (R ++ sp) = R ++ outs same ws sp := outs_pad same r ws sp
  have e2 : symbolicPatches3 same ws3 pad x3 = some ⟨R ++ outs same ws sp ++ [(ws.map (·.k)).prod * C],
      fun idx => symbolicExtract f32Int pad (patchSrc same ws3 (R ++ sp) C idx.dropLast) (fun i => x3.get (unflat x3.shape i)) (idx.getLastD 0)⟩ := by
    unfold symbolicPatches3
    simp only [hsp3, hC3, hP3, houts]
    rw [if_pos]
    refine ⟨by simp [hws3, hr, hl]; omega, by simp [hR, hr]; omega, by rw [← hf]; exact fits_pad same r ws sp⟩
  set y3 : Arr V := ⟨R ++ outs same ws sp ++ [(ws.map (·.k)).prod * C],
      fun idx => symbolicExtract f32Int pad (patchSrc same ws3 (R ++ sp) C idx.dropLast) (fun i => x3.get (unflat x3.shape i)) (idx.getLastD 0)⟩ with hy3
  set t := outs same ws sp ++ [(ws.map (·.k)).prod * C] with ht
  have hy3s : y3.shape = R ++ t := by simp [hy3, ht]
  have hdrop : y3.shape.drop r = t := by rw [hy3s]; simp [hR]
  have e3 : npReshape (y3.shape.drop r) y3 = some ⟨t, fun idx => y3.get (unflat y3.shape (flat t idx))⟩ := by
    unfold npReshape; rw [hdrop, if_pos (by rw [hy3s]; simp [hR])]
  refine ⟨⟨t, fun idx => y3.get (unflat y3.shape (flat t idx))⟩, ?_, rfl, ?_⟩
  · unfold symbolicPatches
    simp only [hrr, if_true, Bool.false_eq_true, if_false, Option.bind_some]
    rw [hl, ← hr, ← hR, e1, Option.bind_some, ← hws3, e2, Option.bind_some, e3]
  · intro p q c hp hq hc
    have hjlt : q * C + c < (ws.map (·.k)).prod * C := by
      calc q * C + c < q * C + C := by omega
        _ = (q + 1) * C := by ring
        _ ≤ _ := Nat.mul_le_mul_right _ hq
    have hin : InShape (p ++ [q * C + c]) t := List.rel_append hp (.cons hjlt .nil)
    simp only [hy3s]
    rw [unflat_pad r t _ (flat_lt _ _ hin), unflat_flat_id _ _ hin]
    simp only [hy3]
    rw [← List.append_assoc, List.dropLast_concat]
    simp only [List.getLastD_concat]
    have hC0 : 0 < C := by omega
    have hdiv : (q * C + c) / C = q := by rw [Nat.mul_comm, Nat.mul_add_div hC0, Nat.div_eq_of_lt hc, Nat.add_zero]
    have hmod : (q * C + c) % C = c := by rw [Nat.mul_comm, Nat.mul_add_mod, Nat.mod_eq_of_lt hc]
    have hlenp : p.length = sp.length := by rw [hp.length_eq]; simp [outs, hl]
    have hκ := unflat_inShape (ws.map (·.k)) q hq
    have hκl : (unflat (ws.map (·.k)) q).length = sp.length := by rw [hκ.length_eq]; simp [hl]
    -- the sources in the image with extra axes
    have hps : patchSrc same ws3 (R ++ sp) C (List.replicate r 0 ++ p) (q * C + c) =
        (srcs same ws sp p (unflat (ws.map (·.k)) q)).map fun s => flat sp s * C + c := by
      unfold patchSrc
      rw [hdiv, hmod, hks3, unflat_pad r _ _ hq, hws3, hR, srcs_pad, Option.map_map]
      congr 1
      funext s
      simp [flat_pad]
    have hbound := fun s => srcs_inShape same ws sp p _ s hw hn hl hlenp hκl
    unfold symbolicExtract
    cases hsr : srcs same ws sp p (unflat (ws.map (·.k)) q) with
    | none => simp [extractPatches, hps, hsr]
    | some s =>
      have hsin := hbound s hsr
      have hlt : flat sp s * C + c < 2 ^ 24 := lt_of_lt_of_le (flat_bound (flat_lt _ _ hsin) hc) hsize
      have h64 := C64_patches_partial (2 ^ 24) le_rfl pad (fun _ => some (flat sp s * C + c)) (by rintro j i h; simp at h; omega)
        (fun i => x3.get (unflat x3.shape i)) 0
      unfold symbolicExtract extractPatches at h64
      simp only [extractPatches, hps, hsr, Option.map_some]
      simp only at h64
      rw [h64]
      have hin2 : InShape (s ++ [c]) (sp ++ [C]) := List.rel_append hsin (.cons hc .nil)
      have hfl : flat sp s * C + c = flat (sp ++ [C]) (s ++ [c]) := (flat_snoc _ _ _ _ hsin.length_eq).symm
      simp only [hx3, hx]
      rw [hfl, unflat_pad r _ _ (flat_lt _ _ hin2), unflat_flat_id _ _ hin2, flat_pad, unflat_flat_id _ _ hin2]

/-! ## Convolution -/

theorem unflat_kernel (ks : List ℕ) (a m q c o : ℕ) (hq : q < ks.prod) (hc : c < a) (ho : o < m) :
    unflat (ks ++ [a, m]) ((q * a + c) * m + o) = unflat ks q ++ [c, o] := by
  have h1 : ks ++ [a, m] = (ks ++ [a]) ++ [m] := by simp
  rw [h1, unflat_snoc _ _ _ _ (flat_bound hq hc) ho, unflat_snoc _ _ _ _ hq hc, List.append_assoc]; rfl

/-- Patches times kernel are the convolution of the specification, for every number of groups. -/
theorem kerasConv_convND (same : Bool) (ws : List Win) (sp : List ℕ) (G a b : ℕ) (hl : ws.length = sp.length) (hw : WinsOk ws)
    (hn : ∀ n ∈ sp, 0 < n) (val : List ℕ → ℕ → ℚ) (patch : ℕ → ℚ) (kernel : Arr ℚ) (hks : kernel.shape = ws.map (·.k) ++ [a, G * b])
    (p : List ℕ) (hp : p.length = sp.length) (o : ℕ) (ho : o < G * b)
    (hpatch : ∀ q c, q < (ws.map (·.k)).prod → c < G * a → patch (q * (G * a) + c) =
      match srcs same ws sp p (unflat (ws.map (·.k)) q) with | some s => val s c | none => 0) :
    kerasConv ((ws.map (·.k)).prod) G a b patch (fun j => kernel.get (unflat kernel.shape j)) o =
      convND same sp ws a b val (fun κ c o => kernel.get (κ ++ [c, o])) p o := by
  unfold kerasConv convND
  rw [sumIdx_eq]
  refine sum_congr rfl fun q hq => ?_
  have hq := mem_range.1 hq
  have hκl : (unflat (ws.map (·.k)) q).length = sp.length := by rw [(unflat_inShape _ q hq).length_eq]; simp [hl]
  have hb : 0 < b := by rcases Nat.eq_zero_or_pos b with h | h; · simp [h] at ho
                        · exact h
  have hg : o / b < G := Nat.div_lt_of_lt_mul (by rw [Nat.mul_comm]; exact ho)
  have hch : ∀ c, c < a → o / b * a + c < G * a := by
    intro c hc
    calc o / b * a + c < o / b * a + a := by omega
      _ = (o / b + 1) * a := by ring
      _ ≤ _ := Nat.mul_le_mul_right _ hg
  have hsr := srcs_eq same ws sp p _ hw hn hl hp hκl
  by_cases hin : Inside (tap same sp ws p (unflat (ws.map (·.k)) q)) sp
  · rw [if_pos hin] at hsr ⊢
    refine sum_congr rfl fun c hc => ?_
    have hc := mem_range.1 hc
    rw [hpatch q _ hq (hch c hc), hsr, hks]
    show _ * kernel.get (unflat _ _) = _
    rw [unflat_kernel _ _ _ _ _ _ hq hc ho]
  · rw [if_neg hin] at hsr ⊢
    refine sum_eq_zero fun c hc => ?_
    have hc := mem_range.1 hc
    rw [hpatch q _ hq (hch c hc), hsr]; simp

/-- The kernel fits into the image (`valid`). -/
def Fits (same : Bool) (ws : List Win) (sp : List ℕ) : Prop := same = true ∨ List.Forall₂ (fun w n => (w.k - 1) * w.d + 1 ≤ n) ws sp

theorem fits_of (same : Bool) (ws : List Win) (sp : List ℕ) (h : Fits same ws sp) : fits same ws sp = true := by
  rcases h with rfl | h
  · induction ws generalizing sp with
    | nil => simp [fits]
    | cons w ws ih => cases sp <;> simp [fits, ih]
  · induction h with
    | nil => rfl
    | cons h _ ih =>
      simp [fits, ih, Win.ext, h]

theorem outs_eq (same : Bool) (ws : List Win) (sp : List ℕ) (hl : ws.length = sp.length) (hw : WinsOk ws) (hf : Fits same ws sp) :
    (outs same ws sp).map (fun (n : ℕ) => (n : ℤ)) = List.zipWith (outPositions same) sp ws := by
  induction sp generalizing ws with
  | nil => simp [outs]
  | cons n sp ih =>
    cases ws with
    | nil => simp at hl
    | cons w ws =>
      obtain ⟨h1, h2⟩ := hw w (List.mem_cons_self ..)
      have hf' : (same = true ∨ w.ext ≤ n) ∧ Fits same ws sp := by
        rcases hf with h | h
        · exact ⟨.inl h, .inl h⟩
        · cases h with
          | cons ha hb => exact ⟨.inr ha, .inr hb⟩
      have := ih ws (by simpa using hl) (fun w h => hw w (List.mem_cons_of_mem _ h)) hf'.2
      unfold outs at this ⊢
      simp only [List.zipWith_cons_cons, List.map_cons, this, out_eq same w n h2 h1 hf'.1]

theorem prod_kernel_pos (ws : List Win) (hw : WinsOk ws) : 0 < (ws.map (·.k)).prod := by
  apply Nat.pos_of_ne_zero
  rw [ne_eq, List.prod_eq_zero_iff]
  intro h
  obtain ⟨w, hm, h0⟩ := List.mem_map.1 h
  have := (hw w hm).1
  omega

/-- **C116 (convolution, partial).** For one, two or three spatial axes, either data format, every kernel size, stride, dilation, both paddings,
every kernel and optional bias and every image with at most `2^24` entries: the traced layer has the shape of the Keras output, and its value at
every position and output channel is that of the convolution, if there is one group or each group has one input channel.  Missing: other
grouped convolutions, where it is false (`C43_grouped_violated`), and larger images (`C64_float32_violated`). -/
theorem C116_conv_partial (cfirst same : Bool) (ws : List Win) (sp : List ℕ) (G a b : ℕ) (kernel : Arr ℚ) (bias : Option (ℕ → ℚ)) (x : Arr ℚ)
    (hrank : sp.length ≤ 3) (hl : ws.length = sp.length) (hw : WinsOk ws) (hn : ∀ n ∈ sp, 0 < n) (hf : Fits same ws sp)
    (hx : x.shape = layout cfirst sp (G * a)) (hk : kernel.shape = ws.map (·.k) ++ [a, G * b]) (hG : 0 < G) (ha : 0 < a) (hb : 0 < b)
    (hgroups : G = 1 ∨ a = 1) (hsize : sp.prod * (G * a) ≤ 2 ^ 24) :
    ∃ y P, replayQConv cfirst same ws G a b kernel bias x = some y ∧
      P.map (fun (n : ℕ) => (n : ℤ)) = List.zipWith (outPositions same) sp ws ∧ y.shape = layout cfirst P (G * b) ∧
      ∀ p, InShape p P → ∀ o, o < G * b → y.get (layout cfirst p o) =
        convND same sp ws a b (fun s c => x.get (layout cfirst s c)) (fun κ c o => kernel.get (κ ++ [c, o])) p o +
          bias.elim 0 fun β => β o := by
  have hsize' : (sp ++ [G * a]).prod ≤ 2 ^ 24 := by simpa using hsize
  -- the image with channels last
  obtain ⟨xl, hxl, hxs, hxg⟩ : ∃ xl, (if cfirst then npMoveaxis 0 (-1) x else some x) = some xl ∧ xl.shape = sp ++ [G * a] ∧
      ∀ s c, s.length = sp.length → xl.get (s ++ [c]) = x.get (layout cfirst s c) := by
    cases cfirst with
    | false => exact ⟨x, rfl, by simpa [layout] using hx, fun s c _ => by simp [layout]⟩
    | true =>
      obtain ⟨y, h1, h2, h3⟩ := moveaxis_first_last x (G * a) sp (by simpa [layout] using hx)
      exact ⟨y, by simpa using h1, h2, fun s c h => by rw [h3 s c h]; simp [layout]⟩
  obtain ⟨z, hz, hzs, hzg⟩ := symbolicPatches_last same ws (0 : ℚ) xl sp (G * a) hxs hrank hl (fits_of _ _ _ hf) hw hn hsize'
  have hz' : symbolicPatches cfirst same ws 0 x = some z := by
    have hlen : x.shape.length - 1 = xl.shape.length - 1 := by
      rw [hxs, hx]; cases cfirst <;> simp [layout]
    unfold symbolicPatches at hz ⊢
    simp only [hlen] at hz ⊢
    split at hz
    · rename_i hc
      rw [if_pos hc, hxl]
      simpa using hz
    · simp at hz
  set outputs : Arr ℚ := ⟨z.shape.dropLast ++ [G * b], fun idx =>
      let v := replayConv ((ws.map (·.k)).prod) G a b (fun j => z.get (idx.dropLast ++ [j])) (fun j => kernel.get (unflat kernel.shape j)) (idx.getLastD 0)
      match bias with | some β => v + β (idx.getLastD 0) | none => v⟩ with hout
  have hos : outputs.shape = outs same ws sp ++ [G * b] := by simp [hout, hzs]
  have hrun : replayQConv cfirst same ws G a b kernel bias x = if cfirst then npMoveaxis (-1) 0 outputs else some outputs := by
    unfold replayQConv
    rw [hz', Option.bind_some, if_pos ⟨by rw [hzs]; simp, hk⟩]
    rfl
  have hval : ∀ p, InShape p (outs same ws sp) → ∀ o, o < G * b → outputs.get (p ++ [o]) =
      convND same sp ws a b (fun s c => x.get (layout cfirst s c)) (fun κ c o => kernel.get (κ ++ [c, o])) p o +
        bias.elim 0 fun β => β o := by
    intro p hp o ho
    have hpl : p.length = sp.length := by rw [hp.length_eq]; simp [outs, hl]
    have h43 := (C43_conv_partial ((ws.map (·.k)).prod) G a b (prod_kernel_pos ws hw) hb hG ha).2 hgroups
      (fun j => z.get (p ++ [j])) (fun j => kernel.get (unflat kernel.shape j)) o ho
    have hnd := kerasConv_convND same ws sp G a b hl hw hn (fun s c => x.get (layout cfirst s c)) (fun j => z.get (p ++ [j])) kernel hk p hpl o ho
      (by
        intro q c hq hc
        rw [hzg p q c hp hq hc]
        have hκl : (unflat (ws.map (·.k)) q).length = sp.length := by rw [(unflat_inShape _ q hq).length_eq]; simp [hl]
        rw [srcs_eq same ws sp p _ hw hn hl hpl hκl]
        split
        · rename_i s hs
          split at hs
          · rename_i hin
            obtain rfl := Option.some.inj hs
            exact hxg _ _ (by rw [List.length_map]; exact hin.length_eq)
          · simp at hs
        · rfl)
    simp only [hout, List.dropLast_concat, List.getLastD_concat]
    rw [h43, hnd]
    cases bias <;> simp
  cases cfirst with
  | false =>
    refine ⟨outputs, outs same ws sp, by simpa using hrun, outs_eq same ws sp hl hw hf, by simpa [layout] using hos, ?_⟩
    intro p hp o ho
    simpa [layout] using hval p hp o ho
  | true =>
    obtain ⟨y, h1, h2, h3⟩ := moveaxis_last_first outputs (G * b) (outs same ws sp) hos
    refine ⟨y, outs same ws sp, by rw [hrun]; simpa using h1, outs_eq same ws sp hl hw hf, by simpa [layout] using h2, ?_⟩
    intro p hp o ho
    have := h3 p o hp.length_eq
    rw [show layout true p o = o :: p from rfl, this]
    exact hval p hp o ho

/-- A 2-D convolution (3 x 3 image, kernel 2 x 2, stride 2, `same`, one channel, bias 100) in both formats: the last window sees one entry. -/
example : ((replayQConv false true [⟨2, 2, 1⟩, ⟨2, 2, 1⟩] 1 1 1 ⟨[2, 2, 1, 1], fun _ => 1⟩ (some fun _ => 100)
      ⟨[3, 3, 1], fun idx => 3 * idx.getD 0 0 + idx.getD 1 0⟩).map fun y => (y.shape, y.get [0, 0, 0], y.get [1, 1, 0])) = some ([2, 2, 1], 108, 108) ∧
    ((replayQConv true true [⟨2, 2, 1⟩, ⟨2, 2, 1⟩] 1 1 1 ⟨[2, 2, 1, 1], fun _ => 1⟩ none
      ⟨[1, 3, 3], fun idx => 3 * idx.getD 1 0 + idx.getD 2 0⟩).map fun y => (y.shape, y.get [0, 0, 0], y.get [0, 1, 0])) = some ([1, 2, 2], 8, 13) := by
  decide +kernel

/-- **C116 (Keras layer in the models of C91, C101).** With the geometry of the code, the convolution layer of these models is the convolution of the
specification, for every number of groups, at every sample of the batch. -/
theorem C116_core (same : Bool) (ws : List Win) (sp : List ℕ) (G a b : ℕ) (kernel : Arr ℚ) (bias : ℕ → ℚ) (x : Arr ℚ) (B : ℕ)
    (hl : ws.length = sp.length) (hw : WinsOk ws) (hn : ∀ n ∈ sp, 0 < n) (hf : Fits same ws sp) (hx : x.shape = B :: sp ++ [G * a])
    (hk : kernel.shape = ws.map (·.k) ++ [a, G * b]) :
    ∃ y P, (Core.conv ((ws.map (·.k)).prod) G a b (outs same ws sp) (patchSrc same ws sp (G * a)) (fun j => kernel.get (unflat kernel.shape j)) bias).keras [x]
        = some y ∧ P.map (fun (n : ℕ) => (n : ℤ)) = List.zipWith (outPositions same) sp ws ∧ y.shape = B :: P ++ [G * b] ∧
      ∀ i p, InShape p P → ∀ o, o < G * b → y.get (i :: p ++ [o]) =
        convND same sp ws a b (fun s c => x.get (i :: s ++ [c])) (fun κ c o => kernel.get (κ ++ [c, o])) p o + bias o := by
  refine ⟨_, outs same ws sp, rfl, outs_eq same ws sp hl hw hf, by simp [hx], ?_⟩
  intro i p hp o ho
  have hpl : p.length = sp.length := by rw [hp.length_eq]; simp [outs, hl]
  simp only [List.cons_append, List.tail_cons, List.dropLast_concat, List.headD_cons, hx]
  rw [← List.cons_append, List.getLastD_concat]
  congr 1
  refine kerasConv_convND same ws sp G a b hl hw hn (fun s c => x.get (i :: s ++ [c])) _ kernel hk p hpl o ho fun q c hq hc => ?_
  have hκl : (unflat (ws.map (·.k)) q).length = sp.length := by rw [(unflat_inShape _ q hq).length_eq]; simp [hl]
  have hC0 : 0 < G * a := by omega
  have hdiv : (q * (G * a) + c) / (G * a) = q := by rw [Nat.mul_comm, Nat.mul_add_div hC0, Nat.div_eq_of_lt hc, Nat.add_zero]
  have hmod : (q * (G * a) + c) % (G * a) = c := by rw [Nat.mul_comm, Nat.mul_add_mod, Nat.mod_eq_of_lt hc]
  unfold extractPatches patchSrc
  rw [hdiv, hmod]
  cases hs : srcs same ws sp p (unflat (ws.map (·.k)) q) with
  | none => simp
  | some s =>
    have hin := srcs_inShape same ws sp p _ s hw hn hl hpl hκl hs
    simp only [Option.map_some]
    have hin2 : InShape (s ++ [c]) (sp ++ [G * a]) := List.rel_append hin (.cons hc .nil)
    rw [← flat_snoc _ _ _ _ hin.length_eq, unflat_flat_id _ _ hin2]
    rfl

/-! ## Pooling -/

/-- Pooling window without dilation: there is always an entry inside the image. -/
theorem pool_axis_inside (same : Bool) (n k s o : ℕ) (hs : 0 < s) (hk : 0 < k) (hn : 0 < n) (hf : same = true ∨ k ≤ n)
    (ho : o < Win.out same ⟨k, s, 1⟩ n) : ∃ a < k, ∃ i, Win.src same ⟨k, s, 1⟩ n o a = some i := by
  have hos : o * s < n := by
    unfold Win.out Win.ext at ho
    cases same with
    | true =>
      simp only [if_true] at ho
      have := (Nat.lt_div_iff_mul_lt hs).1 ho
      omega
    | false =>
      simp only [Bool.false_eq_true, if_false, mul_one] at ho
      have hkn : k ≤ n := by simpa using hf
      have h1 : o ≤ (n - (k - 1 + 1)) / s := by omega
      have := (Nat.le_div_iff_mul_le hs).1 h1
      omega
  have hfront : Win.front same ⟨k, s, 1⟩ n < k := by
    unfold Win.front
    cases same with
    | false => simpa using hk
    | true =>
      simp only [if_true, Win.ext, mul_one]
      have h1 : (Win.out true ⟨k, s, 1⟩ n - 1) * s < n := by
        unfold Win.out
        simp only [if_true]
        have h3 : 0 < (n + s - 1) / s := Nat.div_pos (by omega) hs
        have h4 : (n + s - 1) / s * s ≤ n + s - 1 := Nat.div_mul_le_self _ _
        have h5 : ((n + s - 1) / s - 1) * s + s = (n + s - 1) / s * s := by
          rw [← Nat.succ_mul]; congr 1; omega
        omega
      omega
  refine ⟨Win.front same ⟨k, s, 1⟩ n - o * s, by omega, ?_⟩
  unfold Win.src
  simp only [mul_one]
  rw [if_pos (by omega)]
  exact ⟨_, rfl⟩

theorem pool_inside (same : Bool) (pool strides sp p : List ℕ) (hl1 : pool.length = sp.length) (hl2 : strides.length = sp.length)
    (hk : ∀ k ∈ pool, 0 < k) (hs : ∀ s ∈ strides, 0 < s) (hn : ∀ n ∈ sp, 0 < n)
    (hf : same = true ∨ List.Forall₂ (· ≤ ·) pool sp)
    (hp : InShape p (outs same (List.zipWith (fun k s => (⟨k, s, 1⟩ : Win)) pool strides) sp)) :
    ∃ κ, InShape κ pool ∧ ∃ i, srcs same (List.zipWith (fun k s => (⟨k, s, 1⟩ : Win)) pool strides) sp p κ = some i := by
  induction sp generalizing pool strides p with
  | nil =>
    cases pool with
    | nil => exact ⟨[], .nil, [], by cases p <;> rfl⟩
    | cons _ _ => simp at hl1
  | cons n sp ih =>
    cases pool with
    | nil => simp at hl1
    | cons k pool =>
      cases strides with
      | nil => simp at hl2
      | cons s strides =>
        unfold outs at hp
        simp only [List.zipWith_cons_cons] at hp
        cases hp with
        | @cons o _ p _ ho hp =>
          have hf' : (same = true ∨ k ≤ n) ∧ (same = true ∨ List.Forall₂ (· ≤ ·) pool sp) := by
            rcases hf with h | h
            · exact ⟨.inl h, .inl h⟩
            · cases h with
              | cons h1 h2 => exact ⟨.inr h1, .inr h2⟩
          obtain ⟨a, ha, i, hi⟩ := pool_axis_inside same n k s o (hs s (List.mem_cons_self ..)) (hk k (List.mem_cons_self ..))
            (hn n (List.mem_cons_self ..)) hf'.1 ho
          obtain ⟨κ, hκ, r, hr⟩ := ih pool strides p (by simpa using hl1) (by simpa using hl2) (fun k h => hk k (List.mem_cons_of_mem _ h))
            (fun k h => hs k (List.mem_cons_of_mem _ h)) (fun k h => hn k (List.mem_cons_of_mem _ h)) hf'.2 hp
          exact ⟨a :: κ, .cons ha hκ, i :: r, by simp [srcs, hi, hr]⟩

theorem valid_inside (ws : List Win) (sp p κ : List ℕ) (hl : ws.length = sp.length) (hw : WinsOk ws) (hf : Fits false ws sp)
    (hp : InShape p (outs false ws sp)) (hκ : InShape κ (ws.map (·.k))) : ∃ s, srcs false ws sp p κ = some s := by
  have hF : List.Forall₂ (fun w n => (w.k - 1) * w.d + 1 ≤ n) ws sp := by simpa [Fits] using hf
  clear hl hf
  induction hF generalizing p κ with
  | nil => exact ⟨[], by cases p <;> rfl⟩
  | @cons w n ws sp hwn _ ih =>
    unfold outs at hp
    simp only [List.zipWith_cons_cons] at hp
    cases hp with
    | @cons o _ p _ ho hp =>
      cases hκ with
      | @cons a _ κ _ ha hκ =>
        obtain ⟨h1, h2⟩ := hw w (List.mem_cons_self ..)
        obtain ⟨s, hs⟩ := ih p κ (fun w h => hw w (List.mem_cons_of_mem _ h)) hp hκ
        unfold Win.out at ho
        simp only [Bool.false_eq_true, if_false] at ho
        have ho' := (Nat.le_div_iff_mul_le h2).1 (Nat.lt_succ_iff.1 ho)
        have ha : a < w.k := ha
        have had : a * w.d ≤ (w.k - 1) * w.d := Nat.mul_le_mul_right _ (by omega)
        have hsrc : w.src false n o a = some (o * w.s + a * w.d) := by
          unfold Win.src Win.front
          unfold Win.ext at ho'
          simp only [Bool.false_eq_true, if_false, Nat.sub_zero, Nat.zero_le, true_and]
          rw [if_pos (by omega)]
        exact ⟨_, by simp [srcs, hsrc, hs]; rfl⟩

theorem list_sum_range {M : Type} [AddCommMonoid M] (n : ℕ) (f : ℕ → M) : ((List.range n).map f).sum = ∑ i ∈ range n, f i := by
  induction n with
  | zero => simp
  | succ n ih => rw [List.range_succ, List.map_append, List.sum_append, ih, sum_range_succ]; simp

open Classical in
/-- **C116 (pooling, channels last).** For one to three spatial axes, every pool size, stride, padding and image with at most `2^24` entries: the traced
layer has the shape of the Keras output; maximum pooling gives the greatest window entry inside the image (entries at least `-2^31`), average pooling
the mean of the window entries inside the image.  Missing: channels first, where it is false (`C116_pool_channels_first_violated`). -/
theorem C116_pool_partial (isMax same : Bool) (pool strides sp : List ℕ) (C : ℕ) (x : Arr ℚ) (hrank : sp.length ≤ 3)
    (hl1 : pool.length = sp.length) (hl2 : strides.length = sp.length) (hk : ∀ k ∈ pool, 0 < k) (hs : ∀ s ∈ strides, 0 < s) (hn : ∀ n ∈ sp, 0 < n)
    (hf : same = true ∨ List.Forall₂ (· ≤ ·) pool sp) (hx : x.shape = sp ++ [C]) (hsize : sp.prod * C ≤ 2 ^ 24)
    (hlow : isMax = true → ∀ idx, InShape idx x.shape → -2147483648 ≤ x.get idx) :
    ∃ y P ws, replayPoolW isMax false same pool strides x = some y ∧ ws = List.zipWith (fun k s => (⟨k, s, 1⟩ : Win)) pool strides ∧
      P.map (fun (n : ℕ) => (n : ℤ)) = List.zipWith (outPositions same) sp ws ∧ y.shape = P ++ [C] ∧
      ∀ p, InShape p P → ∀ c, c < C →
        (isMax = true → IsGreatest {v | ∃ κ, InShape κ pool ∧ Inside (tap same sp ws p κ) sp ∧ v = x.get ((tap same sp ws p κ).map Int.toNat ++ [c])}
          (y.get (p ++ [c]))) ∧
        (isMax = false → (∃ κ, InShape κ pool ∧ Inside (tap same sp ws p κ) sp) ∧
          y.get (p ++ [c]) = (sumIdx pool fun κ => if Inside (tap same sp ws p κ) sp then x.get ((tap same sp ws p κ).map Int.toNat ++ [c]) else 0) /
            (sumIdx pool fun κ => if Inside (tap same sp ws p κ) sp then 1 else 0)) := by
  set ws := List.zipWith (fun k s => (⟨k, s, 1⟩ : Win)) pool strides with hws
  have hl : ws.length = sp.length := by simp [hws, hl1, hl2]
  have hmapk : ws.map (·.k) = pool := by
    rw [hws, List.map_zipWith]
    have : ∀ (a b : List ℕ), a.length = b.length → List.zipWith (fun k _ => k) a b = a := by
      intro a
      induction a with
      | nil => intro b _; rfl
      | cons u a ih => intro b hb; cases b with
        | nil => simp at hb
        | cons v b => simp [ih b (by simpa using hb)]
    exact this _ _ (by omega)
  have hw : WinsOk ws := by
    intro w hm
    rw [hws] at hm
    obtain ⟨i, hi, rfl⟩ := List.mem_iff_getElem.1 hm
    simp only [List.getElem_zipWith]
    exact ⟨hk _ (List.getElem_mem _), hs _ (List.getElem_mem _)⟩
  have hF : Fits same ws sp := by
    rcases hf with h | h
    · exact .inl h
    · right
      rw [List.forall₂_iff_get] at h ⊢
      refine ⟨hl, fun i h1 h2 => ?_⟩
      have := h.2 i (by omega) h2
      have hkpos : 0 < pool[i]'(by omega) := hk _ (List.getElem_mem _)
      simp only [List.get_eq_getElem, hws, List.getElem_zipWith, mul_one] at this ⊢
      omega
  have hsize' : (sp ++ [C]).prod ≤ 2 ^ 24 := by simpa using hsize
  obtain ⟨z, hz, hzs, hzg⟩ := symbolicPatches_last same ws (0 : ℚ) x sp C hx hrank hl (fits_of _ _ _ hF) hw hn hsize'
  obtain ⟨m0, hm0, hm0s, hm0g⟩ := symbolicPatches_last same ws (0 : ℤ) ⟨x.shape, fun _ => 1⟩ sp C hx hrank hl (fits_of _ _ _ hF) hw hn hsize'
  rw [hmapk] at hzs hzg hm0s hm0g
  -- the mask
  obtain ⟨m, hm, hmg⟩ : ∃ m : Arr ℤ, (if same then symbolicPatches false same ws (0 : ℤ) ⟨x.shape, fun _ => 1⟩ else some ⟨z.shape, fun _ => 1⟩) = some m ∧
      ∀ p q c, InShape p (outs same ws sp) → q < pool.prod → c < C →
        m.get (p ++ [q * C + c]) = if (srcs same ws sp p (unflat pool q)).isSome then 1 else 0 := by
    cases same with
    | true =>
      refine ⟨m0, by simpa using hm0, fun p q c hp hq hc => ?_⟩
      rw [hm0g p q c hp hq hc]
      cases srcs true ws sp p (unflat pool q) <;> simp
    | false =>
      refine ⟨_, rfl, fun p q c hp hq hc => ?_⟩
      obtain ⟨s, hs⟩ := valid_inside ws sp p (unflat pool q) hl hw hF hp (by rw [hmapk]; exact unflat_inShape _ _ hq)
      simp [hs]
  have hlast : x.shape.getLastD 0 = C := by simp [hx]
  refine ⟨_, outs same ws sp, ws, by
    unfold replayPoolW
    simp only [Bool.false_eq_true, if_false, Option.bind_some]
    rw [← hws, hz, Option.bind_some, hm, Option.bind_some, hlast, hzs], rfl, outs_eq same ws sp hl hw hF, by simp, ?_⟩
  intro p hp c hc
  have hC0 : 0 < C := by omega
  have hpl : p.length = sp.length := by rw [hp.length_eq]; simp [outs, hl]
  have hnn : pool.prod * C / C = pool.prod := Nat.mul_div_cancel _ hC0
  simp only [List.dropLast_concat, List.getLastD_concat, hnn]
  have hκl : ∀ κ, InShape κ pool → κ.length = sp.length := fun κ h => by rw [h.length_eq, hl1]
  have hS : ∀ q, q < pool.prod → srcs same ws sp p (unflat pool q) =
      if Inside (tap same sp ws p (unflat pool q)) sp then some ((tap same sp ws p (unflat pool q)).map Int.toNat) else none :=
    fun q hq => srcs_eq same ws sp p _ hw hn hl hpl (hκl _ (unflat_inShape _ _ hq))
  obtain ⟨κ0, hκ0, s0, hs0⟩ := pool_inside same pool strides sp p hl1 hl2 hk hs hn hf hp
  rw [← hws, srcs_eq same ws sp p _ hw hn hl hpl (hκl _ hκ0)] at hs0
  have hin0 : Inside (tap same sp ws p κ0) sp := by
    by_contra h
    rw [if_neg h] at hs0
    simp at hs0
  constructor
  · rintro rfl
    simp only [if_true]
    -- entries of the list
    have hmem : ∀ v, v ∈ ((List.range pool.prod).map fun q => if m.get (p ++ [q * C + c]) ≠ 0 then z.get (p ++ [q * C + c]) else -2147483648) ↔
        ∃ κ, InShape κ pool ∧ v = if Inside (tap same sp ws p κ) sp then x.get ((tap same sp ws p κ).map Int.toNat ++ [c]) else -2147483648 := by
      intro v
      rw [List.mem_map]
      have hval : ∀ q, q < pool.prod → (if m.get (p ++ [q * C + c]) ≠ 0 then z.get (p ++ [q * C + c]) else -2147483648) =
          if Inside (tap same sp ws p (unflat pool q)) sp then x.get ((tap same sp ws p (unflat pool q)).map Int.toNat ++ [c]) else -2147483648 := by
        intro q hq
        rw [hmg p q c hp hq hc, hzg p q c hp hq hc, hS q hq]
        by_cases h : Inside (tap same sp ws p (unflat pool q)) sp <;> simp [h]
      constructor
      · rintro ⟨q, hq, rfl⟩
        have hq := List.mem_range.1 hq
        exact ⟨unflat pool q, unflat_inShape _ _ hq, hval q hq⟩
      · rintro ⟨κ, hκ, rfl⟩
        refine ⟨flat pool κ, List.mem_range.2 (flat_lt _ _ hκ), ?_⟩
        rw [hval _ (flat_lt _ _ hκ), unflat_flat_id _ _ hκ]
    generalize ((List.range pool.prod).map fun q => if m.get (p ++ [q * C + c]) ≠ 0 then z.get (p ++ [q * C + c]) else -2147483648) = L at hmem
    have h0 := (hmem _).2 ⟨κ0, hκ0, rfl⟩
    cases L with
    | nil => simp at h0
    | cons v L =>
      obtain ⟨g1, g2⟩ := foldl_max_spec L v
      simp only [poolMax, List.tail_cons, List.headD_cons]
      have hup : ∀ κ, InShape κ pool → Inside (tap same sp ws p κ) sp → x.get ((tap same sp ws p κ).map Int.toNat ++ [c]) ≤ L.foldl max v := by
        intro κ hκ hin
        have := g1 _ ((hmem _).2 ⟨κ, hκ, rfl⟩)
        rwa [if_pos hin] at this
      constructor
      · obtain ⟨κ, hκ, he⟩ := (hmem _).1 g2
        by_cases hin : Inside (tap same sp ws p κ) sp
        · exact ⟨κ, hκ, hin, by rwa [if_pos hin] at he⟩
        · rw [if_neg hin] at he
          refine ⟨κ0, hκ0, hin0, le_antisymm ?_ (hup κ0 hκ0 hin0)⟩
          rw [he]
          refine hlow rfl _ ?_
          rw [hx]
          refine List.rel_append ?_ (.cons hc .nil)
          exact srcs_inShape same ws sp p κ0 _ hw hn hl hpl (hκl _ hκ0) (by rw [srcs_eq same ws sp p _ hw hn hl hpl (hκl _ hκ0), if_pos hin0])
      · rintro u ⟨κ, hκ, hin, rfl⟩
        exact hup κ hκ hin
  · rintro rfl
    refine ⟨⟨κ0, hκ0, hin0⟩, ?_⟩
    simp only [Bool.false_eq_true, if_false]
    rw [list_sum_range, list_sum_range, sumIdx_eq, sumIdx_eq]
    congr 1
    · refine sum_congr rfl fun q hq => ?_
      have hq := mem_range.1 hq
      rw [hzg p q c hp hq hc, hS q hq]
      by_cases h : Inside (tap same sp ws p (unflat pool q)) sp <;> simp [h]
    · rw [Int.cast_sum]
      refine sum_congr rfl fun q hq => ?_
      have hq := mem_range.1 hq
      rw [hmg p q c hp hq hc, hS q hq]
      by_cases h : Inside (tap same sp ws p (unflat pool q)) sp <;> simp [h]

/-- Maximum and average over 2 x 2 windows with stride 2, `same`, of a 3 x 3 image: the last window has one entry, 8. -/
example : ((replayPoolW true false true [2, 2] [2, 2] ⟨[3, 3, 1], fun idx => 3 * idx.getD 0 0 + idx.getD 1 0⟩).map
      fun y => (y.shape, y.get [0, 0, 0], y.get [1, 1, 0])) = some ([2, 2, 1], 4, 8) ∧
    ((replayPoolW false false true [2, 2] [2, 2] ⟨[3, 3, 1], fun idx => 3 * idx.getD 0 0 + idx.getD 1 0⟩).map
      fun y => (y.shape, y.get [0, 0, 0], y.get [1, 1, 0])) = some ([2, 2, 1], 2, 8) := by decide +kernel

theorem moveaxis_one_last {V : Type} (x : Arr V) (C n : ℕ) (hx : x.shape = [C, n]) :
    npMoveaxis 1 (-1) x = some ⟨[C, n], fun idx => x.get [idx.getD 0 0, idx.getD 1 0]⟩ := by
  simp [npMoveaxis, hx, normAxis, npTranspose, moveOrder, List.range_succ, List.erase_cons, List.idxOf_cons]

theorem moveaxis_last_one {V : Type} (x : Arr V) (C n : ℕ) (hx : x.shape = [C, n]) :
    npMoveaxis (-1) 1 x = some ⟨[C, n], fun idx => x.get [idx.getD 0 0, idx.getD 1 0]⟩ := by
  simp [npMoveaxis, hx, normAxis, npTranspose, moveOrder, List.range_succ, List.erase_cons, List.idxOf_cons]

theorem patches_shape_two {V : Type} (same : Bool) (w : Win) (pad : V) (x z : Arr V) (C n : ℕ) (hx : x.shape = [C, n])
    (h : symbolicPatches false same [w] pad x = some z) : ∃ o m, z.shape = [o, m] := by
  unfold symbolicPatches at h
  simp [hx, npReshape, symbolicPatches3, outs] at h
  revert h
  split <;> simp
  rintro _ rfl
  exact ⟨_, _, rfl⟩

/-- **C116 violated for pooling with channels first.** In one dimension the data format has no effect at all: for every sample of shape
(channels, positions) the traced layer gives what it gives for the same array taken as (positions, channels), so it pools the channels. -/
theorem C116_pool_channels_first_violated (isMax same : Bool) (k s C n : ℕ) (x y : Arr ℚ) (hx : x.shape = [C, n])
    (h : replayPoolW isMax true same [k] [s] x = some y) : ∃ y', replayPoolW isMax false same [k] [s] x = some y' ∧ y.Same y' := by
  unfold replayPoolW at h ⊢
  simp only [List.zipWith_cons_cons, List.zipWith_nil_right, if_true, moveaxis_one_last x C n hx, Option.bind_some, Bool.false_eq_true, if_false] at h ⊢
  have hre : ∀ t, npReshape t ⟨[C, n], fun idx => x.get [idx.getD 0 0, idx.getD 1 0]⟩ = npReshape t x := by
    intro t
    unfold npReshape
    simp [hx, unflat]
  have e1 : symbolicPatches false same [⟨k, s, 1⟩] 0 ⟨[C, n], fun idx => x.get [idx.getD 0 0, idx.getD 1 0]⟩ =
      symbolicPatches false same [⟨k, s, 1⟩] 0 x := by
    unfold symbolicPatches
    simp only [Bool.false_eq_true, if_false, Option.bind_some, hx, hre]
  rw [e1] at h
  cases hz : symbolicPatches false same [⟨k, s, 1⟩] 0 x with
  | none => rw [hz] at h; simp at h
  | some z =>
    rw [hz] at h
    simp only [Option.bind_some, hx] at h ⊢
    obtain ⟨o, m, hzs⟩ := patches_shape_two same _ 0 x z C n hx hz
    cases hm : (if same = true then symbolicPatches false same [⟨k, s, 1⟩] (0 : ℤ) ⟨[C, n], fun _ => 1⟩ else some ⟨z.shape, fun _ => 1⟩) with
    | none => rw [hm] at h; simp at h
    | some mask =>
      rw [hm] at h
      simp only [Option.bind_some] at h ⊢
      refine ⟨_, rfl, ?_⟩
      rw [moveaxis_last_one _ o n (by simp [hzs])] at h
      obtain rfl := Option.some.inj h
      refine ⟨by simp [hzs], fun idx hidx => ?_⟩
      cases hidx with
      | @cons i _ idx _ _ hidx =>
        cases hidx with
        | @cons j _ idx _ _ hidx =>
          cases hidx
          rfl

/-- Two channels 0, 1, 2, 3 and 10, 11, 12, 13; windows of 2 positions: the result should be of shape (2, 2) with 1, 3 and 11, 13, and is of shape
(1, 4).  In two dimensions the layer raises if the width is one. -/
example :
    (replayPoolW true true false [2] [2] ⟨[2, 4], fun idx => 10 * idx.getD 0 0 + idx.getD 1 0⟩).map (fun y => (y.shape, y.get [0, 0])) =
      some ([1, 4], 10) ∧
    (replayPoolW true true false [2, 2] [2, 2] ⟨[1, 4, 4], fun _ => 1⟩).map (·.shape) = none := by
  decide +kernel

/-! ## `ops.image.extract_patches` -/

open Classical in
/-- **C116 (extract_patches, partial).** With strides given and channels last, the traced operation gives for every position, kernel entry and channel
(flat over kernel entries and channels) the image entry, or 0 outside the image.  Missing: strides left out and channels first, where it is false
(`C116_extract_strides_violated`, `C116_extract_channels_first_violated`). -/
theorem C116_extract_partial (same : Bool) (size strides dilation sp : List ℕ) (C : ℕ) (x : Arr ℚ) (hrank : sp.length ≤ 3)
    (hl1 : size.length = sp.length) (hl2 : strides.length = sp.length) (hl3 : dilation.length = sp.length) (ws : List Win)
    (hws : ws = List.zipWith (fun (k : ℕ) (sd : ℕ × ℕ) => (⟨k, sd.1, sd.2⟩ : Win)) size (strides.zip dilation))
    (hw : WinsOk ws) (hn : ∀ n ∈ sp, 0 < n) (hf : Fits same ws sp) (hx : x.shape = sp ++ [C]) (hsize : sp.prod * C ≤ 2 ^ 24) :
    ∃ y P, replayExtract false same size (some strides) dilation x = some y ∧
      P.map (fun (n : ℕ) => (n : ℤ)) = List.zipWith (outPositions same) sp ws ∧ y.shape = P ++ [size.prod * C] ∧
      ∀ p κ c, InShape p P → InShape κ size → c < C → y.get (p ++ [flat (size ++ [C]) (κ ++ [c])]) =
        if Inside (tap same sp ws p κ) sp then x.get ((tap same sp ws p κ).map Int.toNat ++ [c]) else 0 := by
  have hl : ws.length = sp.length := by simp [hws, hl1, hl2, hl3]
  have hmapk : ws.map (·.k) = size := by
    rw [hws, List.map_zipWith]
    have : ∀ (a : List ℕ) (b : List (ℕ × ℕ)), a.length = b.length → List.zipWith (fun k _ => k) a b = a := by
      intro a
      induction a with
      | nil => intro b _; rfl
      | cons u a ih => intro b hb; cases b with
        | nil => simp at hb
        | cons v b => simp [ih b (by simpa using hb)]
    exact this _ _ (by simp [hl1, hl2, hl3])
  obtain ⟨z, hz, hzs, hzg⟩ := symbolicPatches_last same ws (0 : ℚ) x sp C hx hrank hl (fits_of _ _ _ hf) hw hn (by simpa using hsize)
  rw [hmapk] at hzs hzg
  refine ⟨z, outs same ws sp, ?_, outs_eq same ws sp hl hw hf, hzs, ?_⟩
  · unfold replayExtract
    simp only [Option.getD_some]
    rw [← hws]; exact hz
  · intro p κ c hp hκ hc
    have hpl : p.length = sp.length := by rw [hp.length_eq]; simp [outs, hl]
    rw [flat_snoc _ _ _ _ hκ.length_eq, hzg p _ c hp (flat_lt _ _ hκ) hc, unflat_flat_id _ _ hκ,
      srcs_eq same ws sp p κ hw hn hl hpl (by rw [hκ.length_eq, hl1])]
    by_cases h : Inside (tap same sp ws p κ) sp <;> simp [h]

/-- Patches of 2 x 2 entries of a 3 x 3 image, stride 1: the patch at (1, 0) holds 3, 4, 6, 7. -/
example : ((replayExtract false false [2, 2] (some [1, 1]) [1, 1] ⟨[3, 3, 1], fun idx => 3 * idx.getD 0 0 + idx.getD 1 0⟩).map
      fun y => (y.shape, (List.range 4).map fun j => y.get [1, 0, j])) = some ([2, 2, 4], [3, 4, 6, 7]) := by decide +kernel

/-- **C116 violated without strides.** `keras.ops.image.extract_patches` takes `strides=None` as the size of the patch (no overlap); the traced
operation takes it as 1.  For every `n x n` image with `n ≥ 3` and patches of 2 x 2: `n - 1` positions instead of `⌊n / 2⌋`. -/
theorem C116_extract_strides_violated (n : ℕ) (hn : 3 ≤ n) (C : ℕ) (x : Arr ℚ) (hx : x.shape = [n, n, C]) (y : Arr ℚ)
    (h : replayExtract false false [2, 2] none [1, 1] x = some y) :
    y.shape = [n - 1, n - 1, 4 * C] ∧ outPositions false n ⟨2, 2, 1⟩ = (n / 2 : ℕ) ∧ n / 2 ≠ n - 1 := by
  refine ⟨?_, ?_, by omega⟩
  · unfold replayExtract symbolicPatches at h
    simp only [hx, Option.getD_none, List.length_cons, List.length_nil, List.map_cons, List.map_nil, List.zip_cons_cons, List.zip_nil_right,
      List.zipWith_cons_cons, List.zipWith_nil_right, Bool.false_eq_true, if_false, Option.bind_some] at h
    simp only [npReshape, hx, symbolicPatches3, outs] at h
    simp [fits, Win.ext, Win.out] at h
    rw [if_pos (by omega)] at h
    simp at h
    subst h
    simp
    omega
  · have := out_eq false ⟨2, 2, 1⟩ n (by norm_num) (by norm_num) (.inr (by simp [Win.ext]; omega))
    rw [← this]
    simp only [Win.out, Win.ext, Bool.false_eq_true, if_false]
    norm_cast
    omega

/-- **C116 violated for channels first.** The patches stay on the last axis; Keras puts them on the first. -/
theorem C116_extract_channels_first_violated :
    (replayExtract true false [2, 2] (some [1, 1]) [1, 1] ⟨[1, 3, 3], fun _ => 1⟩).map (·.shape) = some [2, 2, 4] ∧
    layout true [2, 2] 4 = [4, 2, 2] := by decide +kernel

/-! ## Table convolutions -/

open Classical in
/-- **C116 (QConvT1D, QConvT2D, channels last).** The table layer of a traced convolution receives, at every output position, the entries of the sample seen
through the kernel, 0 outside, flat over kernel entries and channels; and as many as the layer was built for. -/
theorem C116_table_partial (same : Bool) (ws : List Win) (sp : List ℕ) (C : ℕ) (x : Arr ℚ) (hrank : sp.length = 1 ∨ sp.length = 2)
    (hl : ws.length = sp.length) (hw : WinsOk ws) (hn : ∀ n ∈ sp, 0 < n) (hf : Fits same ws sp) (hx : x.shape = sp ++ [C]) (hsize : sp.prod * C ≤ 2 ^ 24) :
    ∃ y P, tablePatches false same ws x = some y ∧ P.map (fun (n : ℕ) => (n : ℤ)) = List.zipWith (outPositions same) sp ws ∧
      y.shape = P ++ [tableBuildIn ws x.shape] ∧
      ∀ p κ c, InShape p P → InShape κ (ws.map (·.k)) → c < C → y.get (p ++ [flat (ws.map (·.k) ++ [C]) (κ ++ [c])]) =
        if Inside (tap same sp ws p κ) sp then x.get ((tap same sp ws p κ).map Int.toNat ++ [c]) else 0 := by
  have hin : tableBuildIn ws x.shape = (ws.map (·.k)).prod * C := by simp [tableBuildIn, hx, Nat.mul_comm]
  rcases hrank with hr | hr
  · -- one dimension
    obtain ⟨T, rfl⟩ := List.length_eq_one_iff.1 hr
    obtain ⟨w, rfl⟩ := List.length_eq_one_iff.1 (hl.trans hr)
    set x2 : Arr ℚ := ⟨[T, 1, C], fun idx => x.get (idx.headD 0 :: idx.tail.tail)⟩ with hx2
    have e1 : tablePatches.npGetNew x = some x2 := by simp [tablePatches.npGetNew, hx, hx2]
    have hw2 : WinsOk [w, ⟨1, 1, 1⟩] := by
      intro v hv
      simp only [List.mem_cons, List.not_mem_nil, or_false] at hv
      rcases hv with rfl | rfl
      · exact hw _ (by simp)
      · simp
    have hf2 : Fits same [w, ⟨1, 1, 1⟩] [T, 1] := by
      rcases hf with h | h
      · exact .inl h
      · cases h with
        | cons h1 _ => exact .inr (.cons h1 (.cons (by simp) .nil))
    have hn2 : ∀ n ∈ [T, 1], 0 < n := by
      intro n hm
      simp only [List.mem_cons, List.not_mem_nil, or_false] at hm
      rcases hm with rfl | rfl
      · exact hn _ (by simp)
      · simp
    obtain ⟨z, hz, hzs, hzg⟩ := symbolicPatches_last same [w, ⟨1, 1, 1⟩] (0 : ℚ) x2 [T, 1] C rfl (by simp) rfl (fits_of _ _ _ hf2) hw2 hn2
      (by simpa using hsize)
    have ho : outs same [w, ⟨1, 1, 1⟩] [T, 1] = [w.out same T, 1] := by cases same <;> rfl
    rw [ho] at hzs hzg
    have e2 : npGetItem [.all, .int 0] z = some ⟨[w.out same T, w.k * C], fun idx => z.get (keyIdx [.all, .int 0] idx)⟩ := by
      simp [npGetItem, hzs, keyShape]
    refine ⟨⟨[w.out same T, w.k * C], fun idx => z.get (keyIdx [.all, .int 0] idx)⟩, [w.out same T], by simp [tablePatches, e1, hz, e2], outs_eq same [w] [T] rfl hw hf, by simp [hin], ?_⟩
    intro p κ c hp hκ hc
    cases hp with
    | @cons o _ _ _ ho' hp =>
      cases hp
      cases hκ with
      | @cons a _ _ _ ha hκ =>
        cases hκ
        have ha : a < w.k := ha
        have hfl : flat ([w].map (·.k) ++ [C]) ([a] ++ [c]) = a * C + c := by simp [flat]
        rw [hfl]
        have hg := hzg [o, 0] a c (.cons ho' (.cons (by simp) .nil)) (by simpa using ha) hc
        show z.get ([o, 0] ++ [a * C + c]) = _
        rw [hg]
        have hu : unflat ([w, (⟨1, 1, 1⟩ : Win)].map (·.k)) a = [a, 0] := by simp [unflat, Nat.mod_one]
        obtain ⟨hk1, hs1⟩ := hw w (by simp)
        rw [hu, srcs_eq same [w, ⟨1, 1, 1⟩] [T, 1] [o, 0] [a, 0] hw2 hn2 rfl rfl rfl]
        have h0 : padFront same 1 ⟨1, 1, 1⟩ = 0 := by
          rw [← front_eq same ⟨1, 1, 1⟩ 1 (by simp) (by simp) (by simp)]; cases same <;> rfl
        have hiff : Inside (tap same [T, 1] [w, ⟨1, 1, 1⟩] [o, 0] [a, 0]) [T, 1] ↔ Inside (tap same [T] [w] [o] [a]) [T] := by
          simp [tap, inside_cons, h0, Inside]
        by_cases hI : Inside (tap same [T] [w] [o] [a]) [T]
        · rw [if_pos (hiff.2 hI), if_pos hI]
          simp [tap, hx2]
        · rw [if_neg (fun h => hI (hiff.1 h)), if_neg hI]
  · -- two dimensions
    obtain ⟨v, w, rfl⟩ := List.length_eq_two.1 (hl.trans hr)
    obtain ⟨z, hz, hzs, hzg⟩ := symbolicPatches_last same [v, w] (0 : ℚ) x sp C hx (by omega) hl (fits_of _ _ _ hf) hw hn (by simpa using hsize)
    refine ⟨z, _, hz, outs_eq same _ sp hl hw hf, by rw [hin]; exact hzs, ?_⟩
    intro p κ c hp hκ hc
    have hpl : p.length = sp.length := by rw [hp.length_eq]; simp [outs, hr]
    rw [flat_snoc _ _ _ _ hκ.length_eq, hzg p _ c hp (flat_lt _ _ hκ) hc, unflat_flat_id _ _ hκ,
      srcs_eq same _ sp p κ hw hn hl hpl (by rw [hκ.length_eq]; simp [hr])]
    by_cases h : Inside (tap same sp [v, w] p κ) sp <;> simp [h]

/-- Kernel 2, stride 1, `same`, of the sequence 0, 1, 2, 3 with one channel: the last patch is 3 and padding. -/
example : ((tablePatches false true [⟨2, 1, 1⟩] ⟨[4, 1], fun idx => idx.getD 0 0⟩).map fun y => (y.shape, y.get [1, 0], y.get [1, 1], y.get [3, 0], y.get [3, 1]))
    = some ([4, 2], 1, 2, 3, 0) := by decide +kernel

/-- **C116 violated for table convolutions with channels first.** A sample of shape (2 channels, 6 positions), kernel 3: the layer is built for 18 inputs
at a position (positions times kernel size, where it should be 6), and the traced patches have a single position. -/
theorem C116_table_channels_first_violated :
    tableBuildIn [⟨3, 1, 1⟩] [2, 6] = 18 ∧ 2 * 3 = 6 ∧
    (tablePatches true false [⟨3, 1, 1⟩] ⟨[2, 6], fun _ => 1⟩).map (·.shape) = some [1, 6] ∧ outPositions false 6 ⟨3, 1, 1⟩ = 4 := by
  refine ⟨by decide, by decide, by decide +kernel, ?_⟩
  unfold outPositions
  norm_num

end HGQ
