import Verif.Props.ReplayOps

/-!
# C71 (operations that fail to trace), C72 (dot products), C73 (global pooling)
-/
namespace HGQ
variable {V : Type}

/-! ### Transpose and RepeatVector -/

/-- **C71 fails for `ops.transpose` with explicit axes.** For every array and every axes list Keras accepts, the replay raises: the axes
number the array with its batch axis, but are applied to the array without it. -/
theorem C71_transpose_violated (p : List ℕ) (a out : Arr V) (hne : a.shape ≠ []) (h : npTranspose p a = some out) (b : ℕ) :
    daTranspose p (a.sample b) = none := by
  unfold npTranspose at h
  split at h
  · rename_i hp
    have hl := hp.length_eq
    unfold daTranspose npTranspose
    rw [if_neg]
    intro hp'
    have hl' := hp'.length_eq
    simp only [Arr.sample, List.length_range, List.length_tail] at hl hl'
    have := List.length_pos_of_ne_nil hne
    omega
  · simp at h

example : ((npTranspose [0, 2, 1] (⟨[4, 2, 3], fun _ => (0 : ℕ)⟩ : Arr ℕ)).map (·.shape)) = some [4, 3, 2] := by decide

/-- **C71 fails for `RepeatVector`.** For every count and every input the replay returns the input itself, without the repeated axis. -/
theorem C71_repeat_vector_violated (n B F : ℕ) (hn : 0 < n) (a : Arr V) (h : a.shape = [B, F]) (b : ℕ) :
    (∃ r, daRepeatVector n (a.sample b) = some r ∧ r.shape = [F] ∧ ∀ i, r.get [i] = a.get [b, i]) ∧
    ((kerasRepeatVector n a).sample b).shape = [n, F] := by
  refine ⟨?_, by simp [kerasRepeatVector, Arr.sample, h]⟩
  unfold daRepeatVector
  split
  · exact ⟨_, rfl, by simp [Arr.sample, h], fun i => rfl⟩
  · refine ⟨npFirst ⟨[n, F], fun idx => (npExpand (a.sample b)).get (idx.modify 0 (· / n))⟩, ?_, ?_, ?_⟩
    · simp [npRepeat, npExpand, Arr.sample, h, normAxis]
    · simp [npFirst, Arr.sample]
    · intro i
      simp [npFirst, Arr.sample, npExpand]

/-! ### The Concatenate layer -/

theorem inShape_iff {idx sh : List ℕ} : InShape idx sh ↔ idx.length = sh.length ∧ ∀ k < sh.length, idx.getD k 0 < sh.getD k 0 := by
  induction sh generalizing idx with
  | nil => cases idx <;> simp [InShape]
  | cons n sh ih =>
    cases idx with
    | nil => simp [InShape]
    | cons i idx =>
      have : InShape (i :: idx) (n :: sh) ↔ i < n ∧ InShape idx sh := by simp [InShape]
      rw [this, ih]
      constructor
      · rintro ⟨h1, h2, h3⟩
        refine ⟨by simpa using h2, fun k hk => ?_⟩
        cases k with
        | zero => simpa using h1
        | succ k => simpa using h3 k (by simpa using hk)
      · rintro ⟨h1, h2⟩
        refine ⟨by simpa using h2 0 (by simp), by simpa using h1, fun k hk => ?_⟩
        simpa using h2 (k + 1) (by simpa using hk)

theorem concatGet_congr (axis : ℕ) (s : List ℕ) (hax : axis < s.length) (f : Arr V → Arr V)
    (hf : ∀ a, a.shape = s → (f a).shape = s ∧ ∀ idx, InShape idx s → (f a).get idx = a.get idx) (a : Arr V) (r : List (Arr V))
    (ha : a.shape = s) (hr : ∀ y ∈ r, y.shape = s) (idx : List ℕ)
    (hidx : InShape idx (s.set axis ((r.length + 1) * s.getD axis 0))) : concatGet axis (f a) (r.map f) idx = concatGet axis a r idx := by
  induction r generalizing a idx with
  | nil =>
    simp only [concatGet, List.map_nil]
    refine (hf a ha).2 idx ?_
    have : s.set axis ((([] : List (Arr V)).length + 1) * s.getD axis 0) = s := by
      simp [List.getElem?_eq_getElem hax]
    rwa [this] at hidx
  | cons y r ih =>
    simp only [concatGet, List.map_cons, (hf a ha).1, ha]
    rw [inShape_iff] at hidx
    obtain ⟨hl, hk⟩ := hidx
    rw [List.length_set] at hl hk
    split
    · rename_i hlt
      refine (hf a ha).2 idx (inShape_iff.2 ⟨hl, fun k hks => ?_⟩)
      by_cases hka : k = axis
      · subst hka; exact hlt
      · have := hk k hks
        simp only [List.getD_eq_getElem?_getD, List.getElem?_set_ne (Ne.symm hka)] at this ⊢; exact this
    · rename_i hge
      refine ih y (hr y (List.mem_cons_self ..)) (fun z hz => hr z (List.mem_cons_of_mem _ hz)) _ (inShape_iff.2 ⟨by simpa using hl, ?_⟩)
      intro k hks
      rw [List.length_set] at hks
      have hk' := hk k hks
      by_cases hka : k = axis
      · subst hka
        simp only [List.getD_eq_getElem?_getD, List.getElem?_set_self hks, List.getElem?_modify, Option.getD_some, if_true, List.length_cons] at hk' hge ⊢
        have hki : k < idx.length := by omega
        simp only [List.getElem?_eq_getElem hki, List.getElem?_eq_getElem hks, Option.getD_some, Option.map_eq_map, Option.map_some] at hk' hge ⊢
        have : (r.length + 1 + 1) * s[k] = (r.length + 1) * s[k] + s[k] := by ring
        omega
      · simp only [List.getD_eq_getElem?_getD, List.getElem?_set_ne (Ne.symm hka), List.getElem?_modify] at hk' ⊢
        simpa [Ne.symm hka] using hk'

theorem bcDims_self (s : List ℕ) : bcDims s s = some s := by
  induction s with
  | nil => rfl
  | cons n s ih => simp [bcDims, ih]

/-- Broadcasting arrays of the same shape gives these arrays. -/
theorem broadcast_same (s : List ℕ) (x : Arr V) (r : List (Arr V)) (h : ∀ y ∈ x :: r, y.shape = s) :
    npBroadcastArrays (x :: r) = some ((x :: r).map fun y => ⟨s, fun idx => (y.pad 0).get (bcastIdx s idx)⟩) := by
  have hrank : ∀ l : List (Arr V), (∀ y ∈ l, y.shape = s) → ∀ m, m ≤ s.length → l ≠ [] ∨ m = s.length →
      (l.map fun y => y.shape.length).foldl max m = s.length := by
    intro l hl
    induction l with
    | nil => intro m _ h2; simpa using h2
    | cons y l ih =>
      intro m hm _
      simp only [List.map_cons, List.foldl_cons]
      have : y.shape.length = s.length := by rw [hl y (List.mem_cons_self ..)]
      refine ih (fun z hz => hl z (List.mem_cons_of_mem _ hz)) _ (by omega) (Or.inr (by omega))
  have hR := hrank (x :: r) h 0 (by omega) (Or.inl (by simp))
  unfold npBroadcastArrays
  rw [hR]
  have e : ((x :: r).map fun y => y.pad (s.length - y.shape.length)) = (x :: r).map fun y => y.pad 0 := by
    refine List.map_congr_left fun y hy => ?_
    rw [h y hy, Nat.sub_self]
  simp only [e]
  have hp : ∀ y ∈ x :: r, (y.pad 0).shape = s := fun y hy => by simp [Arr.pad, h y hy]
  have hfold : ∀ l : List (Arr V), (∀ y ∈ l, y.shape = s) → (l.map fun y => y.pad 0).foldlM (fun s q => bcDims s q.shape) s = some s := by
    intro l hl
    induction l with
    | nil => rfl
    | cons y l ih =>
      simp only [List.map_cons, List.foldlM_cons]
      have : (y.pad 0).shape = s := by simp [Arr.pad, hl y (List.mem_cons_self ..)]
      rw [this, bcDims_self]
      exact ih fun z hz => hl z (List.mem_cons_of_mem _ hz)
  simp only [List.map_cons]
  rw [hp x (List.mem_cons_self ..), hfold r fun y hy => h y (List.mem_cons_of_mem _ hy)]
  simp only [Option.map_some, List.map_map, Option.some.injEq, hp x (List.mem_cons_self ..)]
  congr 1
  refine List.map_congr_left fun y hy => ?_
  simp only [Function.comp_apply, hp y (List.mem_cons_of_mem _ hy)]

theorem normAxis_neg {n : ℕ} {z : ℤ} {k : ℕ} (hz : z < 0) (h : normAxis (n + 1) z = some (k + 1)) : normAxis n z = some k ∧ k < n := by
  unfold normAxis at h ⊢
  split at h
  · rename_i hr
    simp only [Option.some.injEq] at h
    have e1 : z % ((n + 1 : ℕ) : ℤ) = z + (n + 1 : ℕ) := by
      rw [← Int.add_emod_right]; exact Int.emod_eq_of_lt (by omega) (by omega)
    rw [e1] at h
    have hn : 0 < n := by omega
    have e2 : z % (n : ℤ) = z + n := by
      rw [← Int.add_emod_right]; exact Int.emod_eq_of_lt (by push_cast at *; omega) (by omega)
    rw [if_pos ⟨by push_cast at *; omega, by omega⟩, e2]
    push_cast at *
    exact ⟨by congr 1; omega, by omega⟩
  · simp at h

open Spec in
/-- **C71, the Concatenate layer, part.** Correct for inputs of equal shapes and a negative axis (other than the batch axis). Missing:
positive axes and inputs of different sizes along the axis, see the violations. -/
theorem C71_concat_layer_partial (z : ℤ) (hz : z < 0) (B : ℕ) (s : List ℕ) (xs : List (Arr V)) (hs : ∀ x ∈ xs, x.shape = B :: s)
    (hax : normAxis (s.length + 1) z ≠ some 0) : PerSampleN (npConcat z) (daConcatLayer z) B xs := by
  intro out h b hb
  cases xs with
  | nil => simp [npConcat] at h
  | cons x r =>
    have hx := hs x (List.mem_cons_self ..)
    simp only [npConcat, hx, List.length_cons] at h
    cases hn : normAxis (s.length + 1) z with
    | none => simp [hn] at h
    | some k =>
      cases k with
      | zero => exact absurd hn hax
      | succ k =>
        simp only [hn] at h
        split at h
        · simp only [Option.some.injEq] at h
          obtain ⟨hn', hks⟩ := normAxis_neg hz hn
          have hsam : ∀ y ∈ (x :: r).map (·.sample b), y.shape = s := by
            intro y hy
            obtain ⟨y', hy', rfl⟩ := List.mem_map.1 hy
            simp [Arr.sample, hs y' hy']
          have hb1 := broadcast_same s (x.sample b) (r.map fun y : Arr V => y.sample b) (by simpa only [List.map_cons] using hsam)
          set f : Arr V → Arr V := fun y => ⟨s, fun idx => (y.pad 0).get (bcastIdx s idx)⟩ with hf
          have hsum : (((x :: r).map (·.sample b)).map f |>.map fun y => y.shape.getD k 0).sum = (r.length + 1) * s.getD k 0 := by
            simp [hf, List.map_map, Function.comp_def, List.map_const']
            ring
          have hsum' : ((x :: r).map fun y => y.shape.getD (k + 1) 0).sum = (r.length + 1) * s.getD k 0 := by
            have : ((x :: r).map fun y => y.shape.getD (k + 1) 0) = (x :: r).map fun _ => s.getD k 0 :=
              List.map_congr_left fun y hy => by rw [hs y hy]; simp
            rw [this, List.map_const']; simp
          have hout : npConcat z (((x :: r).map (·.sample b)).map f) =
              some ⟨s.set k ((r.length + 1) * s.getD k 0), concatGet k (f (x.sample b)) ((r.map (·.sample b)).map f)⟩ := by
            simp only [List.map_cons] at hsum ⊢
            simp only [npConcat, hn', show (f (x.sample b)).shape = s from rfl, List.map_cons]
            rw [if_pos]
            · rw [hsum]
            · intro y hy
              obtain ⟨y', _, rfl⟩ := List.mem_map.1 hy
              exact ⟨rfl, rfl⟩
          refine ⟨⟨s.set k ((r.length + 1) * s.getD k 0), concatGet k (f (x.sample b)) ((r.map (·.sample b)).map f)⟩, ?_, ?_, ?_⟩
          · simp only [daConcatLayer, List.map_cons] at hb1 hout ⊢
            rw [hb1]
            exact hout
          · subst h
            simp only [Arr.sample, hsum', List.set_cons_succ, List.tail_cons]
          · intro idx hidx
            subst h
            simp only [Arr.sample, hsum', List.set_cons_succ, List.tail_cons] at hidx ⊢
            rw [concatGet_sample]
            refine (concatGet_congr k s hks f ?_ _ _ (hsam _ (by simp)) (fun y hy => hsam y (by simp [hy])) idx (by simpa using hidx)).symm
            intro a ha
            refine ⟨rfl, fun idx hi => ?_⟩
            simp [hf, Arr.pad, bcastIdx_eq hi]
        · simp at h

/-- **C71 fails for the Concatenate layer.** Inputs of different sizes along the axis cannot be traced at all unless one of the sizes is 1,
and then the result is too long; and a positive axis is taken one too far, since it counts the batch axis. -/
theorem C71_concat_layer_violated (B m n : ℕ) (x y : Arr V) (b : ℕ) :
    (x.shape = [B, m] → y.shape = [B, n] → m ≠ n → m ≠ 1 → n ≠ 1 →
      (npConcat (-1) [x, y]).map (·.shape) = some [B, m + n] ∧ daConcatLayer (-1) ([x, y].map (·.sample b)) = none) ∧
    (x.shape = [B, 1] → y.shape = [B, n] →
      (npConcat (-1) [x, y]).map (·.shape) = some [B, 1 + n] ∧
      (daConcatLayer (-1) ([x, y].map (·.sample b))).map (·.shape) = some [n + n]) ∧
    (x.shape = [B, m, n] → y.shape = [B, m, n] →
      (npConcat 1 [x, y]).map (·.shape) = some [B, m + m, n] ∧
      (daConcatLayer 1 ([x, y].map (·.sample b))).map (·.shape) = some [m, n + n]) := by
  refine ⟨fun hx hy hmn hm hn => ⟨?_, ?_⟩, fun hx hy => ⟨?_, ?_⟩, fun hx hy => ⟨?_, ?_⟩⟩
  · simp [npConcat, hx, hy, normAxis]
  · simp [daConcatLayer, npBroadcastArrays, Arr.sample, Arr.pad, hx, hy, bcDims, hmn, hm, hn]
  · simp [npConcat, hx, hy, normAxis]
  · by_cases h1 : n = 1
    · subst h1
      simp [daConcatLayer, npBroadcastArrays, Arr.sample, Arr.pad, hx, hy, bcDims, npConcat, normAxis]
    · simp [daConcatLayer, npBroadcastArrays, Arr.sample, Arr.pad, hx, hy, bcDims, npConcat, normAxis, h1, Ne.symm h1]
  · simp [npConcat, hx, hy, normAxis]
  · simp [daConcatLayer, npBroadcastArrays, Arr.sample, Arr.pad, hx, hy, bcDims, npConcat, normAxis]

/-! ### Non-vacuity -/

/-- Two samples of a 2 x 3 array. -/
def exArr : Arr ℚ := ⟨[2, 2, 3], fun idx => idx.getD 0 0 * 100 + idx.getD 1 0 * 10 + idx.getD 2 0⟩

example : exArr.shape ≠ [] ∧ normAxis exArr.shape.length (-1) = some 2 ∧ normAxis exArr.shape.length 1 = some 1 ∧
    ((npConcat (-1) [exArr, exArr]).map (·.shape)) = some [2, 2, 6] ∧ ((npRepeat 2 1 exArr).map (·.shape)) = some [2, 4, 3] ∧
    ((npMoveaxis 1 (-1) exArr).map (·.shape)) = some [2, 3, 2] ∧
    ((npGetItem [.all, .int 1, .slice 0 2 1] exArr).map (·.shape)) = some [2, 2] ∧
    ((kerasReshape [3, 2] exArr).map (·.shape)) = some [2, 3, 2] ∧
    ((kerasMerge (· + ·) [exArr, ⟨[2, 3], fun idx => idx.getD 1 0⟩]).map (·.shape)) = some [2, 2, 3] := by
  refine ⟨by simp [exArr], ?_⟩
  decide +kernel

/-! ## C72: dot products -/

/-- Spec of a dot product of two samples along axis `i` of the first and axis `j` of the second: all other axes are kept, first those of
`x`, then those of `y`, and the product is summed over the common axis. A result without axes is returned with one axis of size 1. -/
structure Spec.IsDot (i j : ℕ) (x y out : Arr ℚ) : Prop where
  scalar : x.shape.length = 1 → y.shape.length = 1 → out.shape = [1]
  shape : x.shape.length ≠ 1 ∨ y.shape.length ≠ 1 → out.shape = x.shape.eraseIdx i ++ y.shape.eraseIdx j
  get : ∀ u u' v v' : List ℕ, u.length = i → u.length + u'.length + 1 = x.shape.length → v.length = j →
    v.length + v'.length + 1 = y.shape.length →
    out.get (if x.shape.length = 1 ∧ y.shape.length = 1 then [0] else u ++ u' ++ (v ++ v')) =
      ((List.range (x.shape.getD i 0)).map fun t => x.get (u ++ t :: u') * y.get (v ++ t :: v')).sum

theorem insertIdx_append (u u' : List ℕ) (t : ℕ) : (u ++ u').insertIdx u.length t = u ++ t :: u' := by
  induction u with
  | nil => cases u' <;> rfl
  | cons a u ih => simp [ih]

theorem tdot_get (x y : Arr ℚ) (u u' v v' : List ℕ) (hx : u.length + u'.length + 1 = x.shape.length) :
    (tdot u.length v.length x y).get (u ++ u' ++ (v ++ v')) =
      ((List.range (x.shape.getD u.length 0)).map fun t => x.get (u ++ t :: u') * y.get (v ++ t :: v')).sum := by
  have hl : x.shape.length - 1 = (u ++ u').length := by simp; omega
  simp only [tdot, hl, List.take_left', List.drop_left', insertIdx_append]

/-- Keras' `Dot` (the reference) satisfies the specification. -/
theorem C72_reference (i j : ℕ) (x y : Arr ℚ) (hi : i < x.shape.length) (hj : j < y.shape.length) :
    Spec.IsDot i j x y (kerasDotSample i j x y) := by
  have hsh : (tdot i j x y).shape = [] ↔ x.shape.length = 1 ∧ y.shape.length = 1 := by
    rw [← List.length_eq_zero_iff]
    simp only [tdot, List.length_append, List.length_eraseIdx_of_lt hi, List.length_eraseIdx_of_lt hj]
    omega
  refine ⟨fun h1 h2 => ?_, fun h => ?_, ?_⟩
  · simp [kerasDotSample, hsh.2 ⟨h1, h2⟩]
  · have : ¬ (tdot i j x y).shape = [] := by rw [hsh]; omega
    simp only [kerasDotSample, if_neg this]
    rfl
  · rintro u u' v v' rfl h2 rfl h4
    by_cases h : x.shape.length = 1 ∧ y.shape.length = 1
    · have e : u = [] ∧ u' = [] ∧ v = [] ∧ v' = [] := by
        refine ⟨?_, ?_, ?_, ?_⟩ <;> apply List.eq_nil_of_length_eq_zero <;> omega
      obtain ⟨rfl, rfl, rfl, rfl⟩ := e
      rw [if_pos h]
      simp only [kerasDotSample, if_pos (hsh.2 h)]
      exact tdot_get x y [] [] [] [] (by simpa using h2)
    · rw [if_neg h]
      simp only [kerasDotSample, if_neg (fun h' => h (hsh.1 h'))]
      exact tdot_get x y u u' v v' h2

/-- **C72, `QDot`/`Dot` traced by the da4ml tracer, part.** Two vectors give their dot product. Missing: all other ranks, see
`C72_da_dot_violated`. -/
theorem C72_da_dot_partial (n : ℕ) (x y : Arr ℚ) (hx : x.shape = [n]) (hy : y.shape = [n]) : Spec.IsDot 0 0 x y (daDot 0 0 x y) := by
  refine ⟨fun _ _ => ?_, fun h => ?_, ?_⟩
  · simp [daDot, tdot, npFirst, Arr.sample, npExpand, hx, hy]
  · simp [hx, hy] at h
  · rintro u u' v v' h1 h2 h3 h4
    simp only [hx, hy, List.length_singleton] at h2 h4
    have e : u = [] ∧ u' = [] ∧ v = [] ∧ v' = [] := by
      refine ⟨?_, ?_, ?_, ?_⟩ <;> apply List.eq_nil_of_length_eq_zero <;> omega
    obtain ⟨rfl, rfl, rfl, rfl⟩ := e
    simp [daDot, tdot, npFirst, Arr.sample, npExpand, hx, hy]

/-- **C72 fails for every other rank in the da4ml tracer.** The batch axes of both inputs are kept, so that the result has an extra axis of
size 1 in the middle. -/
theorem C72_da_dot_violated (i j : ℕ) (x y : Arr ℚ) (hi : i < x.shape.length) (hj : j < y.shape.length)
    (h : x.shape.length ≠ 1 ∨ y.shape.length ≠ 1) :
    (daDot i j x y).shape = x.shape.eraseIdx i ++ 1 :: y.shape.eraseIdx j ∧ ¬ Spec.IsDot i j x y (daDot i j x y) := by
  have e : (daDot i j x y).shape = x.shape.eraseIdx i ++ 1 :: y.shape.eraseIdx j := by
    simp [daDot, tdot, npFirst, Arr.sample, npExpand]
  refine ⟨e, fun hs => ?_⟩
  have := congrArg List.length (hs.shape h)
  rw [e] at this
  simp at this

/-- **C72, `QDot` traced by Alkaid, part.** Correct for all ranks and axes unless both inputs are vectors. -/
theorem C72_alkaid_dot_partial (i j : ℕ) (x y : Arr ℚ) (hi : i < x.shape.length) (hj : j < y.shape.length)
    (h : x.shape.length ≠ 1 ∨ y.shape.length ≠ 1) : Spec.IsDot i j x y (npFirst (alkaidDot i j (npExpand x) (npExpand y))) := by
  refine ⟨fun h1 h2 => by omega, fun _ => ?_, ?_⟩
  · simp [alkaidDot, npFirst, Arr.sample, npExpand]
  · rintro u u' v v' rfl h2 rfl h4
    rw [if_neg (by omega)]
    have hl : x.shape.length = (u ++ u').length + 1 := by simp; omega
    simp only [alkaidDot, npFirst, Arr.sample, npExpand, List.length_cons, Nat.add_sub_cancel, List.getD_cons_succ, List.headD_cons]
    rw [hl]
    simp only [List.take_succ_cons, List.drop_succ_cons, List.take_left', List.drop_left', List.insertIdx_succ_cons, List.tail_cons,
      insertIdx_append]

/-- **C72 fails for two vectors in Alkaid**: the result has no axis, Keras returns one of size 1. -/
theorem C72_alkaid_dot_violated (n : ℕ) (x y : Arr ℚ) (hx : x.shape = [n]) (hy : y.shape = [n]) :
    (npFirst (alkaidDot 0 0 (npExpand x) (npExpand y))).shape = [] ∧
    ¬ Spec.IsDot 0 0 x y (npFirst (alkaidDot 0 0 (npExpand x) (npExpand y))) := by
  have e : (npFirst (alkaidDot 0 0 (npExpand x) (npExpand y))).shape = [] := by
    simp [alkaidDot, npFirst, Arr.sample, npExpand, hx, hy]
  refine ⟨e, fun hs => ?_⟩
  have := hs.scalar (by simp [hx]) (by simp [hy])
  rw [e] at this
  simp at this

/-- A matrix and a vector. -/
example : (npFirst (alkaidDot 1 0 (npExpand ⟨[2, 3], fun idx => idx.getD 0 0 * 10 + idx.getD 1 0⟩)
    (npExpand ⟨[3], fun idx => idx.getD 0 0⟩))).get [1] = 35 := by decide +kernel

/-! ## C73: global pooling -/

/-- Spec: `l` lists every position of the spatial shape `sp` exactly once. -/
def Spec.Positions (sp : List ℕ) (l : List (List ℕ)) : Prop := l.Nodup ∧ ∀ p, p ∈ l ↔ InShape p sp

theorem redIdx_mem (sp : List ℕ) (C c : ℕ) (q : List ℕ) :
    q ∈ redIdx (List.replicate sp.length true ++ [false]) (sp ++ [C]) [c] ↔ ∃ p, InShape p sp ∧ q = p ++ [c] := by
  induction sp generalizing q with
  | nil => simp [redIdx, InShape]
  | cons n sp ih =>
    simp only [List.length_cons, List.replicate_succ, List.cons_append, redIdx, List.mem_flatMap, List.mem_range, List.mem_map, ih]
    constructor
    · rintro ⟨i, hi, q', ⟨p, hp, rfl⟩, rfl⟩
      exact ⟨i :: p, List.Forall₂.cons hi hp, rfl⟩
    · rintro ⟨p, hp, rfl⟩
      cases hp with
      | cons hi hp => exact ⟨_, hi, _, ⟨_, hp, rfl⟩, rfl⟩

theorem redIdx_nodup (sp : List ℕ) (C c : ℕ) : (redIdx (List.replicate sp.length true ++ [false]) (sp ++ [C]) [c]).Nodup := by
  induction sp with
  | nil => simp [redIdx]
  | cons n sp ih =>
    simp only [List.length_cons, List.replicate_succ, List.cons_append, redIdx]
    rw [List.nodup_flatMap]
    refine ⟨fun i _ => ih.map (fun a b h => by simpa using h), ?_⟩
    refine (List.nodup_range (n := n)).imp ?_
    intro i j hij
    simp only [Function.onFun, List.disjoint_left, List.mem_map]
    rintro _ ⟨a, _, rfl⟩ ⟨b, _, h⟩
    exact hij (by simpa using (congrArg List.head? h).symm)

theorem redIdx_perm (sp : List ℕ) (C c : ℕ) (l : List (List ℕ)) (hl : Spec.Positions sp l) :
    (redIdx (List.replicate sp.length true ++ [false]) (sp ++ [C]) [c]).Perm (l.map (· ++ [c])) := by
  rw [List.perm_ext_iff_of_nodup (redIdx_nodup sp C c) (hl.1.map fun a b h => by simpa using h)]
  intro q
  rw [redIdx_mem]
  simp only [List.mem_map, hl.2]
  exact ⟨fun ⟨p, hp, e⟩ => ⟨p, hp, e.symm⟩, fun ⟨p, hp, e⟩ => ⟨p, hp, e.symm⟩⟩

theorem positions_length (sp : List ℕ) (l : List (List ℕ)) (hl : Spec.Positions sp l) : l.length = sp.prod := by
  have h1 := (redIdx_perm sp 1 0 l hl).length_eq
  rw [List.length_map] at h1
  rw [← h1]
  clear h1 hl l
  induction sp with
  | nil => rfl
  | cons n sp ih => simp [List.replicate_succ, redIdx, List.length_flatMap, ih, List.map_const']

theorem redShape_pool (keep : Bool) (sp : List ℕ) (C : ℕ) :
    redShape keep (List.replicate sp.length true ++ [false]) (sp ++ [C]) = (if keep then List.replicate sp.length 1 else []) ++ [C] := by
  induction sp with
  | nil => cases keep <;> rfl
  | cons n sp ih => cases keep <;> simp_all [List.replicate_succ, redShape]

theorem dropKept_pool (keep : Bool) (n c : ℕ) :
    dropKept keep (List.replicate n true ++ [false]) ((if keep then List.replicate n 0 else []) ++ [c]) = [c] := by
  induction n with
  | zero => cases keep <;> rfl
  | succ n ih => cases keep <;> simp_all [List.replicate_succ, dropKept]

theorem foldl_max_spec (l : List ℚ) (v : ℚ) : (∀ x ∈ v :: l, x ≤ l.foldl max v) ∧ l.foldl max v ∈ v :: l := by
  induction l generalizing v with
  | nil => simp
  | cons w l ih =>
    obtain ⟨h1, h2⟩ := ih (max v w)
    simp only [List.foldl_cons]
    constructor
    · intro x hx
      have h0 := h1 (max v w) (by simp)
      simp only [List.mem_cons] at hx h1
      rcases hx with rfl | rfl | hx
      · exact le_trans (le_max_left _ _) h0
      · exact le_trans (le_max_right _ _) h0
      · exact h1 x (Or.inr hx)
    · simp only [List.mem_cons] at h2 ⊢
      rcases h2 with h2 | h2
      · rw [h2]
        rcases max_choice v w with h | h <;> simp [h]
      · exact Or.inr (Or.inr h2)

/-- **C73, global average pooling, channels last.** For every spatial rank and size, the traced layer returns for each channel the mean over
all positions; with `keepdims` the pooled axes stay with size 1. -/
theorem C73_global_avg_partial (keep : Bool) (sp : List ℕ) (C : ℕ) (x : Arr ℚ) (hx : x.shape = sp ++ [C]) (l : List (List ℕ))
    (hl : Spec.Positions sp l) :
    ∃ out, daGlobalPool poolAvg false keep x = some out ∧ out.shape = (if keep then List.replicate sp.length 1 else []) ++ [C] ∧
      ∀ c, out.get ((if keep then List.replicate sp.length 0 else []) ++ [c]) = (l.map fun p => x.get (p ++ [c])).sum / l.length := by
  refine ⟨_, rfl, ?_, fun c => ?_⟩
  · simp only [npReduce, hx, List.length_append, List.length_singleton, Nat.add_sub_cancel]
    exact redShape_pool keep sp C
  · simp only [npReduce, hx, List.length_append, List.length_singleton, Nat.add_sub_cancel, dropKept_pool, List.dropLast_concat]
    rw [poolAvg, positions_length sp l hl]
    congr 1
    have := ((redIdx_perm sp C c l hl).map x.get).sum_eq
    rw [this, List.map_map]
    rfl

/-- **C73, global max pooling, channels last.** The traced layer returns for each channel the largest entry over all positions. -/
theorem C73_global_max_partial (keep : Bool) (sp : List ℕ) (C : ℕ) (x : Arr ℚ) (hx : x.shape = sp ++ [C]) (hpos : ∀ n ∈ sp, 0 < n) :
    ∃ out, daGlobalPool poolMax false keep x = some out ∧ out.shape = (if keep then List.replicate sp.length 1 else []) ++ [C] ∧
      ∀ c, (∀ p, InShape p sp → x.get (p ++ [c]) ≤ out.get ((if keep then List.replicate sp.length 0 else []) ++ [c])) ∧
        ∃ p, InShape p sp ∧ out.get ((if keep then List.replicate sp.length 0 else []) ++ [c]) = x.get (p ++ [c]) := by
  refine ⟨_, rfl, ?_, fun c => ?_⟩
  · simp only [npReduce, hx, List.length_append, List.length_singleton, Nat.add_sub_cancel]
    exact redShape_pool keep sp C
  · simp only [npReduce, hx, List.length_append, List.length_singleton, Nat.add_sub_cancel, dropKept_pool]
    have hne : ∃ p, InShape p sp := by
      clear hx
      induction sp with
      | nil => exact ⟨[], .nil⟩
      | cons n sp ih =>
        obtain ⟨p, hp⟩ := ih fun m hm => hpos m (List.mem_cons_of_mem _ hm)
        exact ⟨0 :: p, .cons (hpos n (List.mem_cons_self ..)) hp⟩
    have hm := redIdx_mem sp C c
    generalize redIdx (List.replicate sp.length true ++ [false]) (sp ++ [C]) [c] = L at hm
    cases L with
    | nil =>
      obtain ⟨p, hp⟩ := hne
      exact absurd ((hm _).2 ⟨p, hp, rfl⟩) (by simp)
    | cons q L =>
      simp only [poolMax, List.map_cons, List.tail_cons, List.headD_cons]
      obtain ⟨h1, h2⟩ := foldl_max_spec (L.map x.get) (x.get q)
      rw [← List.map_cons] at h1 h2
      constructor
      · intro p hp
        exact h1 _ (List.mem_map.2 ⟨_, (hm _).2 ⟨p, hp, rfl⟩, rfl⟩)
      · obtain ⟨q', hq', e⟩ := List.mem_map.1 h2
        obtain ⟨p, hp, rfl⟩ := (hm _).1 hq'
        exact ⟨p, hp, e.symm⟩

/-- **C73 fails for channels first.** Without `keepdims` the replay raises for every input; with `keepdims` it pools the channel axis
and keeps the first spatial axis (a wrong shape already for one- and two-dimensional data). -/
theorem C73_channels_first_violated (red : ℕ → List ℚ → ℚ) (x : Arr ℚ) :
    (2 ≤ x.shape.length → daGlobalPool red true false x = none) ∧
    (∀ C n, x.shape = [C, n] → (daGlobalPool red true true x).map (·.shape) = some [1, n]) ∧
    (∀ C h w, x.shape = [C, h, w] → (daGlobalPool red true true x).map (·.shape) = some [1, h, 1]) := by
  refine ⟨fun hx => ?_, fun C n hx => ?_, fun C h w hx => ?_⟩
  · simp only [daGlobalPool, if_true]
    cases hm : npMoveaxis 1 (-1) x with
    | none => rfl
    | some y =>
      simp only [Option.bind_eq_bind, Option.bind_some]
      have hy : y.shape ≠ [] := by
        unfold npMoveaxis at hm
        split at hm
        · unfold npTranspose at hm
          split at hm
          · rename_i hp
            simp only [Option.some.injEq] at hm
            subst hm
            have := hp.length_eq
            rw [List.length_range] at this
            intro h0
            have h1 := congrArg List.length h0
            simp only [List.length_map, List.length_nil] at h1
            omega
          · simp at hm
        · simp at hm
      obtain ⟨sp, C, rfl'⟩ : ∃ sp C, y.shape = sp ++ [C] := ⟨y.shape.dropLast, y.shape.getLast hy, (List.dropLast_append_getLast hy).symm⟩
      simp [npMoveaxis, npReduce, rfl', redShape_pool, normAxis]
  · simp [daGlobalPool, npMoveaxis, npReduce, hx, normAxis, npTranspose, moveOrder, redShape, List.range_succ, List.erase_cons]
  · have hp : ([2, 1] : List ℕ).Perm [1, 2] := List.Perm.swap _ _ _
    simp [daGlobalPool, npMoveaxis, npReduce, hx, normAxis, npTranspose, moveOrder, redShape, List.range_succ, List.erase_cons, hp]

/-- 2 x 2 positions, one channel: the mean of 0, 1, 10, 11. -/
example : ((daGlobalPool poolAvg false true ⟨[2, 2, 1], fun idx => idx.getD 0 0 * 10 + idx.getD 1 0⟩).map (·.get [0, 0, 0])) =
    some (11 / 2) := by decide +kernel

example : Spec.Positions [2, 2] [[0, 0], [0, 1], [1, 0], [1, 1]] := by
  refine ⟨by decide, fun p => ⟨fun h => ?_, fun h => ?_⟩⟩
  · simp only [List.mem_cons, List.not_mem_nil, or_false] at h
    rcases h with rfl | rfl | rfl | rfl <;> simp [InShape]
  · cases h with
    | cons h1 h =>
      cases h with
      | cons h2 h =>
        cases h
        rename_i a b
        have ha : a = 0 ∨ a = 1 := by omega
        have hb : b = 0 ∨ b = 1 := by omega
        rcases ha with rfl | rfl <;> rcases hb with rfl | rfl <;> simp

end HGQ
