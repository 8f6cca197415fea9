import Verif.Model.ReplayOps
import Mathlib.Tactic

/-!
# C71 (structural operations and merges act per sample), C72 (dot products), C73 (global pooling)
-/
namespace HGQ
variable {V : Type}

/-- Spec: tracing agrees with the Keras operation on one array: whenever Keras computes `out` from the batch `a`, the replay of each sample
gives that sample of `out`. -/
def Spec.PerSample (keras replay : Arr V → Option (Arr V)) (a : Arr V) : Prop :=
  ∀ out, keras a = some out → ∀ b < a.shape.headD 0, ∃ r, replay (a.sample b) = some r ∧ (out.sample b).Same r

/-- The same for operations with several inputs, of common batch size `B`. -/
def Spec.PerSampleN (keras replay : List (Arr V) → Option (Arr V)) (B : ℕ) (xs : List (Arr V)) : Prop :=
  ∀ out, keras xs = some out → ∀ b < B, ∃ r, replay (xs.map (·.sample b)) = some r ∧ (out.sample b).Same r

theorem Arr.Same.refl (a : Arr V) : a.Same a := ⟨rfl, fun _ _ => rfl⟩

theorem sample_expand (x : Arr V) (b : ℕ) : (npExpand x).sample b = x := rfl

theorem expand_sample_length (a : Arr V) (b : ℕ) (h : a.shape ≠ []) :
    (npExpand (a.sample b)).shape.length = a.shape.length := by
  cases hs : a.shape with
  | nil => exact absurd hs h
  | cons n s => simp [npExpand, Arr.sample, hs]

/-! ### Concatenation -/

theorem concatGet_sample (k : ℕ) (x : Arr V) (r : List (Arr V)) (b : ℕ) (idx : List ℕ) :
    concatGet (k + 1) x r (b :: idx) = concatGet k (x.sample b) (r.map (·.sample b)) idx := by
  induction r generalizing x idx with
  | nil => rfl
  | cons y r ih =>
    have e : x.shape.getD (k + 1) 0 = (x.sample b).shape.getD k 0 := by
      cases hs : x.shape <;> simp [Arr.sample, hs]
    simp only [concatGet, List.map_cons, List.getD_cons_succ, e]
    split
    · rfl
    · rw [List.modify_succ_cons]; exact ih _ _

theorem npConcat_sample (z : ℤ) (xs : List (Arr V)) (hne : ∀ x ∈ xs, x.shape ≠ []) (out : Arr V) (h : npConcat z xs = some out)
    (hz : ∀ x ∈ xs.head?, normAxis x.shape.length z ≠ some 0) (b : ℕ) :
    ∃ out', npConcat z (xs.map fun x => npExpand (x.sample b)) = some out' ∧ out'.sample 0 = out.sample b := by
  cases xs with
  | nil => simp [npConcat] at h
  | cons x r =>
    have hx := hne x (List.mem_cons_self ..)
    simp only [npConcat] at h
    cases ha : normAxis x.shape.length z with
    | none => simp [ha] at h
    | some k =>
      cases k with
      | zero => exact absurd ha (hz x (by simp))
      | succ k =>
        simp only [ha] at h
        split at h
        · rename_i hall
          simp only [Option.some.injEq] at h
          subst h
          simp only [List.map_cons, npConcat, expand_sample_length x b hx, ha]
          have e : ∀ y : Arr V, y.shape ≠ [] → y.shape.eraseIdx (k + 1) = (y.shape.headD 0) :: y.shape.tail.eraseIdx k := by
            intro y hy
            cases hs : y.shape with
            | nil => exact absurd hs hy
            | cons n s => simp
          rw [if_pos]
          · refine ⟨_, rfl, ?_⟩
            have hg : ∀ y : Arr V, (npExpand (y.sample b)).shape.getD (k + 1) 0 = y.shape.getD (k + 1) 0 := by
              intro y; cases hs : y.shape <;> simp [npExpand, Arr.sample, hs]
            simp only [Arr.sample, List.map_cons, List.map_map, Function.comp_def, hg]
            congr 1
            · cases hs : x.shape with
              | nil => exact absurd hs hx
              | cons n s => simp [npExpand]
            · funext idx
              have h1 := concatGet_sample k (npExpand (x.sample b)) (r.map fun y => npExpand (y.sample b)) 0 idx
              have h2 := concatGet_sample k x r b idx
              simp only [List.map_map, Function.comp_def, sample_expand] at h1
              simp only [Arr.sample] at h1 h2
              rw [h2]
              exact h1
          · intro y hy
            obtain ⟨y', hy', rfl⟩ := List.mem_map.1 hy
            have := hall y' hy'
            have hy0 := hne y' (List.mem_cons_of_mem _ hy')
            refine ⟨by rw [expand_sample_length y' b hy0]; exact this.1, ?_⟩
            have h3 := this.2
            rw [e x hx, e y' hy0] at h3
            injection h3 with h4 h5
            simp [npExpand, Arr.sample, h5]
        · simp at h

/-! ### The theorems for `f(x[None])[0]` -/

open Spec in
/-- **C71, concatenation operation.** For every list of inputs and every axis other than the batch axis. -/
theorem C71_concat_op (z : ℤ) (B : ℕ) (xs : List (Arr V)) (hne : ∀ x ∈ xs, x.shape ≠ [])
    (hz : ∀ x ∈ xs.head?, normAxis x.shape.length z ≠ some 0) : PerSampleN (npConcat z) (daConcatOp z) B xs := by
  intro out h b _
  obtain ⟨o, h1, h2⟩ := npConcat_sample z xs hne out h hz b
  refine ⟨npFirst o, ?_, ?_⟩
  · simp only [daConcatOp, List.map_map, Function.comp_def]
    rw [h1]; rfl
  · rw [npFirst, h2]; exact .refl _

open Spec in
/-- **C71, repetition.** For every count and every axis other than the batch axis. -/
theorem C71_repeat (n : ℕ) (z : ℤ) (a : Arr V) (hne : a.shape ≠ []) (hz : normAxis a.shape.length z ≠ some 0) :
    PerSample (npRepeat n z) (daRepeat n z) a := by
  intro out h b _
  unfold npRepeat at h
  cases ha : normAxis a.shape.length z with
  | none => simp [ha] at h
  | some k =>
    cases k with
    | zero => exact absurd ha hz
    | succ k =>
      simp only [ha, Option.some.injEq] at h
      subst h
      refine ⟨(⟨a.shape.modify (k + 1) (· * n), fun idx => a.get (idx.modify (k + 1) (· / n))⟩ : Arr V).sample b, ?_, .refl _⟩
      simp only [daRepeat, npRepeat, expand_sample_length a b hne, ha, Option.map_some]
      simp only [npFirst, Arr.sample, npExpand, Option.some.injEq, List.modify_succ_cons, List.tail_cons]
      congr 1
      cases hs : a.shape with
      | nil => exact absurd hs hne
      | cons m s => simp

/-- Permutations that keep the first axis. -/
theorem perm_cons_zero {p : List ℕ} {n : ℕ} (hp : p.Perm (List.range (n + 1))) (h0 : p.head? = some 0) :
    ∃ q : List ℕ, p = 0 :: q.map (· + 1) ∧ q.Perm (List.range n) := by
  cases p with
  | nil => simp at h0
  | cons a p =>
    simp only [List.head?_cons, Option.some.injEq] at h0
    subst h0
    rw [List.range_succ_eq_map] at hp
    have hp' := (List.perm_cons 0).1 hp
    refine ⟨p.map (· - 1), ?_, ?_⟩
    · congr 1
      rw [List.map_map]
      conv_lhs => rw [← List.map_id p]
      refine List.map_congr_left fun x hx => ?_
      have := (hp'.mem_iff).1 hx
      obtain ⟨y, _, rfl⟩ := List.mem_map.1 this
      simp
    · have := hp'.map (· - 1)
      simpa [List.map_map, Function.comp_def] using this

theorem idxOf_map_succ (q : List ℕ) (j : ℕ) : (q.map (· + 1)).idxOf (j + 1) = q.idxOf j := by
  induction q with
  | nil => rfl
  | cons a q ih =>
    simp only [List.map_cons, List.idxOf_cons]
    by_cases h : a = j
    · subst h; simp
    · have : ¬ (a + 1 == j + 1) = true := by simp [h]
      have h2 : ¬ (a == j) = true := by simpa using h
      simp [h, ih]

theorem npTranspose_sample (p : List ℕ) (h0 : p.head? = some 0) (a : Arr V) (hne : a.shape ≠ []) (out : Arr V)
    (h : npTranspose p a = some out) (b : ℕ) :
    ∃ out', npTranspose p (npExpand (a.sample b)) = some out' ∧ out'.sample 0 = out.sample b := by
  unfold npTranspose at h
  split at h
  · rename_i hp
    simp only [Option.some.injEq] at h
    subst h
    obtain ⟨m, s, hs⟩ : ∃ m s, a.shape = m :: s := by
      cases hs : a.shape with
      | nil => exact absurd hs hne
      | cons m s => exact ⟨m, s, rfl⟩
    have hl := expand_sample_length a b hne
    have hlen : a.shape.length = s.length + 1 := by simp [hs]
    rw [hlen] at hp
    obtain ⟨q, rfl, hq⟩ := perm_cons_zero hp h0
    unfold npTranspose
    rw [if_pos (by rw [hl, hlen]; exact hp)]
    refine ⟨_, rfl, ?_⟩
    simp only [Arr.sample]
    congr 1
    · simp [hs, npExpand]
    · funext idx
      have hl2 : (1 :: a.shape.tail).length = s.length + 1 := by simp [hs]
      simp only [hlen, hl2, npExpand, Arr.sample, List.range_succ_eq_map, List.map_cons, List.idxOf_cons_self, List.getD_cons_zero,
        List.map_map, List.tail_cons, Function.comp_def]
      congr 2
      refine List.map_congr_left fun j _ => ?_
      have e : List.idxOf (Nat.succ j) (0 :: q.map (· + 1)) = q.idxOf j + 1 := by
        rw [List.idxOf_cons_ne _ (by simp)]
        rw [Nat.succ_eq_add_one, idxOf_map_succ]
      rw [e, List.getD_cons_succ, List.getD_cons_succ]
  · simp at h

open Spec in
/-- **C71, moving an axis.** For all source and destination axes other than the batch axis. -/
theorem C71_moveaxis (s d : ℤ) (a : Arr V) (hne : a.shape ≠ []) (hs : normAxis a.shape.length s ≠ some 0)
    (hd : normAxis a.shape.length d ≠ some 0) : PerSample (npMoveaxis s d) (daMoveaxis s d) a := by
  intro out h b _
  unfold npMoveaxis at h
  cases h1 : normAxis a.shape.length s with
  | none => simp [h1] at h
  | some s' =>
    cases h2 : normAxis a.shape.length d with
    | none => simp [h1, h2] at h
    | some d' =>
      simp only [h1, h2] at h
      have hs0 : s' ≠ 0 := fun h => hs (by rw [h1, h])
      have hd0 : d' ≠ 0 := fun h => hd (by rw [h2, h])
      have h0 : (moveOrder a.shape.length s' d').head? = some 0 := by
        obtain ⟨d'', rfl⟩ := Nat.exists_eq_succ_of_ne_zero hd0
        obtain ⟨s'', rfl⟩ := Nat.exists_eq_succ_of_ne_zero hs0
        obtain ⟨n, hn⟩ : ∃ n, a.shape.length = n + 1 := Nat.exists_eq_succ_of_ne_zero (by simpa using hne)
        rw [hn]
        simp [moveOrder, List.range_succ_eq_map, List.erase_cons]
      obtain ⟨o, h3, h4⟩ := npTranspose_sample _ h0 a hne out h b
      refine ⟨npFirst o, ?_, ?_⟩
      · simp only [daMoveaxis, npMoveaxis, expand_sample_length a b hne, h1, h2, h3, Option.map_some]
      · rw [npFirst, h4]; exact .refl _

open Spec in
/-- **C71, subscripts.** For every subscript that keeps the whole batch axis. -/
theorem C71_getitem (ks : List IdxKey) (a : Arr V) (hne : a.shape ≠ []) : PerSample (npGetItem (.all :: ks)) (daGetItem (.all :: ks)) a := by
  intro out h b _
  cases hs : a.shape with
  | nil => exact absurd hs hne
  | cons n s =>
    simp only [npGetItem, hs, keyShape, Option.map_map] at h
    cases hk : keyShape ks s with
    | none => simp [hk] at h
    | some t =>
      simp only [hk, Option.map_some, Option.some.injEq, Function.comp_apply] at h
      subst h
      refine ⟨npFirst ⟨1 :: t, fun idx => a.get (b :: (keyIdx (.all :: ks) idx).tail)⟩, ?_, ?_⟩
      · simp [daGetItem, npGetItem, npExpand, Arr.sample, hs, keyShape, hk]
      · refine ⟨rfl, fun idx _ => ?_⟩
        simp [npFirst, Arr.sample, keyIdx]

/-- **C71, QSum and QMeanPow2.** For all axes other than the batch axis (`fl` has one flag per further axis), with and without
`keepdims`. -/
theorem C71_qsum (keep : Bool) (fl : List Bool) (scale : ℚ) (a : Arr ℚ) (hne : a.shape ≠ []) (b : ℕ) :
    ((qSum keep (false :: fl) scale a).sample b).Same (daQSum keep (false :: fl) scale (a.sample b)) := by
  obtain ⟨m, s, hs⟩ : ∃ m s, a.shape = m :: s := by
    cases hs : a.shape with
    | nil => exact absurd hs hne
    | cons m s => exact ⟨m, s, rfl⟩
  refine ⟨?_, fun idx _ => ?_⟩
  · simp [qSum, daQSum, npReduce, npFirst, npExpand, Arr.sample, hs, redShape]
  · simp [qSum, daQSum, npReduce, npFirst, npExpand, Arr.sample, hs, dropKept, redIdx, List.map_map, Function.comp_def]

/-! ### Reshape -/

theorem flat_lt (sh idx : List ℕ) (h : InShape idx sh) : flat sh idx < sh.prod := by
  induction h with
  | nil => simp [flat]
  | @cons i n idx sh hi _ ih =>
    simp only [flat, List.prod_cons]
    calc i * sh.prod + flat sh idx < i * sh.prod + sh.prod := by omega
      _ = (i + 1) * sh.prod := by ring
      _ ≤ n * sh.prod := Nat.mul_le_mul_right _ hi

open Spec in
/-- **C71, reshape and flatten.** For every target shape. -/
theorem C71_reshape (t : List ℕ) (a : Arr V) (hne : a.shape ≠ []) :
    PerSample (kerasReshape t) (daReshape t) a ∧ PerSample (kerasReshape [a.shape.tail.prod]) daFlatten a := by
  obtain ⟨m, s, hs⟩ : ∃ m s, a.shape = m :: s := by
    cases hs : a.shape with
    | nil => exact absurd hs hne
    | cons m s => exact ⟨m, s, rfl⟩
  have key : ∀ t, PerSample (kerasReshape t) (npReshape t) a := by
    intro t out h b hb
    rw [hs, List.headD_cons] at hb
    have hm : 0 < m := by omega
    unfold kerasReshape npReshape at h
    split at h
    · rename_i hp
      simp only [Option.some.injEq] at h
      subst h
      rw [hs] at hp
      simp only [List.headD_cons, List.prod_cons] at hp
      have hp' : t.prod = s.prod := Nat.eq_of_mul_eq_mul_left hm hp
      refine ⟨⟨t, fun idx => (a.sample b).get (unflat s (flat t idx))⟩, ?_, rfl, ?_⟩
      · simp [npReshape, Arr.sample, hs, hp']
      · intro idx hidx
        simp only [Arr.sample, hs, List.tail_cons, flat, unflat] at hidx ⊢
        have hlt := flat_lt t idx hidx
        rw [hp'] at hlt ⊢
        have e1 : (b * s.prod + flat t idx) / s.prod = b := by
          rw [Nat.add_comm, Nat.add_mul_div_right _ _ (by omega), Nat.div_eq_of_lt hlt, zero_add]
        have e2 : (b * s.prod + flat t idx) % s.prod = flat t idx := by
          rw [Nat.add_comm, Nat.add_mul_mod_self_right, Nat.mod_eq_of_lt hlt]
        simp only [List.headD_cons, e1, e2]
    · simp at h
  refine ⟨key t, ?_⟩
  intro out h b hb
  obtain ⟨r, h1, h2⟩ := key _ out h b hb
  exact ⟨r, h1, h2⟩

/-! ### Merges -/

theorem bcastIdx_eq {sh idx : List ℕ} (h : InShape idx sh) : bcastIdx sh idx = idx := by
  induction h with
  | nil => rfl
  | @cons i n idx sh hi _ ih =>
    simp only [bcastIdx, List.zipWith_cons_cons] at ih ⊢
    rw [ih]
    congr 1
    split <;> omega

theorem bcastIdx_bcast {s t u idx : List ℕ} (h : bcDims s t = some u) :
    bcastIdx s (bcastIdx u idx) = bcastIdx s idx ∧ bcastIdx t (bcastIdx u idx) = bcastIdx t idx := by
  induction s generalizing t u idx with
  | nil =>
    cases t with
    | nil => simp only [bcDims, Option.some.injEq] at h; subst h; simp [bcastIdx]
    | cons m t => simp [bcDims] at h
  | cons n s ih =>
    cases t with
    | nil => simp [bcDims] at h
    | cons m t =>
      cases idx with
      | nil => simp [bcastIdx]
      | cons i idx =>
        simp only [bcDims] at h
        split at h
        · rename_i hnm
          cases hu : bcDims s t with
          | none => simp [hu] at h
          | some u' =>
            simp only [hu, Option.map_some, Option.some.injEq] at h
            subst h
            have := ih hu (idx := idx)
            simp only [bcastIdx, List.zipWith_cons_cons] at this ⊢
            rw [this.1, this.2]
            constructor
            · congr 1; split <;> simp
            · congr 1
              rcases hnm with rfl | rfl
              · split <;> simp
              · simp
        · split at h
          · rename_i h1 h2
            cases hu : bcDims s t with
            | none => simp [hu] at h
            | some u' =>
              simp only [hu, Option.map_some, Option.some.injEq] at h
              subst h
              have := ih hu (idx := idx)
              simp only [bcastIdx, List.zipWith_cons_cons] at this ⊢
              rw [this.1, this.2]
              subst h2
              constructor
              · simp
              · congr 1; split <;> simp
          · simp at h

/-- The fold of binary operations computes, entry by entry, the fold of the broadcast entries. -/
theorem foldl_npBin (op : V → V → V) (p : Arr V) (r : List (Arr V)) (out : Arr V) (h : r.foldlM (npBin op) p = some out) :
    r.foldlM (fun s q => bcDims s q.shape) p.shape = some out.shape ∧
    ∀ idx, out.get (bcastIdx out.shape idx) = r.foldl (fun v q => op v (q.get (bcastIdx q.shape idx))) (p.get (bcastIdx p.shape idx)) := by
  induction r generalizing p with
  | nil =>
    simp only [List.foldlM_nil, pure, Option.some.injEq] at h
    subst h
    exact ⟨rfl, fun _ => rfl⟩
  | cons q r ih =>
    simp only [List.foldlM_cons] at h
    cases hb : bcDims p.shape q.shape with
    | none => simp [npBin, hb] at h
    | some u =>
      have hpb : npBin op p q = some ⟨u, fun idx => op (p.get (bcastIdx p.shape idx)) (q.get (bcastIdx q.shape idx))⟩ := by
        simp [npBin, hb]
      rw [hpb] at h
      obtain ⟨h1, h2⟩ := ih _ h
      refine ⟨?_, fun idx => ?_⟩
      · simp only [List.foldlM_cons, hb]
        exact h1
      · rw [h2 idx, List.foldl_cons]
        simp only [(bcastIdx_bcast hb (idx := idx)).1, (bcastIdx_bcast hb (idx := idx)).2]

theorem bcDims_cons {B : ℕ} {s t u : List ℕ} (h : bcDims (B :: s) (B :: t) = some u) : ∃ u', u = B :: u' ∧ bcDims s t = some u' := by
  simp only [bcDims, true_or, if_true] at h
  cases hu : bcDims s t with
  | none => simp [hu] at h
  | some u' => simp only [hu, Option.map_some, Option.some.injEq] at h; exact ⟨u', h.symm, rfl⟩

theorem foldlM_bcDims_cons {B : ℕ} (r : List (List ℕ)) (s u : List ℕ)
    (h : (r.map (B :: ·)).foldlM bcDims (B :: s) = some u) : ∃ u', u = B :: u' ∧ r.foldlM bcDims s = some u' := by
  induction r generalizing s with
  | nil => simp only [List.map_nil, List.foldlM_nil, pure, Option.some.injEq] at h; exact ⟨s, h.symm, rfl⟩
  | cons t r ih =>
    simp only [List.map_cons, List.foldlM_cons] at h ⊢
    cases hb : bcDims (B :: s) (B :: t) with
    | none => simp [hb] at h
    | some v =>
      obtain ⟨v', rfl, hv'⟩ := bcDims_cons hb
      rw [hb] at h
      obtain ⟨u', h1, h2⟩ := ih v' h
      exact ⟨u', h1, by rw [hv']; exact h2⟩

theorem foldlM_shape (r : List (Arr V)) (s : List ℕ) :
    r.foldlM (fun s q => bcDims s q.shape) s = (r.map (·.shape)).foldlM bcDims s := by
  induction r generalizing s with
  | nil => rfl
  | cons q r ih => simp only [List.map_cons, List.foldlM_cons]; congr 1; funext x; exact ih x

theorem maxRank_sample (xs : List (Arr V)) (b : ℕ) (hne : ∀ x ∈ xs, x.shape ≠ []) (m : ℕ) :
    (xs.map fun x => x.shape.length).foldl max (m + 1) = ((xs.map (·.sample b)).map fun x => x.shape.length).foldl max m + 1 := by
  induction xs generalizing m with
  | nil => rfl
  | cons x xs ih =>
    have hx := hne x (List.mem_cons_self ..)
    have : x.shape.length = (x.sample b).shape.length + 1 := by
      cases hs : x.shape with
      | nil => exact absurd hs hx
      | cons n s => simp [Arr.sample, hs]
    simp only [List.map_cons, List.foldl_cons]
    rw [this, Nat.add_max_add_right]
    exact ih (fun y hy => hne y (List.mem_cons_of_mem _ hy)) _

open Spec in
/-- **C71, merging layers** (Add, Multiply, Maximum, Minimum and their quantized versions): for every number of inputs, all shapes (ranks
may differ, broadcasting included) and every reduction that agrees with the binary operation. -/
theorem C71_merge (op : V → V → V) (red : List V → V) (B : ℕ) (xs : List (Arr V))
    (hred : ∀ v l, l.length + 1 = xs.length → red (v :: l) = l.foldl op v)
    (hB : ∀ x ∈ xs, ∃ s, x.shape = B :: s) : PerSampleN (kerasMerge op) (daMerge red) B xs := by
  intro out h b hb
  cases xs with
  | nil => simp [kerasMerge] at h
  | cons x r =>
    have hne : ∀ y ∈ x :: r, y.shape ≠ [] := fun y hy => by obtain ⟨s, hs⟩ := hB y hy; simp [hs]
    -- ranks
    set R := ((x :: r).map fun y => y.shape.length).foldl max 0 with hR
    set R' := (((x :: r).map (·.sample b)).map fun y => y.shape.length).foldl max 0 with hR'
    have hRR : R = R' + 1 := by
      have h1 := maxRank_sample (x :: r) b hne 0
      rw [show R' + 1 = _ from h1.symm, hR]
      simp only [List.map_cons, List.foldl_cons]
      congr 1
      have := hne x (List.mem_cons_self ..)
      have : 0 < x.shape.length := List.length_pos_of_ne_nil this
      omega
    have hpad : ∀ y ∈ x :: r, ∃ s, (y.padBatch (R - y.shape.length)).shape = B :: s ∧
        (y.padBatch (R - y.shape.length)).sample b = (y.sample b).pad (R' - (y.sample b).shape.length) := by
      intro y hy
      obtain ⟨s, hs⟩ := hB y hy
      refine ⟨List.replicate (R - y.shape.length) 1 ++ y.shape.tail, by simp only [Arr.padBatch, hs, List.headD_cons], ?_⟩
      have e : R - y.shape.length = R' - (y.sample b).shape.length := by simp [Arr.sample, hs, hRR]
      rw [e]
      simp [Arr.padBatch, Arr.sample, Arr.pad, hs]
    simp only [kerasMerge] at h
    rw [← hR] at h
    simp only [List.map_cons] at h
    obtain ⟨h1, h2⟩ := foldl_npBin op _ _ out h
    -- shapes
    have hshape : ∃ u', out.shape = B :: u' ∧
        ((r.map fun y => (y.sample b).pad (R' - (y.sample b).shape.length)).map (·.shape)).foldlM bcDims
          ((x.sample b).pad (R' - (x.sample b).shape.length)).shape = some u' := by
      rw [foldlM_shape] at h1
      obtain ⟨sx, hsx, hsx'⟩ := hpad x (List.mem_cons_self ..)
      have e1 : ((x.sample b).pad (R' - (x.sample b).shape.length)).shape = sx := by rw [← hsx']; simp [Arr.sample, hsx]
      have e2 : (r.map fun y => y.padBatch (R - y.shape.length)).map (·.shape) =
          ((r.map fun y => (y.sample b).pad (R' - (y.sample b).shape.length)).map (·.shape)).map (B :: ·) := by
        simp only [List.map_map]
        refine List.map_congr_left fun y hy => ?_
        obtain ⟨s, hs, hs'⟩ := hpad y (List.mem_cons_of_mem _ hy)
        simp only [Function.comp_apply, hs, ← hs']
        simp [Arr.sample, hs]
      rw [hsx, e2] at h1
      obtain ⟨u', hu, hu'⟩ := foldlM_bcDims_cons _ _ _ h1
      exact ⟨u', hu, by rw [e1]; exact hu'⟩
    obtain ⟨u', hu, hu'⟩ := hshape
    refine ⟨⟨u', fun idx => red (((x :: r).map (·.sample b)).map fun y =>
      (y.pad (R' - y.shape.length)).get (bcastIdx (y.pad (R' - y.shape.length)).shape idx))⟩, ?_, ?_, ?_⟩
    · rw [← foldlM_shape] at hu'
      simp only [daMerge, npBroadcastArrays]
      rw [← hR']
      simp only [List.map_cons, List.map_map, Function.comp_def] at hu' ⊢
      simp only [hu', Option.map_some, List.headD_cons, List.map_cons, List.map_map, Function.comp_def]
    · simp [Arr.sample, hu]
    · intro idx hidx
      have hidx' : InShape (b :: idx) out.shape := by
        rw [hu]
        have h' : InShape idx u' := by simpa [Arr.sample, hu] using hidx
        exact List.Forall₂.cons hb h'
      have h3 := h2 (b :: idx)
      rw [bcastIdx_eq hidx'] at h3
      show out.get (b :: idx) = _
      rw [h3]
      simp only [List.map_cons]
      rw [hred _ _ (by simp)]
      clear hred
      have hget : ∀ y ∈ x :: r, (y.padBatch (R - y.shape.length)).get (bcastIdx (y.padBatch (R - y.shape.length)).shape (b :: idx)) =
          ((y.sample b).pad (R' - (y.sample b).shape.length)).get
            (bcastIdx ((y.sample b).pad (R' - (y.sample b).shape.length)).shape idx) := by
        intro y hy
        obtain ⟨s, hs, hs'⟩ := hpad y hy
        rw [← hs']
        simp only [Arr.sample, hs, List.tail_cons]
        simp only [bcastIdx, List.zipWith_cons_cons]
        congr 2
        split <;> omega
      rw [hget x (List.mem_cons_self ..)]
      have hr : ∀ y ∈ r, _ := fun y hy => hget y (List.mem_cons_of_mem _ hy)
      clear h h1 h2 h3 hu hu' hpad hB hne hidx hidx' hRR hget
      clear_value R R'
      clear hR hR'
      generalize ((x.sample b).pad (R' - (x.sample b).shape.length)).get _ = v
      induction r generalizing v with
      | nil => rfl
      | cons y r ih =>
        simp only [List.map_cons, List.foldl_cons]
        rw [hr y (List.mem_cons_self ..)]
        exact ih (fun z hz => hr z (List.mem_cons_of_mem _ hz)) _

/-- `QAdd`/`Add`, `QMultiply`, `QMaximum`, `QMinimum`: the reductions of ops.py L70-83 agree with Keras' binary operations for any number of
inputs, `QSubtract` (L74-76) for two. -/
theorem C71_merge_ops (B : ℕ) (xs : List (Arr ℚ)) (hB : ∀ x ∈ xs, ∃ s, x.shape = B :: s) :
    Spec.PerSampleN (kerasMerge (· + ·)) (daMerge List.sum) B xs ∧
    Spec.PerSampleN (kerasMerge (· * ·)) (daMerge List.prod) B xs ∧
    Spec.PerSampleN (kerasMerge max) (daMerge (poolMax xs.length)) B xs ∧
    Spec.PerSampleN (kerasMerge min) (daMerge fun l => l.tail.foldl min (l.headD 0)) B xs ∧
    (xs.length = 2 → Spec.PerSampleN (kerasMerge (· - ·)) (daMerge fun l => l.getD 0 0 - l.getD 1 0) B xs) := by
  refine ⟨C71_merge _ _ _ _ ?_ hB, C71_merge _ _ _ _ ?_ hB, C71_merge _ _ _ _ ?_ hB, C71_merge _ _ _ _ ?_ hB,
    fun h2 => C71_merge _ _ _ _ ?_ hB⟩
  · intro v l _
    rw [List.sum_eq_foldl, List.foldl_cons, zero_add]
  · intro v l _
    rw [List.prod_eq_foldl, List.foldl_cons, one_mul]
  · intro v l _; simp [poolMax]
  · intro v l _; simp
  · intro v l hl
    rw [h2] at hl
    obtain ⟨w, rfl⟩ := List.length_eq_one_iff.1 (by omega : l.length = 1)
    simp

end HGQ
