import Verif.Model.KerasOps
import Verif.Props.ReplayOps
import Verif.Props.EndToEnd

/-!
# C106: arithmetic, reductions, matrix products and reshapes of tensors are traced sample by sample
-/
namespace HGQ
open Spec

/-- An argument of an operation: a tensor of the model (with batch axis) or a constant. -/
inductive Spec.OpArg | tensor (x : Arr ℚ) | const (c : Arr ℚ)

/-- What Keras gets. -/
def Spec.OpArg.batch : OpArg → Arr ℚ
  | .tensor x => x
  | .const c => c

/-- What the tracer gets for sample `b`. -/
def Spec.OpArg.at : OpArg → ℕ → Arr ℚ
  | .tensor x, b => x.sample b
  | .const c, _ => c

/-- Sample `b` of what Keras computes for a batch of `B` is what the tracer computes for sample `b`. -/
def Spec.Traced2 (B : ℕ) (keras replay : Arr ℚ → Arr ℚ → Option (Arr ℚ)) (o1 o2 : OpArg) : Prop :=
  ∀ out, keras o1.batch o2.batch = some out → IsBatch B out ∧ ∀ b < B, ∃ r, replay (o1.at b) (o2.at b) = some r ∧ (out.sample b).Same r

/-- The operand fits operations on samples of rank `R`: a batch of `B` samples of rank `R`, or a constant of rank at most `R`. -/
def Spec.FitsRank (B R : ℕ) : OpArg → Prop
  | .tensor x => ∃ s, x.shape = B :: s ∧ s.length = R
  | .const c => c.shape.length ≤ R

/-- At least one operand is a tensor. -/
def Spec.someTensor : OpArg → OpArg → Prop
  | .const _, .const _ => False
  | _, _ => True

/-! ## Arithmetic -/

theorem bcDims_heads {n m B : ℕ} {s t u : List ℕ} (hn : n = B ∨ n = 1) (hm : m = B ∨ m = 1) (hB : n = B ∨ m = B)
    (h : bcDims (n :: s) (m :: t) = some u) : ∃ u', u = B :: u' ∧ bcDims s t = some u' := by
  simp only [bcDims] at h
  split at h
  · rename_i hc
    obtain ⟨u', hu, rfl⟩ := Option.map_eq_some_iff.1 h
    refine ⟨u', ?_, hu⟩
    rcases hn with rfl | rfl
    · rfl
    · rcases hB with rfl | rfl
      · rfl
      · rcases hc with rfl | rfl <;> rfl
  · split at h
    · rename_i hc h1
      obtain ⟨u', hu, rfl⟩ := Option.map_eq_some_iff.1 h
      refine ⟨u', ?_, hu⟩
      rcases hm with rfl | rfl
      · rfl
      · exact absurd (Or.inr rfl) hc
    · simp at h

/-- A batch-side array and its sample side: the first axis is the batch or of size 1. -/
def SideBy (B : ℕ) (p : Arr ℚ) (p' : ℕ → Arr ℚ) : Prop :=
  ∃ n s, (n = B ∨ n = 1) ∧ p.shape = n :: s ∧ (∀ b, (p' b).shape = s) ∧ ∀ b < B, ∀ idx, p.get ((if n = 1 then 0 else b) :: idx) = (p' b).get idx

theorem npBin_side {B : ℕ} (op : ℚ → ℚ → ℚ) (p q : Arr ℚ) (p' q' : ℕ → Arr ℚ) (hp : SideBy B p p') (hq : SideBy B q q')
    (hB : p.shape.headD 0 = B ∨ q.shape.headD 0 = B) (out : Arr ℚ) (h : npBin op p q = some out) :
    IsBatch B out ∧ ∀ b < B, ∃ r, npBin op (p' b) (q' b) = some r ∧ (out.sample b).Same r := by
  obtain ⟨n, s, hn, hps, hps', hpg⟩ := hp
  obtain ⟨m, t, hm, hqs, hqs', hqg⟩ := hq
  simp only [npBin, Option.map_eq_some_iff] at h
  obtain ⟨u, hu, rfl⟩ := h
  rw [hps, hqs] at hB hu
  obtain ⟨u', rfl, hu'⟩ := bcDims_heads hn hm hB hu
  refine ⟨⟨u', rfl⟩, fun b hb => ?_⟩
  simp only [npBin, hps', hqs', hu', Option.map_some]
  refine ⟨_, rfl, rfl, fun idx _ => ?_⟩
  simp only [Arr.sample, hps, hqs, bcastIdx, List.zipWith_cons_cons]
  rw [hpg b hb, hqg b hb]

theorem side_operand {B R : ℕ} (o : OpArg) (h : FitsRank B R o) :
    SideBy B (o.batch.pad (R + 1 - o.batch.shape.length)) (fun b => (o.at b).pad (R - (o.at b).shape.length)) ∧
    ((∃ x, o = .tensor x) → (o.batch.pad (R + 1 - o.batch.shape.length)).shape.headD 0 = B) := by
  cases o with
  | tensor x =>
    obtain ⟨s, hs, rfl⟩ := h
    have e : s.length + 1 - x.shape.length = 0 := by rw [hs]; simp
    simp only [OpArg.batch, e]
    refine ⟨⟨B, s, Or.inl rfl, by simp [Arr.pad, hs], fun b => by simp [OpArg.at, Arr.pad, Arr.sample, hs], fun b hb idx => ?_⟩, fun _ => by simp [Arr.pad, hs]⟩
    have e2 : s.length - x.shape.tail.length = 0 := by simp [hs]
    simp only [OpArg.at, Arr.pad, Arr.sample, e2, List.drop_zero]
    split
    · have : b = 0 := by omega
      rw [this]
    · rfl
  | const c =>
    have e : R + 1 - c.shape.length = (R - c.shape.length) + 1 := by simp only [FitsRank] at h; omega
    refine ⟨⟨1, List.replicate (R - c.shape.length) 1 ++ c.shape, Or.inr rfl, ?_, fun b => by simp [OpArg.at, Arr.pad], fun b _ idx => ?_⟩, ?_⟩
    · simp only [OpArg.batch, Arr.pad, e, List.replicate_succ, List.cons_append]
    · simp only [OpArg.batch, OpArg.at, Arr.pad, e, if_true, List.drop_succ_cons]
    · rintro ⟨x, hx⟩; simp at hx

theorem fits_rank {B R : ℕ} (o1 o2 : OpArg) (h1 : FitsRank B R o1) (h2 : FitsRank B R o2) (ht : someTensor o1 o2) :
    max o1.batch.shape.length o2.batch.shape.length = R + 1 ∧ ∀ b, max (o1.at b).shape.length (o2.at b).shape.length = R := by
  cases o1 with
  | tensor x =>
    obtain ⟨s, hs, rfl⟩ := h1
    cases o2 with
    | tensor y =>
      obtain ⟨t, ht', h⟩ := h2
      exact ⟨by simp [OpArg.batch, hs, ht', h], fun b => by simp [OpArg.at, Arr.sample, hs, ht', h]⟩
    | const c =>
      simp only [FitsRank] at h2
      exact ⟨by simp only [OpArg.batch, hs, List.length_cons]; omega, fun b => by simp only [OpArg.at, Arr.sample, hs, List.tail_cons]; omega⟩
  | const c =>
    simp only [FitsRank] at h1
    cases o2 with
    | tensor y =>
      obtain ⟨t, ht', rfl⟩ := h2
      exact ⟨by simp only [OpArg.batch, ht', List.length_cons]; omega, fun b => by simp only [OpArg.at, Arr.sample, ht', List.tail_cons]; omega⟩
    | const c' => exact absurd ht (by simp [someTensor])

/-- **C106 (arithmetic, partial).** Sum, difference, product, quotient, maximum and minimum of two tensors of the same rank, or of a tensor and a
constant without batch axis: whenever Keras computes, tracing any sample gives this sample of the result.  Missing: tensors of different ranks
(`C106_rank_violated`), constants with a batch axis (`C106_constant_violated`). -/
theorem C106_arith_partial (op : ArithOp) (B R : ℕ) (o1 o2 : OpArg) (h1 : FitsRank B R o1) (h2 : FitsRank B R o2) (ht : someTensor o1 o2) :
    Traced2 B (kerasArith op) (daArith op) o1 o2 := by
  have hop : ∀ x y, daArith op x y = npArith op.fn x y := by cases op <;> intros <;> rfl
  intro out h
  obtain ⟨hr, hr'⟩ := fits_rank o1 o2 h1 h2 ht
  simp only [kerasArith, npArith, hr] at h
  obtain ⟨s1, t1⟩ := side_operand o1 h1
  obtain ⟨s2, t2⟩ := side_operand o2 h2
  obtain ⟨hB, hs⟩ := npBin_side op.fn _ _ _ _ s1 s2 (by
    cases o1 with
    | tensor x => exact Or.inl (t1 ⟨x, rfl⟩)
    | const c =>
      cases o2 with
      | tensor y => exact Or.inr (t2 ⟨y, rfl⟩)
      | const c' => exact absurd ht (by simp [someTensor])) out h
  refine ⟨hB, fun b hb => ?_⟩
  rw [hop, npArith, hr' b]
  exact hs b hb

/-- **C106 fails for tensors of different ranks**: numpy aligns the batch axis of the smaller tensor with another axis of the larger one.  For
vectors `x` and matrices `y` per sample and a batch of two, Keras adds to row `i` of every sample the vector of sample `i`; the tracer adds the vector
of the sample itself. -/
theorem C106_rank_violated : ∃ (x y out : Arr ℚ), x.shape = [2, 1] ∧ y.shape = [2, 2, 1] ∧ kerasArith .add x y = some out ∧
    out.shape = [2, 2, 1] ∧ ∃ r, daArith .add (x.sample 0) (y.sample 0) = some r ∧ r.shape = [2, 1] ∧ out.get [0, 1, 0] = 7 ∧ r.get [1, 0] = 3 :=
  ⟨⟨[2, 1], fun i => 3 + 4 * i.headD 0⟩, ⟨[2, 2, 1], fun _ => 0⟩, _, rfl, rfl, rfl, rfl, _, rfl, rfl, by decide +kernel, by decide +kernel⟩

/-- **C106 fails for a constant with a batch axis of size 1** (the usual shape of a Keras weight to be broadcast): the traced result has one axis
more than a sample of the Keras result. -/
theorem C106_constant_violated (op : ArithOp) (n B : ℕ) (x c out : Arr ℚ) (hx : x.shape = [B, n]) (hc : c.shape = [1, n])
    (h : kerasArith op x c = some out) (b : ℕ) : out.shape = [B, n] ∧ ∀ r, daArith op (x.sample b) c = some r → r.shape = [1, n] := by
  have hop : ∀ x y, daArith op x y = npArith op.fn x y := by cases op <;> intros <;> rfl
  constructor
  · simp only [kerasArith, npArith, npBin, Option.map_eq_some_iff] at h
    obtain ⟨u, hu, rfl⟩ := h
    simp [Arr.pad, hx, hc, bcDims] at hu
    exact hu.symm
  · intro r hr
    rw [hop] at hr
    simp only [npArith, npBin, Option.map_eq_some_iff] at hr
    obtain ⟨u, hu, rfl⟩ := hr
    simp [Arr.pad, Arr.sample, hx, hc, bcDims] at hu
    exact hu.symm

/-! ## Reductions -/

/-- **C106 fails for every reduction** (`keras.ops.sum`, `max`, `min`): whatever axes were requested and whatever Keras computes, tracing raises,
since the handler expects the axes as arguments of the call and they are attributes of the operation. -/
theorem C106_reduction_violated (red : List ℚ → ℚ) (fl : List Bool) (keep : Bool) (v : Arr ℚ) : daReduction red fl keep v = none := by
  have : ∀ s : List ℕ, redShape false (List.replicate s.length true) s = [] := by
    intro s
    induction s with
    | nil => rfl
    | cons n s ih => simp [List.replicate_succ, redShape, ih]
  have h := this (npExpand v).shape
  simp only [daReduction, daReduceCall, npFirst?, Option.getD_none]
  rw [if_pos]
  simpa [npReduce, npExpand] using h

/-- **C106 (the handler itself).** Given the axes as arguments, the handler would give this sample of the Keras result: every reduction, every
choice of axes without the batch axis. -/
theorem C106_reduction_call (red : List ℚ → ℚ) (fl : List Bool) (keep : Bool) (a : Arr ℚ) (hne : a.shape ≠ []) (b : ℕ) :
    ∃ r, daReduceCall red (a.sample b) (some (false :: fl)) keep = some r ∧ ((npReduce red keep (false :: fl) a).sample b).Same r := by
  obtain ⟨B, s, hs⟩ : ∃ B s, a.shape = B :: s := by
    cases h : a.shape with
    | nil => exact absurd h hne
    | cons B s => exact ⟨B, s, rfl⟩
  refine ⟨(npReduce red keep (false :: fl) (npExpand (a.sample b))).sample 0, ?_, ?_, fun idx _ => ?_⟩
  · simp only [daReduceCall, npFirst?, Option.getD_some]
    rw [if_neg (by simp [npReduce, npExpand, redShape])]
  · simp [npReduce, npExpand, Arr.sample, redShape, hs]
  · show (npReduce red keep (false :: fl) a).get (b :: idx) = (npReduce red keep (false :: fl) (npExpand (a.sample b))).get (0 :: idx)
    rw [reduce_get _ _ _ _ B s hs, reduce_get _ _ _ _ 1 s (by simp [npExpand, Arr.sample, hs])]
    simp [npExpand, Arr.sample]

/-! ## Reshapes -/

theorem resolve_prod {t : List ℤ} {n : ℕ} {u : List ℕ} (h : resolveShape t n = some u) : u.prod = n := by
  unfold resolveShape at h
  split at h
  · split at h
    · rename_i hc
      simp only [Option.some.injEq] at h
      rw [← h]; exact hc.2
    · simp at h
  · split at h
    · rename_i _ h1
      simp only at h
      split at h
      · rename_i hc
        simp only [Option.some.injEq] at h
        subst h
        obtain ⟨_, hp, hd⟩ := hc
        have key : ∀ (l : List ℤ) (q : ℕ), l.count (-1) = 0 →
            (l.map fun z => if z = -1 then q else z.toNat).prod = ((l.filter (· ≠ -1)).map Int.toNat).prod := by
          intro l q hl
          induction l with
          | nil => rfl
          | cons z l ih =>
            have hz : z ≠ -1 := by intro hz; subst hz; simp at hl
            have hl' : l.count (-1) = 0 := by
              have := List.count_cons (a := (-1 : ℤ)) (b := z) (l := l)
              rw [hl] at this; omega
            simp only [List.map_cons, hz, if_false, List.prod_cons, ih hl', List.filter_cons]
            simp [hz]
        have key2 : ∀ (l : List ℤ) (q : ℕ), l.count (-1) = 1 →
            (l.map fun z => if z = -1 then q else z.toNat).prod = q * ((l.filter (· ≠ -1)).map Int.toNat).prod := by
          intro l q hl
          induction l with
          | nil => simp at hl
          | cons z l ih =>
            by_cases hz : z = -1
            · subst hz
              have hl' : l.count (-1) = 0 := by simpa using hl
              simp only [List.map_cons, if_true, List.prod_cons, key l q hl', List.filter_cons]
              simp
            · have hl' : l.count (-1) = 1 := by
                have := List.count_cons (a := (-1 : ℤ)) (b := z) (l := l)
                rw [hl] at this
                have hne : ¬ (z == -1) = true := by simpa using hz
                rw [if_neg hne] at this; omega
              simp only [List.map_cons, hz, if_false, List.prod_cons, ih hl', List.filter_cons]
              simp [hz]
              ring
        rw [key2 t _ h1]
        exact Nat.div_mul_cancel (Nat.dvd_of_mod_eq_zero hd)
      · simp at h
    · simp at h

/-- **C106 (`keras.layers.Reshape`).** For every target shape, with or without `-1`: tracing a sample gives this sample of the Keras result. -/
theorem C106_reshape_layer (t : List ℤ) (a : Arr ℚ) (hne : a.shape ≠ []) : PerSample (kerasReshapeLayer t) (daReshapeLayer t) a := by
  intro out h b hb
  simp only [kerasReshapeLayer, Option.bind_eq_some_iff] at h
  obtain ⟨u, hu, h⟩ := h
  obtain ⟨r, h1, h2⟩ := (C71_reshape u a hne).1 out h b hb
  refine ⟨r, ?_, h2⟩
  simp only [daReshapeLayer, npReshapeNeg, Arr.sample, hu, Option.bind_some]
  exact h1

/-- **C106 (`keras.ops.reshape`, partial).** For every new shape, with or without `-1`, that leaves the batch axis in place: if Keras computes and the result
still has the batch axis, tracing a sample gives this sample of the result.  Missing: shapes that mix samples (`C106_ravel_violated`). -/
theorem C106_reshape_op_partial (z : ℤ) (t : List ℤ) (B : ℕ) (a out : Arr ℚ) (ha : IsBatch B a) (h : npReshapeNeg (z :: t) a = some out)
    (ho : IsBatch B out) (b : ℕ) (hb : b < B) : ∃ r, daReshapeOp (z :: t) (a.sample b) = some r ∧ (out.sample b).Same r := by
  obtain ⟨s, hs⟩ := ha
  simp only [npReshapeNeg, Option.bind_eq_some_iff] at h
  obtain ⟨u, hu, h⟩ := h
  obtain ⟨su, hsu⟩ := ho
  have hout : out.shape = u := by
    unfold npReshape at h
    split at h
    · simp only [Option.some.injEq] at h; rw [← h]
    · simp at h
  have hprod := resolve_prod hu
  rw [← hout, hsu, hs] at hprod
  simp only [List.prod_cons] at hprod
  have hsz : su.prod = s.prod := Nat.eq_of_mul_eq_mul_left (by omega) hprod
  -- the tail resolves to the tail
  have htail : resolveShape t s.prod = some su := by
    have hu' : resolveShape (z :: t) (B * s.prod) = some (B :: su) := by rw [← hsu, hout, ← hu, hs]; simp
    clear hu h
    unfold resolveShape at hu' ⊢
    split at hu'
    · rename_i h0
      split at hu'
      · rename_i hc
        simp only [List.map_cons, Option.some.injEq, List.cons.injEq] at hu'
        have hz : z ≠ -1 := by intro hz; subst hz; simp at h0
        have h0' : t.count (-1) = 0 := by
          have := List.count_cons (a := (-1 : ℤ)) (b := z) (l := t)
          rw [h0] at this; omega
        rw [if_pos h0', if_pos ⟨fun w hw => hc.1 w (List.mem_cons_of_mem _ hw), by rw [hu'.2, hsz]⟩, hu'.2]
      · simp at hu'
    · rename_i h0
      split at hu'
      · rename_i h1
        simp only at hu'
        split at hu'
        · rename_i hc
          simp only [List.map_cons, Option.some.injEq, List.cons.injEq] at hu'
          obtain ⟨hh, hl⟩ := hu'
          by_cases hz : z = -1
          · subst hz
            have h0' : t.count (-1) = 0 := by simpa using h1
            have hno : ∀ w ∈ t, w ≠ -1 := fun w hw he => by
              subst he
              exact absurd (List.count_pos_iff.2 hw) (by omega)
            have hl' : t.map Int.toNat = su := by
              rw [← hl]
              exact List.map_congr_left fun w hw => by rw [if_neg (hno w hw)]
            rw [if_pos h0', if_pos ⟨fun w hw => by
              have := hc.1 w (List.mem_cons_of_mem _ hw); have := hno w hw; omega, by rw [hl', hsz]⟩, hl']
          · have h1' : t.count (-1) = 1 := by
              have := List.count_cons (a := (-1 : ℤ)) (b := z) (l := t)
              rw [h1] at this
              have hne : ¬ (z == -1) = true := by simpa using hz
              rw [if_neg hne] at this; omega
            rw [if_neg hz] at hh
            have hf : ((z :: t).filter (· ≠ -1)) = z :: t.filter (· ≠ -1) := by simp [hz]
            rw [hf] at hc hl
            simp only [List.map_cons, List.prod_cons, hh] at hc hl
            have hp : ((t.filter (· ≠ -1)).map Int.toNat).prod ≠ 0 := fun h => hc.2.1 (by rw [h, Nat.mul_zero])
            have hBp : 0 < B := by omega
            have hd : s.prod % ((t.filter (· ≠ -1)).map Int.toNat).prod = 0 := by
              have := Nat.dvd_of_mod_eq_zero hc.2.2
              exact Nat.mod_eq_zero_of_dvd (Nat.dvd_of_mul_dvd_mul_left hBp this)
            rw [if_neg (by omega), if_pos h1']
            simp only
            rw [if_pos ⟨fun w hw => hc.1 w (List.mem_cons_of_mem _ hw), hp, hd⟩, ← hl]
            congr 1
            refine List.map_congr_left fun w _ => ?_
            rw [Nat.mul_div_mul_left _ _ hBp]
        · simp at hu'
      · simp at hu'
  have hk : kerasReshape su a = some out := by
    unfold kerasReshape
    rw [hs, List.headD_cons, ← hsu, hout]
    exact h
  obtain ⟨r, h1, h2⟩ := (C71_reshape su a (by simp [hs])).1 out hk b (by simpa [hs] using hb)
  refine ⟨r, ?_, h2⟩
  simp only [daReshapeOp, List.tail_cons, npReshapeNeg, Arr.sample, hs, htail, Option.bind_some]
  simpa [daReshape, Arr.sample, hs] using h1

/-- **C106 fails for `keras.ops.ravel`**: Keras flattens the batch axis too (one axis of `B * n` entries), the tracer flattens the sample. -/
theorem C106_ravel_violated (B n : ℕ) (a : Arr ℚ) (ha : a.shape = [B, n]) (b : ℕ) : (∃ out, kerasRavel a = some out ∧ out.shape = [B * n]) ∧
    ∃ r, daRavel (a.sample b) = some r ∧ r.shape = [n] := by
  constructor
  · exact ⟨_, by simp only [kerasRavel, npReshape, List.prod_cons, List.prod_nil, mul_one, if_true]; rfl, by simp [ha]⟩
  · exact ⟨_, by simp only [daRavel, npReshape, List.prod_cons, List.prod_nil, mul_one, if_true]; rfl, by simp [Arr.sample, ha]⟩

/-! ## Matrix products -/

/-- A matrix product needs at least two axes on both sides. -/
def Spec.IsMatrix : OpArg → Prop
  | .tensor x => 3 ≤ x.shape.length
  | .const c => 2 ≤ c.shape.length

theorem matmul_side {B R : ℕ} (hR : 2 ≤ R) (o1 o2 : OpArg) (h1 : FitsRank B R o1) (h2 : FitsRank B R o2) (ht : someTensor o1 o2) :
    Traced2 B npMatmul2 npMatmul2 o1 o2 := by
  intro out h
  obtain ⟨hr, hr'⟩ := fits_rank o1 o2 h1 h2 ht
  obtain ⟨⟨n, s, hn, hps, hps', hpg⟩, t1⟩ := side_operand o1 h1
  obtain ⟨⟨m, t, hm, hqs, hqs', hqg⟩, t2⟩ := side_operand o2 h2
  have hB : n = B ∨ m = B := by
    cases o1 with
    | tensor x => have := t1 ⟨x, rfl⟩; rw [hps] at this; exact Or.inl this
    | const c =>
      cases o2 with
      | tensor y => have := t2 ⟨y, rfl⟩; rw [hqs] at this; exact Or.inr this
      | const c' => exact absurd ht (by simp [someTensor])
  simp only [npMatmul2, hr] at h
  generalize hp : o1.batch.pad (R + 1 - o1.batch.shape.length) = p at h hps hpg
  generalize hq : o2.batch.pad (R + 1 - o2.batch.shape.length) = q at h hqs hqg
  obtain ⟨R, rfl⟩ : ∃ R', R = R' + 2 := ⟨R - 2, by omega⟩
  simp only [hps, hqs, Nat.add_sub_cancel, show R + 2 + 1 - 2 = R + 1 by omega, List.getD_cons_succ, List.take_succ_cons] at h
  split at h
  · rename_i hk
    obtain ⟨u, hu, rfl⟩ := Option.map_eq_some_iff.1 h
    obtain ⟨u', rfl, hu'⟩ := bcDims_heads hn hm hB hu
    refine ⟨⟨_, rfl⟩, fun b hb => ?_⟩
    simp only [npMatmul2, hr' b, hps', hqs', Nat.add_sub_cancel, show R + 2 - 1 = R + 1 by omega]
    rw [if_pos hk, hu']
    refine ⟨_, rfl, rfl, fun idx _ => ?_⟩
    simp only [Arr.sample, List.take_succ_cons, List.getD_cons_succ, bcastIdx, List.zipWith_cons_cons, List.cons_append]
    congr 1
    refine List.map_congr_left fun j _ => ?_
    rw [hpg b hb, hqg b hb]
  · simp at h

/-- **C106 (matrix products, partial).** `keras.ops.matmul` of two tensors with the same number (at least two) of axes per sample, or of such a
tensor and a constant matrix (or stack of matrices) on either side: tracing a sample gives this sample of the result.  Missing: vectors per
sample (`C106_matmul_dense_partial` for a constant matrix on the right; `C106_matvec_violated`). -/
theorem C106_matmul_partial (B R : ℕ) (hR : 2 ≤ R) (o1 o2 : OpArg) (h1 : FitsRank B R o1) (h2 : FitsRank B R o2) (ht : someTensor o1 o2)
    (m1 : IsMatrix o1) (m2 : IsMatrix o2) : Traced2 B npMatmul daMatmul o1 o2 := by
  have hb : ∀ o : OpArg, IsMatrix o → 2 ≤ o.batch.shape.length ∧ ∀ b, 2 ≤ (o.at b).shape.length := by
    intro o h
    cases o with
    | tensor x => exact ⟨by simp only [IsMatrix] at h; simp only [OpArg.batch]; omega, fun b => by
        simp only [IsMatrix] at h; simp only [OpArg.at, Arr.sample, List.length_tail]; omega⟩
    | const c => exact ⟨h, fun _ => h⟩
  have e : ∀ a c : Arr ℚ, 2 ≤ a.shape.length → 2 ≤ c.shape.length → npMatmul a c = npMatmul2 a c := by
    intro a c ha hc
    unfold npMatmul
    rw [if_neg (by omega), if_neg (by omega), if_neg (by omega), if_neg (by omega)]
  intro out h
  rw [e _ _ (hb o1 m1).1 (hb o2 m2).1] at h
  obtain ⟨h3, h4⟩ := matmul_side hR o1 o2 h1 h2 ht out h
  refine ⟨h3, fun b hb' => ?_⟩
  rw [daMatmul, e _ _ ((hb o1 m1).2 b) ((hb o2 m2).2 b)]
  exact h4 b hb'

/-- **C106 (vectors times a constant matrix).** A tensor of vectors per sample times a constant matrix (a dense layer by hand). -/
theorem C106_matmul_dense_partial (B k m : ℕ) (x c : Arr ℚ) (hx : x.shape = [B, k]) (hc : c.shape = [k, m]) :
    Traced2 B npMatmul daMatmul (.tensor x) (.const c) := by
  intro out h
  simp only [OpArg.batch, npMatmul, hx, hc, List.length_cons, List.length_nil] at h
  simp [npMatmul2, hx, hc, Arr.pad, bcDims] at h
  subst h
  refine ⟨⟨_, rfl⟩, fun b hb => ?_⟩
  simp [OpArg.at, daMatmul, npMatmul, npMatmul2, Arr.sample, hx, hc, Arr.pad, bcDims]
  refine ⟨rfl, fun idx hidx => ?_⟩
  obtain ⟨j, rfl⟩ : ∃ j, idx = [j] := by
    have := hidx.length_eq
    exact List.length_eq_one_iff.1 (by simpa using this)
  simp [bcastIdx]

/-- **C106 fails for vectors times matrices per sample**: numpy takes the batch of vectors as one matrix, so that Keras multiplies every vector with
every matrix of the batch (the result has two batch axes); the tracer multiplies the vector and the matrix of one sample. -/
theorem C106_matvec_violated (B k m : ℕ) (x y : Arr ℚ) (hx : x.shape = [B, k]) (hy : y.shape = [B, k, m]) (b : ℕ) :
    (∃ out, npMatmul x y = some out ∧ out.shape = [B, B, m]) ∧ ∃ r, daMatmul (x.sample b) (y.sample b) = some r ∧ r.shape = [m] := by
  constructor
  · simp [npMatmul, npMatmul2, hx, hy, Arr.pad, bcDims]
    by_cases hB : 1 = B ∨ B = 1
    · have : B = 1 := by omega
      subst this
      exact ⟨[1], by simp, by simp⟩
    · exact ⟨[B], by rw [if_neg hB], by simp⟩
  · simp [daMatmul, npMatmul, npMatmul2, Arr.sample, hx, hy, Arr.pad, bcDims]

/-- `keras.ops.dot` with a matrix on the right is the matrix product. -/
theorem dot_matmul (a c : Arr ℚ) (k m : ℕ) (hc : c.shape = [k, m]) (out : Arr ℚ) (h : npDot a c = some out) :
    ∃ o, npMatmul a c = some o ∧ out.Same o := by
  unfold npDot at h
  split at h
  · rename_i hh
    obtain ⟨ha, _, hk⟩ := hh
    simp only [Option.some.injEq] at h
    subst h
    obtain ⟨l, n, k', hsh⟩ : ∃ l n k', a.shape = l ++ [n, k'] := by
      refine ⟨a.shape.take (a.shape.length - 2), a.shape[a.shape.length - 2], a.shape[a.shape.length - 1], ?_⟩
      apply List.ext_getElem
      · simp; omega
      · intro i h1 h2
        rw [List.getElem_append]
        split
        · simp
        · rename_i hi
          simp only [List.length_take] at hi
          have : i = a.shape.length - 2 ∨ i = a.shape.length - 1 := by omega
          rcases this with rfl | rfl
          · simp
          · have : a.shape.length - 1 - (a.shape.length - 2) = 1 := by omega
            simp [this]
    have hk' : k' = k := by
      simp only [hsh, hc] at hk
      simpa using hk
    subst hk'
    have hb : bcDims l (List.replicate l.length 1) = some l := by
      clear hsh hk
      induction l with
      | nil => rfl
      | cons n l ih => simp [List.replicate_succ, bcDims, ih]
    have hlen : a.shape.length = l.length + 2 := by simp [hsh]
    have e : npMatmul a c = npMatmul2 a c := by
      unfold npMatmul
      rw [if_neg (by rw [hlen, hc]; simp), if_neg (by rw [hlen, hc]; simp), if_neg (by rw [hlen]; omega), if_neg (by rw [hc]; simp)]
    rw [e]
    have hmax : max (l.length + 2) [k', m].length = l.length + 2 := by simp
    unfold npMatmul2
    simp only [hc, hlen, hmax]
    have es : (a.pad (l.length + 2 - (l.length + 2))).shape = l ++ [n, k'] := by simp [Arr.pad, hsh]
    have ec : (c.pad (l.length + 2 - [k', m].length)).shape = List.replicate l.length 1 ++ [k', m] := by simp [Arr.pad, hc]
    simp only [es, ec, show l.length + 2 - 1 = l.length + 1 by omega, Nat.add_sub_cancel]
    have t1 : (l ++ [n, k']).take l.length = l := List.take_left' rfl
    have t2 : (List.replicate l.length 1 ++ [k', m]).take l.length = List.replicate l.length 1 := List.take_left' (by simp)
    have g1 : (l ++ [n, k']).getD (l.length + 1) 0 = k' := by simp [List.getD]
    have g2 : (List.replicate l.length 1 ++ [k', m]).getD l.length 0 = k' := by simp [List.getD]
    have g3 : (l ++ [n, k']).getD l.length 0 = n := by simp [List.getD]
    have g4 : (List.replicate l.length 1 ++ [k', m]).getD (l.length + 1) 0 = m := by
      rw [List.getD, List.getElem?_append_right (by simp)]; simp
    rw [t1, t2, g1, g2, g3, g4, if_pos rfl, hb]
    refine ⟨_, rfl, ?_, fun idx hidx => ?_⟩
    · simp [hsh]
    · have hidx' : InShape idx (l ++ [n, m]) := by
        simpa [hsh, hc] using hidx
      obtain ⟨i1, i2, hi1, hi2, rfl⟩ : ∃ i1 i2, InShape i1 l ∧ InShape i2 [n, m] ∧ idx = i1 ++ i2 := by
        refine ⟨idx.take l.length, idx.drop l.length, ?_, ?_, (List.take_append_drop _ _).symm⟩
        · have := List.forall₂_take l.length hidx'
          rwa [List.take_left' rfl] at this
        · have := List.forall₂_drop l.length hidx'
          rwa [List.drop_left' rfl] at this
      obtain ⟨p, q, rfl⟩ : ∃ p q, i2 = [p, q] := by
        have := hi2.length_eq
        match i2, this with
        | [p, q], _ => exact ⟨p, q, rfl⟩
      have hl1 : i1.length = l.length := hi1.length_eq
      simp only [hc, hlen, hsh]
      have t3 : (i1 ++ [p, q]).take l.length = i1 := List.take_left' hl1
      have t4 : (i1 ++ [p, q]).getD l.length 0 = p := by simp [List.getD, ← hl1]
      have t5 : (i1 ++ [p, q]).getD (l.length + 1) 0 = q := by
        rw [List.getD, List.getElem?_append_right (by omega)]; simp [hl1]
      have t6 : (i1 ++ [p, q]).take (l.length + 1) = i1 ++ [p] := by
        rw [show i1 ++ [p, q] = (i1 ++ [p]) ++ [q] by simp]
        exact List.take_left' (by simp [hl1])
      have t7 : (i1 ++ [p, q]).drop (l.length + 1) = [q] := by
        rw [show i1 ++ [p, q] = (i1 ++ [p]) ++ [q] by simp]
        exact List.drop_left' (by simp [hl1])
      rw [t3, t4, t5, t6, t7]
      have g5 : (l ++ [n, k']).getLastD 0 = k' := by simp
      rw [g5, bcastIdx_eq hi1]
      congr 1
      refine List.map_congr_left fun j _ => ?_
      simp only [Arr.pad]
      have d1 : (i1 ++ [p, j]).drop (l.length + 2 - (l.length + 2)) = i1 ++ [p, j] := by simp
      have hbl : (bcastIdx (List.replicate l.length 1) i1).length = l.length := by simp [bcastIdx, hl1]
      have d2 : (bcastIdx (List.replicate l.length 1) i1 ++ [j, q]).drop (l.length + 2 - [k', m].length) = [j, q] :=
        List.drop_left' (by simp [hbl])
      rw [d1, d2]
      simp
  · simp at h

/-- **C106 (`keras.ops.dot` with a constant matrix).** -/
theorem C106_dot_partial (B R k m : ℕ) (hR : 1 ≤ R) (x c : Arr ℚ) (hx : ∃ s, x.shape = B :: s ∧ s.length = R) (hc : c.shape = [k, m]) :
    Traced2 B npDot daMatmul (.tensor x) (.const c) := by
  intro out h
  obtain ⟨s, hs, hl⟩ := hx
  obtain ⟨o, ho, hsame⟩ := dot_matmul x c k m hc out h
  have key : Traced2 B npMatmul daMatmul (.tensor x) (.const c) := by
    by_cases h2 : 2 ≤ R
    · exact C106_matmul_partial B R h2 _ _ ⟨s, hs, hl⟩ (by simp only [FitsRank, hc]; simpa using h2) trivial
        (by simp only [IsMatrix, hs, List.length_cons]; omega) (by simp [IsMatrix, hc])
    · obtain ⟨k', rfl⟩ : ∃ k', s = [k'] := List.length_eq_one_iff.1 (by omega)
      have hk : k' = k := by
        unfold npDot at h
        split at h
        · rename_i hh
          simpa [OpArg.batch, hs, hc] using hh.2.2
        · simp at h
      subst hk
      exact C106_matmul_dense_partial B k' m x c hs hc
  obtain ⟨⟨u, hu⟩, hk⟩ := key o ho
  have hou : out.shape = B :: u := by rw [hsame.1, hu]
  refine ⟨⟨u, hou⟩, fun b hb => ?_⟩
  obtain ⟨r, h1, h2⟩ := hk b hb
  refine ⟨r, h1, ?_, fun idx hidx => ?_⟩
  · rw [← h2.1]; simp [Arr.sample, hou, hu]
  · have hi : InShape idx u := by simpa [Arr.sample, hou] using hidx
    rw [← h2.2 idx (by simpa [Arr.sample, hu] using hi)]
    exact hsame.2 _ (by rw [hou]; exact List.Forall₂.cons hb hi)

/-- **C106 fails for `keras.ops.dot` of two tensors**: the result of Keras has two batch axes (every sample with every sample). -/
theorem C106_dot_violated (B n k m : ℕ) (x y : Arr ℚ) (hx : x.shape = [B, n, k]) (hy : y.shape = [B, k, m]) (b : ℕ) :
    (∃ out, npDot x y = some out ∧ out.shape = [B, n, B, m]) ∧ ∃ r, daMatmul (x.sample b) (y.sample b) = some r ∧ r.shape = [n, m] := by
  constructor
  · simp [npDot, hx, hy]
  · simp [daMatmul, npMatmul, npMatmul2, Arr.sample, hx, hy, Arr.pad, bcDims]

/-! ## Concrete cases -/

/-- A batch of two 1×2 matrices times a batch of two 2×1 matrices; the second sample. -/
example : ∃ out r, npMatmul ⟨[2, 1, 2], fun i => i.headD 0 + i.getD 2 0⟩ ⟨[2, 2, 1], fun i => 3 * i.headD 0 - i.getD 1 0⟩ = some out ∧
    daMatmul ((⟨[2, 1, 2], fun i => i.headD 0 + i.getD 2 0⟩ : Arr ℚ).sample 1) ((⟨[2, 2, 1], fun i => 3 * i.headD 0 - i.getD 1 0⟩ : Arr ℚ).sample 1) = some r ∧
    out.get [1, 0, 0] = 7 ∧ r.get [0, 0] = 7 ∧ out.shape = [2, 1, 1] :=
  ⟨_, _, rfl, rfl, by decide +kernel, by decide +kernel, by decide +kernel⟩

/-- A tensor plus a constant vector, `x - c` and `c - x`. -/
example : FitsRank 2 2 (.tensor ⟨[2, 3, 2], fun i => i.headD 0⟩) ∧ FitsRank 2 2 (.const ⟨[2], fun i => i.headD 0⟩) ∧
    someTensor (.const ⟨[2], fun i => i.headD 0⟩) (.tensor ⟨[2, 3, 2], fun i => i.headD 0⟩) ∧
    ((kerasArith .subtract ⟨[2], fun i => 5 * i.headD 0⟩ ⟨[2, 3, 2], fun i => i.headD 0⟩).map fun o => (o.shape, o.get [1, 2, 1])) = some ([2, 3, 2], 4) :=
  ⟨⟨[3, 2], rfl, rfl⟩, by simp [FitsRank], trivial, by decide +kernel⟩

/-- Reshape with `-1`. -/
example : ((npReshapeNeg [-1, 3, 2] ⟨[4, 6], fun i => 10 * i.headD 0 + i.getD 1 0⟩).map fun o => (o.shape, o.get [3, 1, 1])) = some ([4, 3, 2], 33) ∧
    ((daReshapeOp [-1, 3, 2] ⟨[6], fun i => i.headD 0⟩).map fun o => (o.shape, o.get [1, 1])) = some ([3, 2], 3) ∧
    ((daReshapeLayer [-1, 2] ⟨[6], fun i => i.headD 0⟩).map fun o => (o.shape, o.get [2, 1])) = some ([3, 2], 5) := by decide +kernel

end HGQ
