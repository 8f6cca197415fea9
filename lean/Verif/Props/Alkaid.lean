import Verif.Model.Alkaid
import Verif.Props.Batching

/-!
# C105: the model converted by the Alkaid plugin computes what the Keras model computes
-/
namespace HGQ
open Spec

/-- A core Alkaid converts faithfully: acts sample by sample (`CoreBatch`), and a softmax has one flag per axis of its input. -/
def Spec.CoreAlkaid : Core → List (Arr ℚ) → Prop
  | .softmax _ fl _ _, ins => ∀ x ∈ ins, x.shape.length = fl.length + 1
  | core, _ => CoreBatch core

/-- Layers: quantizers with widths in the int8 range, without scaler, not varying along the batch axis (`QuantOk`); structural operations not
along the batch axis. -/
def Spec.LayerAlkaid : LLayer → List (Arr ℚ) → Prop
  | .quantizer q, _ => QuantOk q
  | .qlayer iq core _ oq, xs => (∀ qs ∈ iq, ∀ q ∈ qs, QuantOk q) ∧ (∀ ins, kerasIq iq xs = some ins → CoreAlkaid core ins) ∧ ∀ q ∈ oq, QuantOk q
  | l, xs => LayerBatch l xs

theorem same_norm {a b : Arr ℚ} (h : a.Same b) : a.norm = b.norm := by
  obtain ⟨h1, h2⟩ := h
  unfold Arr.norm
  rw [← h1]
  congr 1
  funext idx
  split
  · rename_i hi; exact h2 idx ((inShapeB_iff _ _).1 hi)
  · rfl

/-- Where the first operation succeeds, the second gives the same array. -/
def SameAs (k r : List (Arr ℚ) → Option (Arr ℚ)) (xs : List (Arr ℚ)) : Prop :=
  ∀ out, k xs = some out → ∃ o, r xs = some o ∧ out.Same o

theorem sameAs_run {k r : List (Arr ℚ) → Option (Arr ℚ)} {xs : List (Arr ℚ)} (h : SameAs k r xs) (out : Arr ℚ) (ho : run (k xs) = some out) :
    run (r xs) = some out := by
  simp only [run, Option.map_eq_some_iff] at ho ⊢
  obtain ⟨o, ho, rfl⟩ := ho
  obtain ⟨o', ho', hs⟩ := h o ho
  exact ⟨o', ho', (same_norm hs).symm⟩

theorem Arr.Same.rfl' (a : Arr ℚ) : a.Same a := ⟨rfl, fun _ _ => rfl⟩

theorem sameAs_refl (k : List (Arr ℚ) → Option (Arr ℚ)) (xs : List (Arr ℚ)) : SameAs k k xs := fun out h => ⟨out, h, Arr.Same.rfl' out⟩

/-! ## Quantizers -/

theorem bcastOk_length {ws sh : List ℕ} (h : bcastOk ws sh = true) : ws.length = sh.length := by
  induction ws generalizing sh with
  | nil => cases sh <;> simp_all [bcastOk]
  | cons w ws ih =>
    cases sh with
    | nil => simp [bcastOk] at h
    | cons n sh => simp only [bcastOk, Bool.and_eq_true] at h; simp [ih h.2]

theorem quant_alkaid (q : ArrQuant) (hq : QuantOk q) (x out : Arr ℚ) (h : q.keras x = some out) :
    ∃ o, q.alkaid x = some o ∧ out.Same o := by
  obtain ⟨_, h2, h3⟩ := hq
  unfold ArrQuant.keras at h
  split at h
  · rename_i hb
    simp only [Option.some.injEq] at h
    subst h
    have hl := bcastOk_length hb
    have e : 1 + x.shape.length - q.ws.length = 1 := by omega
    unfold ArrQuant.alkaid
    simp only [e, List.replicate_one, List.singleton_append]
    rw [if_pos (by simp [bcastOk, hb])]
    refine ⟨_, rfl, rfl, fun idx _ => ?_⟩
    simp only [bcastIdx, List.zipWith_cons_cons, List.drop_one, List.tail_cons]
    exact (C18_replay_partial _ h2 _ none _ _ _ _ _ (h3 _).1 (h3 _).2 _).symm
  · simp at h

/-! ## Merges -/

theorem bcastIdx_pad (r : ℕ) (s idx : List ℕ) (hr : r < idx.length) :
    bcastIdx (1 :: (List.replicate r 1 ++ s)) idx = List.replicate (r + 1) 0 ++ bcastIdx s (idx.drop (r + 1)) := by
  induction r generalizing idx with
  | zero =>
    cases idx with
    | nil => simp at hr
    | cons i idx => simp [bcastIdx]
  | succ r ih =>
    cases idx with
    | nil => simp at hr
    | cons i idx =>
      have := ih idx (by simpa using hr)
      simp only [bcastIdx] at this ⊢
      rw [List.replicate_succ, List.cons_append, List.zipWith_cons_cons, this]
      simp [List.replicate_succ]

theorem pad_batch_one (y : Arr ℚ) (hy : IsBatch 1 y) (r : ℕ) : (y.pad r).shape = (y.padBatch r).shape ∧
    ∀ idx, r < idx.length → (y.padBatch r).get (bcastIdx (y.padBatch r).shape idx) = (y.pad r).get (bcastIdx (y.pad r).shape idx) := by
  obtain ⟨s, hs⟩ := hy
  have e : (y.pad r).shape = (y.padBatch r).shape := by
    simp only [Arr.pad, Arr.padBatch, hs, List.headD_cons, List.tail_cons]
    rw [← List.cons_append, ← List.replicate_succ, List.replicate_succ', List.append_assoc]
    rfl
  refine ⟨e, fun idx hidx => ?_⟩
  rw [e]
  have e2 : (y.padBatch r).shape = 1 :: (List.replicate r 1 ++ s) := by simp [Arr.padBatch, hs]
  rw [e2, bcastIdx_pad r s idx hidx]
  simp only [Arr.pad, Arr.padBatch]
  congr 1
  rw [List.replicate_succ]
  simp only [List.cons_append, List.headD_cons, List.tail_cons]
  rw [List.drop_left' (by simp)]
  rw [← List.cons_append, ← List.replicate_succ, List.replicate_succ', List.append_assoc, List.drop_left' (by simp)]
  rfl

theorem foldlM_bcDims_length (r : List (List ℕ)) (s u : List ℕ) (h : r.foldlM bcDims s = some u) : u.length = s.length := by
  have key : ∀ (s t u : List ℕ), bcDims s t = some u → u.length = s.length := by
    intro s
    induction s with
    | nil => intro t u h; cases t <;> simp_all [bcDims]
    | cons n s ih =>
      intro t u h
      cases t with
      | nil => simp [bcDims] at h
      | cons m t =>
        simp only [bcDims] at h
        split at h
        · obtain ⟨v, hv, rfl⟩ := Option.map_eq_some_iff.1 h
          simp [ih t v hv]
        · split at h
          · obtain ⟨v, hv, rfl⟩ := Option.map_eq_some_iff.1 h
            simp [ih t v hv]
          · simp at h
  induction r generalizing s with
  | nil => simp only [List.foldlM_nil, pure, Option.some.injEq] at h; rw [h]
  | cons t r ih =>
    simp only [List.foldlM_cons] at h
    cases hb : bcDims s t with
    | none => simp [hb] at h
    | some v => rw [hb] at h; rw [ih v h, key s t v hb]

theorem le_foldl_max (l : List ℕ) (m : ℕ) : m ≤ l.foldl max m ∧ ∀ a ∈ l, a ≤ l.foldl max m := by
  induction l generalizing m with
  | nil => simp
  | cons b l ih =>
    obtain ⟨h1, h2⟩ := ih (max m b)
    simp only [List.foldl_cons]
    refine ⟨le_trans (le_max_left _ _) h1, fun a ha => ?_⟩
    rcases List.mem_cons.1 ha with rfl | ha
    · exact le_trans (le_max_right _ _) h1
    · exact h2 a ha

theorem merge_one (op : ℚ → ℚ → ℚ) (red : List ℚ → ℚ) (xs : List (Arr ℚ)) (hred : ∀ v l, red (v :: l) = l.foldl op v)
    (hB : ∀ x ∈ xs, IsBatch 1 x) : SameAs (kerasMerge op) (daMerge red) xs := by
  intro out h
  cases xs with
  | nil => simp [kerasMerge] at h
  | cons x r =>
    simp only [kerasMerge] at h
    simp only [daMerge, npBroadcastArrays]
    have hle := (le_foldl_max ((x :: r).map fun x => x.shape.length) 0).2
    generalize ((x :: r).map fun x => x.shape.length).foldl max 0 = R at h hle ⊢
    simp only [List.map_cons] at h ⊢
    obtain ⟨h1, h2⟩ := foldl_npBin op _ _ out h
    have hp : ∀ y ∈ x :: r, _ := fun y hy => pad_batch_one y (hB y hy) (R - y.shape.length)
    have h1' := h1
    rw [foldlM_shape] at h1'
    have hlen : out.shape.length = R := by
      have := foldlM_bcDims_length _ _ _ h1'
      rw [this]
      obtain ⟨s, hs⟩ := hB x (List.mem_cons_self ..)
      have := hle x.shape.length (by simp)
      simp only [Arr.padBatch, List.length_cons, List.length_append, List.length_replicate, List.length_tail]
      rw [hs] at this ⊢
      simp at this ⊢
      omega
    have e : (r.map fun y => y.padBatch (R - y.shape.length)).map (·.shape) = (r.map fun y => y.pad (R - y.shape.length)).map (·.shape) := by
      simp only [List.map_map]
      exact List.map_congr_left fun y hy => ((hp y (List.mem_cons_of_mem _ hy)).1).symm
    rw [e, ← (hp x (List.mem_cons_self ..)).1, ← foldlM_shape] at h1'
    rw [h1']
    refine ⟨_, rfl, by simp, fun idx hidx => ?_⟩
    have hpos : ∀ y ∈ x :: r, R - y.shape.length < idx.length := by
      intro y hy
      have hl : idx.length = out.shape.length := hidx.length_eq
      obtain ⟨s, hs⟩ := hB y hy
      have h0 := hle y.shape.length (List.mem_map_of_mem hy)
      rw [hl, hlen]
      rw [hs] at h0 ⊢
      simp at h0 ⊢
      omega
    have h3 := h2 idx
    rw [bcastIdx_eq hidx] at h3
    rw [h3]
    simp only [List.map_cons, List.map_map, Function.comp_def]
    rw [hred, (hp x (List.mem_cons_self ..)).2 idx (hpos x (List.mem_cons_self ..))]
    have hr : ∀ y ∈ r, _ := fun y hy => (hp y (List.mem_cons_of_mem _ hy)).2 idx (hpos y (List.mem_cons_of_mem _ hy))
    clear h h1 h1' h2 h3 hp hpos e hB hidx hle hlen
    generalize (x.pad (R - x.shape.length)).get _ = v
    induction r generalizing v with
    | nil => rfl
    | cons y r ih =>
      simp only [List.map_cons, List.foldl_cons]
      rw [hr y (List.mem_cons_self ..)]
      exact ih (fun z hz => hr z (List.mem_cons_of_mem _ hz)) _

/-! ## Softmax -/

theorem bcDims_red (fl : List Bool) (s : List ℕ) (h : s.length = fl.length) :
    bcDims (redShape true fl s) s = some s ∧ bcDims s (redShape true fl s) = some s := by
  induction fl generalizing s with
  | nil =>
    have : s = [] := by simpa using h
    subst this; simp [redShape, bcDims]
  | cons b fl ih =>
    cases s with
    | nil => simp at h
    | cons n s =>
      obtain ⟨i1, i2⟩ := ih s (by simpa using h)
      cases b with
      | false => simp [redShape, bcDims, i1, i2]
      | true =>
        simp only [redShape, if_true, bcDims, i1, i2, Option.map_some, or_true]
        refine ⟨?_, trivial⟩
        split
        · rename_i h; rcases h with h | h <;> rw [h]
        · rfl

theorem dropKept_bcast (fl : List Bool) (s idx : List ℕ) (hi : InShape idx s) :
    dropKept true fl (bcastIdx (redShape true fl s) idx) = dropKept true fl idx := by
  induction fl generalizing s idx with
  | nil => simp [dropKept]
  | cons b fl ih =>
    cases hi with
    | nil => cases b <;> simp [redShape, bcastIdx]
    | @cons i n idx s hin hi =>
      have e := ih s idx hi
      cases b with
      | true =>
        simp only [redShape, if_true, bcastIdx, List.zipWith_cons_cons, dropKept, List.tail_cons] at e ⊢
        exact e
      | false =>
        simp only [redShape, bcastIdx, List.zipWith_cons_cons, dropKept] at e ⊢
        rw [e]
        congr 1
        split <;> omega

theorem redIdx_inShape (fl : List Bool) (s idx : List ℕ) (h : s.length = fl.length) (hi : InShape idx s) :
    ∀ i ∈ redIdx fl s (dropKept true fl idx), InShape i s := by
  induction fl generalizing s idx with
  | nil =>
    have : s = [] := by simpa using h
    subst this
    intro i hi'
    simp only [redIdx, List.mem_singleton] at hi'
    rw [hi']; exact List.Forall₂.nil
  | cons b fl ih =>
    cases hi with
    | nil => simp at h
    | @cons i n idx s hin hi =>
      have e := ih s idx (by simpa using h) hi
      cases b with
      | true =>
        simp only [dropKept, if_true, List.tail_cons, redIdx, List.mem_flatMap, List.mem_range, List.mem_map]
        rintro _ ⟨j, hj, k, hk, rfl⟩
        exact List.Forall₂.cons hj (e k hk)
      | false =>
        simp only [dropKept, redIdx, List.mem_map]
        rintro _ ⟨k, hk, rfl⟩
        exact List.Forall₂.cons hin (e k hk)

theorem softmax_one {B : ℕ} (stable : Bool) (fl : List Bool) (expT invT : List ℕ → ℚ → ℚ) (x : Arr ℚ) (s : List ℕ) (hs : x.shape = B :: s)
    (hl : s.length = fl.length) : ∃ o, alkaidSoftmax stable fl expT invT x = some o ∧ (kerasSoftmax stable fl expT invT x).Same o := by
  -- shifted inputs
  obtain ⟨y, hy, hys, hyg⟩ : ∃ y : Arr ℚ, (if stable then npBin (· - ·) (npReduce (poolMax 0) true (false :: fl) x) x else some x) = some y ∧
      y.shape = B :: s ∧ ∀ idx, InShape idx (B :: s) →
        y.get idx = (if stable then ⟨x.shape, fun idx => (npReduce (poolMax 0) true (false :: fl) x).get idx - x.get idx⟩ else x : Arr ℚ).get idx := by
    cases stable with
    | false => exact ⟨x, rfl, hs, fun _ _ => rfl⟩
    | true =>
      simp only [if_true]
      have e : bcDims (npReduce (poolMax 0) true (false :: fl) x).shape x.shape = some (B :: s) := by
        simp [npReduce, hs, redShape, bcDims, (bcDims_red fl s hl).1]
      simp only [npBin, e, Option.map_some]
      refine ⟨_, rfl, rfl, fun idx hidx => ?_⟩
      simp only
      rw [hs, bcastIdx_eq hidx]
      congr 1
      cases hidx with
      | @cons b _ idx _ hb hi =>
        have e2 : bcastIdx (npReduce (poolMax 0) true (false :: fl) x).shape (b :: idx) = b :: bcastIdx (redShape true fl s) idx := by
          simp only [npReduce, hs, redShape, bcastIdx, List.zipWith_cons_cons]
          congr 1
          split <;> omega
        rw [e2, reduce_get _ _ _ _ B s hs, reduce_get _ _ _ _ B s hs, dropKept_bcast fl s idx hi]
  simp only [alkaidSoftmax]
  rw [hy]
  simp only [Option.bind_some, npBin]
  have e : bcDims y.shape (npReduce List.sum true (false :: fl) (⟨y.shape, fun idx => expT idx.tail (y.get idx)⟩ : Arr ℚ)).shape = some (B :: s) := by
    simp [npReduce, hys, redShape, bcDims, (bcDims_red fl s hl).2]
  simp only [e, Option.map_some]
  refine ⟨_, rfl, hs, fun idx hidx => ?_⟩
  have hidx' : InShape idx (B :: s) := by simpa [kerasSoftmax, hs] using hidx
  simp only [kerasSoftmax]
  rw [hys, bcastIdx_eq hidx', hyg idx hidx']
  congr 1
  cases hidx' with
  | @cons b _ idx _ hb hi =>
    have e2 : ∀ z : Arr ℚ, z.shape = B :: s → bcastIdx (npReduce List.sum true (false :: fl) z).shape (b :: idx) = b :: bcastIdx (redShape true fl s) idx := by
      intro z hz
      simp only [npReduce, hz, redShape, bcastIdx, List.zipWith_cons_cons]
      congr 1
      split <;> omega
    rw [e2 _ (by rfl)]
    simp only [List.tail_cons]
    rw [dropKept_bcast fl s idx hi, reduce_get _ _ _ _ B s (by exact hs), reduce_get _ _ _ _ B s (by rfl), dropKept_bcast fl s idx hi]
    congr 2
    refine List.map_congr_left fun i hi' => ?_
    simp only
    rw [hyg _ (List.Forall₂.cons hb (redIdx_inShape fl s idx hl hi i hi'))]

/-! ## Cores, layers -/

theorem core_alkaid (core : Core) (xs : List (Arr ℚ)) (hok : CoreAlkaid core xs) (hB : ∀ x ∈ xs, IsBatch 1 x) :
    SameAs core.keras core.alkaid xs := by
  cases core with
  | dense => exact sameAs_refl _ _
  | conv => exact sameAs_refl _ _
  | merge => exact sameAs_refl _ _
  | bn => exact sameAs_refl _ _
  | pool => exact sameAs_refl _ _
  | globalPool => exact sameAs_refl _ _
  | einsumDense => exact sameAs_refl _ _
  | sum keep fl scale => exact sameAs_refl _ _
  | lut f =>
    intro out h
    match xs, h with
    | [x], h =>
      simp only [Core.keras, single, Option.some.injEq] at h
      subst h
      exact ⟨_, rfl, rfl, fun idx _ => rfl⟩
    | [], h => simp [Core.keras, single] at h
    | _ :: _ :: _, h => simp [Core.keras, single] at h
  | softmax stable fl expT invT =>
    intro out h
    match xs, hok, hB, h with
    | [x], hok, hB, h =>
      simp only [Core.keras, single, Option.some.injEq] at h
      subst h
      obtain ⟨s, hs⟩ := hB x (by simp)
      have hl := hok x (by simp)
      exact softmax_one stable fl expT invT x s hs (by rw [hs] at hl; simpa using hl)
    | [], _, _, h => simp [Core.keras, single] at h
    | _ :: _ :: _, _, _, h => simp [Core.keras, single] at h
  | einsum aL bL outL =>
    intro out h
    match xs, h with
    | [x, y], h => exact ⟨out, h, Arr.Same.rfl' out⟩
    | [], h => simp [Core.keras, double] at h
    | [_], h => simp [Core.keras, double] at h
    | _ :: _ :: _ :: _, h => simp [Core.keras, double] at h
  | avgPow2 scale =>
    intro out h
    simp only [Core.keras, Option.map_eq_some_iff] at h
    obtain ⟨a, ha, rfl⟩ := h
    obtain ⟨o, ho, hs⟩ := merge_one (· + ·) List.sum xs (fun v l => by rw [List.sum_eq_foldl, List.foldl_cons, zero_add]) hB a ha
    refine ⟨⟨o.shape, fun idx => o.get idx * scale⟩, by simp only [Core.alkaid, ho, Option.map_some], hs.1, fun idx hidx => ?_⟩
    simp only
    rw [hs.2 idx hidx]

theorem iq_alkaid (qs : List ArrQuant) (hq : ∀ q ∈ qs, QuantOk q) (xs ins : List (Arr ℚ))
    (h : (List.zipWith (fun q x => run (ArrQuant.keras q x)) qs xs).mapM id = some ins) :
    (List.zipWith (fun q x => run (ArrQuant.alkaid q x)) qs xs).mapM id = some ins := by
  induction qs generalizing xs ins with
  | nil => simpa using h
  | cons q qs ih =>
    cases xs with
    | nil => simpa using h
    | cons x xs =>
      simp only [List.zipWith_cons_cons, List.mapM_cons, id] at h ⊢
      cases h1 : run (q.keras x) with
      | none => simp [h1] at h
      | some y =>
        simp only [h1, Option.pure_def, Option.bind_eq_bind, Option.bind_some] at h
        cases h2 : (List.zipWith (fun q x => run (ArrQuant.keras q x)) qs xs).mapM id with
        | none => rw [h2] at h; simp at h
        | some ys =>
          rw [h2] at h
          have e := sameAs_run (k := single q.keras) (r := single q.alkaid) (xs := [x])
            (fun out ho => quant_alkaid q (hq q (List.mem_cons_self ..)) x out ho) y h1
          simp only [single] at e
          rw [e, ih (fun q' hq' => hq q' (List.mem_cons_of_mem _ hq')) xs ys h2]
          simpa using h

theorem kerasIq_batch {B : ℕ} (iq : Option (List ArrQuant)) (hiq : ∀ qs ∈ iq, ∀ q ∈ qs, QuantBatch q) (xs ins : List (Arr ℚ))
    (hB : ∀ x ∈ xs, IsBatch B x) (h : kerasIq iq xs = some ins) : ∀ x ∈ ins, IsBatch B x := by
  cases iq with
  | none =>
    simp only [kerasIq, Option.some.injEq] at h
    subst h; exact hB
  | some qs =>
    simp only [kerasIq] at h
    split at h
    · exact (iq_batch (σ := []) (by simp) qs (hiq qs rfl) xs hB ins h).1
    · simp at h

/-- A layer on a batch of one: all recorded stages. -/
theorem qlayer_alkaid (iq : Option (List ArrQuant)) (core : Core) (rl : Bool) (oq : Option ArrQuant)
    (hiq : ∀ qs ∈ iq, ∀ q ∈ qs, QuantOk q) (hoq : ∀ q ∈ oq, QuantOk q) (xs : List (Arr ℚ))
    (hcore : ∀ ins, kerasIq iq xs = some ins → CoreAlkaid core ins) (hB : ∀ x ∈ xs, IsBatch 1 x) (st : LStages)
    (h : kerasQLayer iq core rl oq xs = some st) : alkaidQLayer iq core rl oq xs = some ⟨st.postIq, st.final⟩ := by
  unfold kerasQLayer at h
  cases hins : kerasIq iq xs with
  | none => simp [hins] at h
  | some ins =>
  have hinsB := kerasIq_batch iq (fun qs hqs q hq => (hiq qs hqs q hq).1) xs ins hB hins
  have hrep : alkaidIq iq xs = some ins := by
    cases iq with
    | none => exact hins
    | some qs =>
      simp only [kerasIq] at hins
      split at hins
      · exact iq_alkaid qs (hiq qs rfl) xs ins hins
      · simp at hins
  rw [hins] at h
  simp only [Option.bind_some] at h
  cases hc : run (core.keras ins) with
  | none => simp [hc] at h
  | some c =>
    have hcr := sameAs_run (core_alkaid core ins (hcore ins hins) hinsB) c hc
    simp only [hc, Option.bind_some] at h
    unfold alkaidQLayer
    simp only [hrep, Option.bind_some, hcr]
    cases oq with
    | none =>
      simp only [Option.some.injEq] at h
      subst h
      rfl
    | some q =>
      simp only at h ⊢
      cases ho : run (q.keras (reluKeras rl c)) with
      | none => simp [ho] at h
      | some o =>
        simp only [ho, Option.map_some, Option.some.injEq] at h
        subst h
        have e := sameAs_run (k := single q.keras) (r := single q.alkaid) (xs := [reluKeras rl c])
          (fun out ho' => quant_alkaid q (hoq q rfl) _ out ho') o ho
        simp only [single] at e
        rw [e]; rfl

theorem stages_postIq {iq : Option (List ArrQuant)} {core : Core} {rl : Bool} {oq : Option ArrQuant} {xs : List (Arr ℚ)} {st : LStages}
    (h : kerasQLayer iq core rl oq xs = some st) : ∃ ins, kerasIq iq xs = some ins ∧ st.postIq = iq.map fun _ => ins := by
  unfold kerasQLayer at h
  cases hins : kerasIq iq xs with
  | none => simp [hins] at h
  | some ins =>
    refine ⟨ins, rfl, ?_⟩
    rw [hins] at h
    simp only [Option.bind_some] at h
    cases hc : run (core.keras ins) with
    | none => simp [hc] at h
    | some c =>
      simp only [hc, Option.bind_some] at h
      cases oq with
      | none =>
        simp only [Option.some.injEq] at h
        subst h; rfl
      | some q =>
        simp only [Option.map_eq_some_iff] at h
        obtain ⟨o, _, rfl⟩ := h
        rfl

theorem kerasIq_pick {B : ℕ} {σ : List ℕ} (hσ : ∀ j ∈ σ, j < B) (iq : Option (List ArrQuant)) (hiq : ∀ qs ∈ iq, ∀ q ∈ qs, QuantBatch q)
    (xs ins : List (Arr ℚ)) (hB : ∀ x ∈ xs, IsBatch B x) (h : kerasIq iq xs = some ins) :
    kerasIq iq (xs.map (pick σ)) = some (ins.map (pick σ)) := by
  cases iq with
  | none =>
    simp only [kerasIq, Option.some.injEq] at h ⊢
    rw [h]
  | some qs =>
    simp only [kerasIq] at h ⊢
    split at h
    · rename_i hl
      rw [if_pos (by simpa using hl)]
      exact (iq_batch hσ qs (hiq qs rfl) xs hB ins h).2
    · simp at h

theorem coreAlkaid_batch {core : Core} {ins : List (Arr ℚ)} (h : CoreAlkaid core ins) : CoreBatch core := by
  cases core <;> first | exact h | trivial

theorem coreAlkaid_pick {B : ℕ} {core : Core} {ins : List (Arr ℚ)} (hB : ∀ x ∈ ins, IsBatch B x) (σ : List ℕ) (h : CoreAlkaid core ins) :
    CoreAlkaid core (ins.map (pick σ)) := by
  cases core with
  | softmax =>
    intro x hx
    obtain ⟨y, hy, rfl⟩ := List.mem_map.1 hx
    obtain ⟨s, hs⟩ := hB y hy
    have := h y hy
    rw [hs] at this
    rw [pick_shape σ y hs]
    simpa using this
  | _ => exact h

/-- **C105 (one quantized layer, partial).** For every quantized layer and every batch on which the Keras layer computes: the layer converted by
the Alkaid plugin, fed with one sample (as a batch of one), computes, and its recorded stages `post_iq` and `final` are this sample of the
quantized inputs and of the output of Keras. -/
theorem C105_layer_stages_partial (B b : ℕ) (hb : b < B) (iq : Option (List ArrQuant)) (core : Core) (rl : Bool) (oq : Option ArrQuant)
    (hiq : ∀ qs ∈ iq, ∀ q ∈ qs, QuantOk q) (hoq : ∀ q ∈ oq, QuantOk q) (xs : List (Arr ℚ))
    (hcore : ∀ ins, kerasIq iq xs = some ins → CoreAlkaid core ins) (hB : ∀ x ∈ xs, IsBatch B x) (st : LStages)
    (h : kerasQLayer iq core rl oq xs = some st) :
    alkaidQLayer iq core rl oq (xs.map (pick [b])) = some ⟨st.postIq.map (·.map (pick [b])), pick [b] st.final⟩ := by
  have hσ : ∀ j ∈ [b], j < B := by simpa using hb
  have hiq' : ∀ qs ∈ iq, ∀ q ∈ qs, QuantBatch q := fun qs hqs q hq => (hiq qs hqs q hq).1
  obtain ⟨ins, hins, hpost⟩ := stages_postIq h
  have hinsp := kerasIq_pick hσ iq hiq' xs ins hB hins
  have hf := (qlayer_batch hσ iq core rl oq hiq' (coreAlkaid_batch (hcore ins hins)) (fun q hq => (hoq q hq).1) xs hB st.final (by simp only [h, Option.map_some])).2
  obtain ⟨st', hst', hfin⟩ := Option.map_eq_some_iff.1 hf
  obtain ⟨ins', hins', hpost'⟩ := stages_postIq hst'
  have : ins' = ins.map (pick [b]) := by rw [hinsp] at hins'; exact (Option.some.inj hins').symm
  subst this
  rw [qlayer_alkaid iq core rl oq hiq hoq _ (fun ins'' h'' => by
      rw [hinsp] at h''
      obtain rfl := Option.some.inj h''
      exact coreAlkaid_pick (kerasIq_batch iq hiq' xs ins hB hins) [b] (hcore ins hins)) (batches_pick [b] xs) st' hst', hfin, hpost', hpost]
  cases iq <;> rfl

theorem layerAlkaid_batch {l : LLayer} {xs : List (Arr ℚ)} {out : Arr ℚ} (h : LayerAlkaid l xs) (ho : l.keras xs = some out) : LayerBatch l xs := by
  cases l with
  | quantizer q => exact h.1
  | qlayer iq core rl oq =>
    obtain ⟨st, hst, _⟩ := Option.map_eq_some_iff.1 ho
    obtain ⟨ins, hins, _⟩ := stages_postIq hst
    exact ⟨fun qs hqs q hq => (h.1 qs hqs q hq).1, coreAlkaid_batch (h.2.1 ins hins), fun q hq => (h.2.2 q hq).1⟩
  | _ => exact h

/-- **C105 (one layer, partial).** -/
theorem C105_layer_partial {B b : ℕ} (hb : b < B) (l : LLayer) (xs : List (Arr ℚ)) (hok : LayerAlkaid l xs) (hB : ∀ x ∈ xs, IsBatch B x)
    (out : Arr ℚ) (h : l.keras xs = some out) : IsBatch B out ∧ l.alkaid (xs.map (pick [b])) = some (pick [b] out) := by
  have hσ : ∀ j ∈ [b], j < B := by simpa using hb
  obtain ⟨h1, h2⟩ := C104_layer_partial hσ l xs (layerAlkaid_batch hok h) hB out h
  refine ⟨h1, ?_⟩
  cases l with
  | quantizer q =>
    exact sameAs_run (k := single q.keras) (r := single q.alkaid) (fun o ho => by
      match xs, ho with
      | [x], ho => exact quant_alkaid q hok _ o ho
      | [], ho => simp [single] at ho
      | _ :: _ :: _, ho => simp [single] at ho) _ h2
  | qlayer iq core rl oq =>
    obtain ⟨st, hst, rfl⟩ := Option.map_eq_some_iff.1 h
    simp only [LLayer.alkaid]
    rw [C105_layer_stages_partial B b hb iq core rl oq hok.1 hok.2.2 xs hok.2.1 hB st hst]
    rfl
  | _ => exact h2

/-- The converted graph. -/
def Spec.alkaidGraph {T : Type} (byDepth : ℕ → List (LNode T)) : ℕ → List (GNode T (Arr ℚ)) := fun d => (byDepth d).map (·.alkaidNode)

/-- **C105 (partial).** For every functional model (any acyclic graph of the modelled layers), every batch and every sample of it: if the Keras
model computes on the batch (`kval` the value of every tensor), the model converted by the Alkaid plugin computes on this sample, and its
outputs are exactly this sample of the outputs of Keras.  Missing: layers outside `LLayer` (the plugin has handlers for attention, tables,
recurrent and spiking layers; C74, C79, C80); the handlers inherited from the external converter and its graph walk are trusted. -/
theorem C105_alkaid_end_to_end_partial {T : Type} [DecidableEq T] (B b : ℕ) (hb : b < B) (inputs : List (T × Arr ℚ))
    (byDepth : ℕ → List (LNode T)) (D : ℕ) (outputs : List T) (kval : T → Arr ℚ) (hin : ∀ p ∈ inputs, IsBatch B p.2)
    (hacyc : DepthOrdered inputs (kerasGraph byDepth) D) (hsol : Solves inputs (parseModel (kerasGraph byDepth) D) kval)
    (hok : ∀ d ≤ D, ∀ n ∈ byDepth d, n.isInput = false → LayerAlkaid n.layer (n.requires.map kval))
    (hout : ∀ t ∈ outputs, t ∈ inputs.map (·.1) ∨ ∃ d ≤ D, ∃ n ∈ byDepth d, n.isInput = false ∧ t = n.produces) :
    traceOutputs (inputs.map fun p => (p.1, pick [b] p.2)) (parseModel (alkaidGraph byDepth) D) outputs =
      some (outputs.map fun t => pick [b] (kval t)) := by
  have hkeras : ∀ d ≤ D, ∀ n ∈ byDepth d, n.isInput = false → ∃ out, n.layer.keras (n.requires.map kval) = some out ∧ kval n.produces = out := by
    intro d hd n hn hi
    have he := hsol.2 n.kerasNode ((mem_parseModel _ _ _).2 ⟨d, hd, List.mem_map_of_mem hn⟩) hi
    simp only [LNode.kerasNode, List.map_cons, List.map_nil] at he
    cases hk' : n.layer.keras (n.requires.map kval) with
    | none => simp [hk', optList] at he
    | some out =>
      simp only [hk', optList, List.cons.injEq, and_true] at he
      exact ⟨out, rfl, he⟩
  have hok' : ∀ d ≤ D, ∀ n ∈ byDepth d, n.isInput = false → LayerBatch n.layer (n.requires.map kval) := fun d hd n hn hi => by
    obtain ⟨out, h, _⟩ := hkeras d hd n hn hi
    exact layerAlkaid_batch (hok d hd n hn hi) h
  have hacyc' : DepthOrdered (inputs.map fun p => (p.1, pick [b] p.2)) (alkaidGraph byDepth) D := by
    intro d hd n hn t ht
    obtain ⟨m, hm, rfl⟩ := List.mem_map.1 hn
    rcases hacyc d hd m.kerasNode (List.mem_map_of_mem hm) t ht with h | ⟨d', hd', hlt, n', hn', hi', ht'⟩
    · left; simpa [List.map_map, Function.comp_def] using h
    · obtain ⟨m', hm', rfl⟩ := List.mem_map.1 hn'
      exact Or.inr ⟨d', hd', hlt, m'.alkaidNode, List.mem_map_of_mem hm', hi', ht'⟩
  have hsol' : Solves (inputs.map fun p => (p.1, pick [b] p.2)) (parseModel (alkaidGraph byDepth) D) (fun t => pick [b] (kval t)) := by
    constructor
    · intro p hp
      obtain ⟨q, hq, rfl⟩ := List.mem_map.1 hp
      simp only [hsol.1 q hq]
    · intro n hn hi
      obtain ⟨d, hd, hn'⟩ := (mem_parseModel _ _ _).1 hn
      obtain ⟨m, hm, rfl⟩ := List.mem_map.1 hn'
      have hreq := (all_batches_pick inputs byDepth D kval hin hacyc hsol hok' (D - d) d hd le_rfl m hm).1
      obtain ⟨out, hk', he⟩ := hkeras d hd m hm hi
      have hf := (C105_layer_partial hb m.layer _ (hok d hd m hm hi) (fun x hx => by
        obtain ⟨t, ht, rfl⟩ := List.mem_map.1 hx; exact hreq t ht) out hk').2
      simp only [LNode.alkaidNode, List.map_cons, List.map_nil]
      rw [List.map_map] at hf
      rw [he, show List.map (fun t => pick [b] (kval t)) m.requires = List.map (pick [b] ∘ kval) m.requires from rfl, hf]
      rfl
  refine (C45_graph_replay _ _ D outputs _ hacyc' hsol' ?_).1
  intro t ht
  rcases hout t ht with h | ⟨d, hd, n, hn, hi, rfl⟩
  · left; simpa [List.map_map, Function.comp_def] using h
  · exact Or.inr ⟨n.alkaidNode, (mem_parseModel _ _ _).2 ⟨d, hd, List.mem_map_of_mem hn⟩, hi, by simp [LNode.alkaidNode]⟩

/-! ## Where it fails -/

/-- A quantizer with scaler 2: 1 integer bit and 1 fractional bit of `x / 2`. -/
def scaledQ : ArrQuant := ⟨.RND, .SAT, some 2, none, [1, 1], fun _ => true, fun _ => 2, fun _ => 1⟩

/-- **C105 fails with a scaler**: the converted quantizer divides by the scaler and does not multiply back. -/
theorem C105_scaler_violated : ∃ (q : ArrQuant) (x y z : Arr ℚ), IsBatch 1 x ∧ (LLayer.quantizer q).keras [x] = some y ∧
    (LLayer.quantizer q).alkaid [x] = some z ∧ y.get [0, 0] = 2 ∧ z.get [0, 0] = 1 :=
  ⟨scaledQ, ⟨[1, 1], fun _ => 2⟩, _, _, ⟨[1], rfl⟩, rfl, rfl, by decide +kernel, by decide +kernel⟩

/-- Widths that vary along the batch axis of a model built for a fixed batch of two. -/
def twoBatchQ : ArrQuant := ⟨.RND, .SAT, none, none, [2, 1], fun _ => true, fun j => if j.headD 0 = 0 then 1 else 3, fun _ => 0⟩

/-- **C105 fails for a quantizer that is heterogeneous along the batch axis**: Keras computes on the batch of two, the conversion is an error for
every input, since its widths cannot be broadcast to a batch of one. -/
theorem C105_batch_axis_violated : ∃ (q : ArrQuant) (x y : Arr ℚ), IsBatch 2 x ∧ (LLayer.quantizer q).keras [x] = some y ∧
    (LLayer.quantizer q).alkaid [pick [0] x] = none ∧ (LLayer.quantizer q).alkaid [pick [1] x] = none :=
  ⟨twoBatchQ, ⟨[2, 1], fun _ => 5⟩, _, ⟨[1], rfl⟩, rfl, by decide +kernel, by decide +kernel⟩

/-! ## Concrete cases -/

/-- The model of C91, converted by Alkaid. -/
example : LayerAlkaid exDense [exV1] ∧ (exDense.alkaid [pick [1] exV1]) = some (pick [1] exV2) ∧
    ((List.range 2).map fun j => (pick [1] exV2).get [0, j]) = [0, 7] := by
  have hd : LayerAlkaid exDense [exV1] := by
    refine ⟨?_, fun ins _ => trivial, ?_⟩
    · intro qs hqs q hq
      have : qs = [exQ] := by simpa using hqs.symm
      subst this
      have : q = exQ := by simpa using hq
      rw [this]; exact exQ_ok
    · intro q hq
      have : q = exQ := by simpa using hq.symm
      rw [this]; exact exQ_ok
  have hk : exDense.keras [exV1] = some exV2 := by
    have h : (exDense.keras [exV1]).isSome = true := by decide +kernel
    unfold exV2
    cases e : exDense.keras [exV1] with
    | none => rw [e] at h; simp at h
    | some v => rfl
  refine ⟨hd, ?_, by decide +kernel⟩
  have := (C105_layer_partial (B := 2) (b := 1) (by decide) exDense [exV1] hd (by
    intro x hx
    have : x = exV1 := by simpa using hx
    subst this; exact ⟨[2], by decide +kernel⟩) exV2 hk).2
  simpa using this

/-- Average of a matrix and a vector per sample, softmax over the last axis. -/
example : ∃ o, (Core.avgPow2 (1 / 2)).alkaid [⟨[1, 2, 2], fun i => i.getD 1 0 + 3 * i.getD 2 0⟩, ⟨[1, 2], fun i => i.getD 1 0⟩] = some o ∧
    o.shape = [1, 2, 2] ∧ (List.range 2).map (fun j => o.get [0, 1, j]) = [1 / 2, 5 / 2] := by
  refine ⟨_, rfl, by decide +kernel, by decide +kernel⟩

example : ∃ o, (Core.softmax true [false, true] (fun _ v => 4 - v) fun _ v => 1 / v).alkaid [⟨[1, 2, 2], fun i => i.getD 1 0 + 3 * i.getD 2 0⟩] = some o ∧
    o.shape = [1, 2, 2] ∧ (List.range 2).map (fun j => o.get [0, 1, j]) = [1 / 5, 4 / 5] := by
  refine ⟨_, rfl, by decide +kernel, by decide +kernel⟩

end HGQ
