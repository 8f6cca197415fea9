import Verif.Props.AttnMask
import Verif.Props.EndToEndF32
import Verif.Props.RnnValues

/-!
# C114: causal models
-/
namespace HGQ
open Spec

/-! ## Specification -/

/-- Two batches of sequences (axis 1 is time) that agree up to time `T`. -/
def Spec.SameUpTo (T : ℕ) (x y : Arr ℚ) : Prop := x.shape = y.shape ∧ ∀ idx, InShape idx x.shape → idx.getD 1 0 ≤ T → x.get idx = y.get idx

/-- A mask on `[head, query time, key time]` that lets through no later keys. -/
def Spec.CausalMask (mask : List ℕ → Bool) : Prop := ∀ h t s, mask [h, t, s] = true → s ≤ t

/-- Cores of layers that do not look ahead, by their parameters and the shapes of the inputs. -/
def Spec.CausalCore (core : Core) (xs : List (Arr ℚ)) : Prop :=
  match core with
  /- The last axis is not time. -/
  | .dense _ _ _ _ => ∀ x ∈ xs, 3 ≤ x.shape.length
  /- Patches contain nothing later than the position of the output. -/
  | .conv _ _ _ _ osp geo _ _ => ∀ x ∈ xs, 2 ≤ x.shape.length ∧ ∀ p, InShape p osp → ∀ j i, geo p j = some i → i < x.shape.tail.prod ∧ (unflat x.shape.tail i).headD 0 ≤ p.headD 0
  | .merge _ | .avgPow2 _ => ∀ x ∈ xs, ∀ y ∈ xs, x.shape.length = y.shape.length ∧ x.shape ≠ []
  | .sum _ fl _ => ∃ f, fl = false :: f ∧ ∀ x ∈ xs, x.shape.length = fl.length + 1
  | .softmax _ fl _ _ => ∃ f, fl = false :: f ∧ ∀ x ∈ xs, x.shape.length = fl.length + 1
  | .bn _ _ _ _ | .lut _ => True
  /- Time is kept at its place. -/
  | .einsumDense inL _ outL _ _ => outL.Nodup ∧ ∃ l, inL[1]? = some l ∧ outL[1]? = some l
  | _ => False

def Spec.CausalLLayer (l : LLayer) (xs : List (Arr ℚ)) : Prop :=
  match l with
  | .quantizer _ | .relu _ _ | .abs | .prelu _ | .noop => True
  | .qlayer _ core _ _ => CausalCore core xs
  | _ => False

/-- Layers that do not look ahead: attention with a causal mask, recurrent layers that run forwards and return sequences, and layers that act on each time step. -/
def Spec.CausalLayer (l : VLayer) (xs : List (Arr ℚ)) : Prop :=
  match l with
  | .base (.base (.base (.base (.base l)))) => CausalLLayer l xs
  | .base (.base (.base (.base (.mha m _ (some mask) _)))) => m.n = 2 ∧ m.conv = none ∧ m.smOq.affine = none ∧ CausalMask mask
  | .base (.base (.base (.denseT _ _))) => ∀ x ∈ xs, 3 ≤ x.shape.length
  | .base (.base (.rnn l)) => l.goBackwards = false ∧ l.out = .seq ∧ xs.length = 1
  | .mhaT m _ _ (some mask) _ => m.n = 2 ∧ MhaTBuilt m ∧ m.smOq.affine = none ∧ CausalMask mask
  | _ => False

/-! ## Pointwise and row-wise operations -/

theorem upto_opt {T : ℕ} {q : Option ArrQuant} {x y u v : Arr ℚ} (h : SameUpTo T x y) (hu : kerasOpt q x = some u) (hv : kerasOpt q y = some v) : SameUpTo T u v :=
  agree_opt h.1 h.2 hu hv

theorem upto_norm {T : ℕ} {x y : Arr ℚ} (h : SameUpTo T x y) : SameUpTo T x.norm y.norm := by
  refine ⟨h.1, fun idx hi ht => ?_⟩
  rw [norm_get (show InShape idx x.shape from hi), norm_get (show InShape idx y.shape from h.1 ▸ hi)]
  exact h.2 idx hi ht

/-- A function of the entry and its index. -/
theorem upto_map {T : ℕ} {x y : Arr ℚ} (g : List ℕ → ℚ → ℚ) (h : SameUpTo T x y) :
    SameUpTo T ⟨x.shape, fun idx => g idx (x.get idx)⟩ ⟨y.shape, fun idx => g idx (y.get idx)⟩ :=
  ⟨h.1, fun idx hi ht => by simp only; rw [h.2 idx hi ht]⟩

theorem upto_relu {T : ℕ} (rl : Bool) {x y : Arr ℚ} (h : SameUpTo T x y) : SameUpTo T (reluKeras rl x) (reluKeras rl y) := by
  unfold reluKeras
  split
  · exact upto_norm (upto_map (fun _ v => if v > 0 then v else 0) h)
  · exact h

theorem redIdx_inS (keep : Bool) (fl : List Bool) (s idx : List ℕ) (hl : fl.length = s.length) (h : InShape idx (redShape keep fl s)) :
    ∀ r ∈ redIdx fl s (dropKept keep fl idx), InShape r s := by
  induction fl generalizing s idx with
  | nil =>
    cases s with
    | nil => intro r hr; simp [redIdx] at hr; subst hr; exact List.Forall₂.nil
    | cons _ _ => simp at hl
  | cons f fl ih =>
    cases s with
    | nil => simp at hl
    | cons n s =>
      have hl' : fl.length = s.length := by simpa using hl
      intro r hr
      cases f with
      | false =>
        simp only [redShape] at h
        cases h with
        | cons h1 h2 =>
          simp only [dropKept, redIdx, List.mem_map] at hr
          obtain ⟨r', hr', rfl⟩ := hr
          exact List.Forall₂.cons h1 (ih s _ hl' h2 r' hr')
      | true =>
        have key : ∃ idx', InShape idx' (redShape keep fl s) ∧ r ∈ redIdx (true :: fl) (n :: s) (dropKept keep fl idx') := by
          cases keep with
          | false => exact ⟨idx, by simpa [redShape] using h, by simpa [dropKept] using hr⟩
          | true =>
            simp only [redShape, if_true] at h
            cases h with
            | cons h1 h2 => exact ⟨_, h2, by simpa [dropKept] using hr⟩
        obtain ⟨idx', h1, h2⟩ := key
        simp only [redIdx, List.mem_flatMap, List.mem_map, List.mem_range] at h2
        obtain ⟨i, hi, r', hr', rfl⟩ := h2
        exact List.Forall₂.cons hi (ih s idx' hl' h1 r' hr')

theorem redIdx_time (keep : Bool) (fl : List Bool) (s idx : List ℕ) (hl : s.length = fl.length + 2) (h : InShape idx (redShape keep (false :: false :: fl) s)) :
    ∀ r ∈ redIdx (false :: false :: fl) s (dropKept keep (false :: false :: fl) idx), r.getD 1 0 = idx.getD 1 0 := by
  match s, hl with
  | a :: b :: s, hl =>
    simp only [redShape] at h
    cases h with
    | cons h1 h2 =>
      cases h2 with
      | cons h3 h4 =>
        intro r hr
        simp only [dropKept, redIdx, List.mem_map] at hr
        obtain ⟨_, ⟨r', -, rfl⟩, rfl⟩ := hr
        rfl

/-- A reduction over axes other than batch and time. -/
theorem upto_reduce {T : ℕ} (red : List ℚ → ℚ) (keep : Bool) (fl : List Bool) {x y : Arr ℚ} (hl : x.shape.length = fl.length + 2) (h : SameUpTo T x y) :
    SameUpTo T (npReduce red keep (false :: false :: fl) x) (npReduce red keep (false :: false :: fl) y) := by
  refine ⟨by simp only [npReduce]; rw [h.1], fun idx hi ht => ?_⟩
  simp only [npReduce] at hi ⊢
  rw [← h.1]
  congr 1
  refine List.map_congr_left fun r hr => h.2 r (redIdx_inS keep _ _ idx (by simp [hl]) hi r hr) ?_
  rw [redIdx_time keep fl _ idx hl hi r hr]
  exact ht

/-- Where a broadcast entry comes from. -/
theorem bcastIdx_time (s idx : List ℕ) : (bcastIdx s idx).getD 1 0 ≤ idx.getD 1 0 := by
  match s, idx with
  | [], _ => simp [bcastIdx]
  | _ :: _, [] => simp [bcastIdx]
  | [_], _ :: _ => simp [bcastIdx]
  | _ :: _ :: _, [_] => simp [bcastIdx]
  | _ :: _ :: _, _ :: _ :: _ =>
    simp only [bcastIdx, List.zipWith_cons_cons, List.getD_cons_succ, List.getD_cons_zero]
    split <;> omega

theorem upto_bin {T : ℕ} (op : ℚ → ℚ → ℚ) {x y x' y' u v : Arr ℚ} (hx : SameUpTo T x x') (hy : SameUpTo T y y') (hu : npBin op x y = some u) (hv : npBin op x' y' = some v) :
    SameUpTo T u v := by
  unfold npBin at hu hv
  obtain ⟨s, hs, rfl⟩ := Option.map_eq_some_iff.1 hu
  obtain ⟨s', hs', rfl⟩ := Option.map_eq_some_iff.1 hv
  rw [← hx.1, ← hy.1, hs] at hs'
  obtain rfl := Option.some.inj hs'
  refine ⟨rfl, fun idx hi ht => ?_⟩
  have hb := inShape_bcast hs hi
  simp only
  rw [← hx.1, ← hy.1, hx.2 _ hb.1 (le_trans (bcastIdx_time _ _) ht), hy.2 _ hb.2 (le_trans (bcastIdx_time _ _) ht)]

theorem upto_bins {T : ℕ} (op : ℚ → ℚ → ℚ) (xs ys : List (Arr ℚ)) (h : List.Forall₂ (SameUpTo T) xs ys) {x y u v : Arr ℚ} (hx : SameUpTo T x y)
    (hu : xs.foldlM (npBin op) x = some u) (hv : ys.foldlM (npBin op) y = some v) : SameUpTo T u v := by
  induction h generalizing x y with
  | nil =>
    simp only [List.foldlM_nil, pure, Option.some.injEq] at hu hv
    subst hu hv
    exact hx
  | cons h1 h2 ih =>
    simp only [List.foldlM_cons] at hu hv
    obtain ⟨a, ha, hu⟩ := Option.bind_eq_some_iff.1 hu
    obtain ⟨b, hb, hv⟩ := Option.bind_eq_some_iff.1 hv
    exact ih (upto_bin op hx h1 ha hb) hu hv

theorem padBatch_zero {x : Arr ℚ} (h : x.shape ≠ []) {T : ℕ} {y : Arr ℚ} (hy : SameUpTo T x y) : SameUpTo T (x.padBatch 0) (y.padBatch 0) := by
  have e : ∀ z : Arr ℚ, z.shape ≠ [] → (z.padBatch 0).shape = z.shape := by
    intro z hz
    cases hs : z.shape with
    | nil => exact absurd hs hz
    | cons a r => simp [Arr.padBatch, hs]
  refine ⟨by rw [e x h, e y (hy.1 ▸ h), hy.1], fun idx hi ht => ?_⟩
  rw [e x h] at hi
  have hne : idx ≠ [] := by
    rintro rfl
    exact h (List.eq_nil_of_length_eq_zero (by simpa using hi.length_eq.symm))
  have : idx.headD 0 :: idx.tail = idx := by
    cases idx with
    | nil => exact absurd rfl hne
    | cons _ _ => rfl
  simp only [Arr.padBatch, List.drop_zero, this]
  exact hy.2 idx hi ht

theorem foldl_max_const (l : List ℕ) (n : ℕ) (hl : ∀ a ∈ l, a = n) (z : ℕ) (hz : z ≤ n) : l.foldl max z ≤ n := by
  induction l generalizing z with
  | nil => simpa
  | cons a l ih =>
    rw [List.foldl_cons]
    exact ih (fun b hb => hl b (by simp [hb])) _ (by rw [hl a (by simp)]; omega)

theorem upto_merge {T : ℕ} (op : ℚ → ℚ → ℚ) {xs ys : List (Arr ℚ)} (h : List.Forall₂ (SameUpTo T) xs ys) (hr : ∀ x ∈ xs, ∀ y ∈ xs, x.shape.length = y.shape.length ∧ x.shape ≠ [])
    {u v : Arr ℚ} (hu : kerasMerge op xs = some u) (hv : kerasMerge op ys = some v) : SameUpTo T u v := by
  cases h with
  | nil => simp [kerasMerge] at hu
  | @cons x y xs ys h1 h2 =>
    have hpad : ∀ (a b : Arr ℚ) (as bs : List (Arr ℚ)), (∀ z ∈ a :: as, z.shape.length = a.shape.length) →
        ∀ z ∈ a :: as, ((a :: as).map fun x => x.shape.length).foldl max 0 - z.shape.length = 0 := by
      intro a b as bs hh z hz
      have := foldl_max_const ((a :: as).map fun x => x.shape.length) a.shape.length (by simpa using hh) 0 (by omega)
      rw [hh z hz]
      omega
    have hX : ∀ z ∈ x :: xs, z.shape.length = x.shape.length := fun z hz => (hr z hz x (by simp)).1
    have hY : ∀ z ∈ y :: ys, z.shape.length = y.shape.length := by
      intro z hz
      have key : ∀ (as bs : List (Arr ℚ)), List.Forall₂ (SameUpTo T) as bs → ∀ b ∈ bs, ∃ a ∈ as, a.shape = b.shape := by
        intro as bs hab
        induction hab with
        | nil => simp
        | cons g1 g2 ih =>
          intro b hb
          rcases List.mem_cons.1 hb with rfl | hb
          · exact ⟨_, by simp, g1.1⟩
          · obtain ⟨a, ha, e⟩ := ih b hb
            exact ⟨a, by simp [ha], e⟩
      obtain ⟨a, ha, e⟩ := key _ _ (List.Forall₂.cons h1 h2) z hz
      rw [← e, ← h1.1]
      exact hX a ha
    have eX : ((x :: xs).map fun z => z.padBatch (((x :: xs).map fun x => x.shape.length).foldl max 0 - z.shape.length)) = (x :: xs).map fun z => z.padBatch 0 :=
      List.map_congr_left fun z hz => by rw [hpad x y xs ys hX z hz]
    have eY : ((y :: ys).map fun z => z.padBatch (((y :: ys).map fun x => x.shape.length).foldl max 0 - z.shape.length)) = (y :: ys).map fun z => z.padBatch 0 :=
      List.map_congr_left fun z hz => by rw [hpad y x ys xs hY z hz]
    unfold kerasMerge at hu hv
    simp only [eX] at hu
    simp only [eY] at hv
    simp only [List.map_cons] at hu hv
    refine upto_bins op _ _ ?_ (padBatch_zero (hr x (by simp) x (by simp)).2 h1) hu hv
    have hne : ∀ z ∈ xs, z.shape ≠ [] := fun z hz => (hr z (by simp [hz]) z (by simp [hz])).2
    clear eX eY hX hY hpad hu hv hr
    induction h2 with
    | nil => exact List.Forall₂.nil
    | cons g1 g2 ih => exact List.Forall₂.cons (padBatch_zero (hne _ (by simp)) g1) (ih fun z hz => hne z (by simp [hz]))

/-! ## Layers on each time step -/

theorem upto_dense {T n m : ℕ} {K : ℕ → ℕ → ℚ} {bias : ℕ → ℚ} {x y u v : Arr ℚ} (hr : 3 ≤ x.shape.length) (h : SameUpTo T x y)
    (hu : lastAxisDense n m K bias x = some u) (hv : lastAxisDense n m K bias y = some v) : SameUpTo T u v := by
  unfold lastAxisDense at hu hv
  rw [← h.1] at hv
  split at hu
  swap
  · simp at hu
  rename_i hc
  rw [if_pos hc] at hv
  obtain rfl := Option.some.inj hu
  obtain rfl := Option.some.inj hv
  refine ⟨rfl, fun idx hi ht => ?_⟩
  have hne : x.shape ≠ [] := by rintro e; simp [e] at hr
  have hlast : x.shape = x.shape.dropLast ++ [n] := by
    rw [List.getLast?_eq_some_iff] at hc
    obtain ⟨l, hl⟩ := hc
    rw [hl, List.dropLast_concat]
  obtain ⟨i1, i2, e, h1, h2⟩ : ∃ i1 i2, idx = i1 ++ [i2] ∧ InShape i1 x.shape.dropLast ∧ i2 < m := by
    have hi' : InShape idx (x.shape.dropLast ++ [m]) := hi
    have ha := List.forall₂_take_append _ _ _ hi'
    have hb := List.forall₂_drop_append _ _ _ hi'
    cases hd : idx.drop x.shape.dropLast.length with
    | nil => rw [hd] at hb; cases hb
    | cons i2 r =>
      rw [hd] at hb
      cases hb with
      | cons g1 g2 =>
        cases g2
        exact ⟨_, i2, by rw [← hd, List.take_append_drop], ha, g1⟩
  subst e
  have hlen : 2 ≤ i1.length := by rw [h1.length_eq, List.length_dropLast]; omega
  simp only [List.dropLast_concat]
  congr 2
  refine List.map_congr_left fun c hcm => ?_
  rw [h.2 (i1 ++ [c])]
  · rw [hlast]
    exact List.rel_append h1 (List.Forall₂.cons (List.mem_range.1 hcm) List.Forall₂.nil)
  · match i1, hlen with
    | _ :: _ :: _, _ => simpa using ht

theorem upto_conv {T P G a b : ℕ} {osp : List ℕ} {geo : List ℕ → ℕ → Option ℕ} {K bias : ℕ → ℚ} {x y u v : Arr ℚ} (h : SameUpTo T x y) (hr : 2 ≤ x.shape.length)
    (hg : ∀ p, InShape p osp → ∀ j i, geo p j = some i → i < x.shape.tail.prod ∧ (unflat x.shape.tail i).headD 0 ≤ p.headD 0)
    (hu : (Core.conv P G a b osp geo K bias).keras [x] = some u) (hv : (Core.conv P G a b osp geo K bias).keras [y] = some v) : SameUpTo T u v := by
  simp only [Core.keras, single, Option.some.injEq] at hu hv
  subst hu hv
  refine ⟨by simp only [h.1], fun idx hi ht => ?_⟩
  simp only at hi ⊢
  congr 2
  funext j
  unfold extractPatches
  split
  · rename_i i hgi
    have hp : InShape idx.tail.dropLast osp := by
      cases hi with
      | cons k1 k2 => exact inShape_init k2
    obtain ⟨g1, g2⟩ := hg _ hp _ _ hgi
    rw [← h.1]
    obtain ⟨B, s, hs⟩ : ∃ B s, x.shape = B :: s := by
      cases hs : x.shape with
      | nil => simp [hs] at hr
      | cons B s => exact ⟨B, s, rfl⟩
    rw [hs, List.tail_cons] at g1 g2 ⊢
    have hb : idx.headD 0 < B := by
      rw [hs] at hi
      cases hi with
      | cons k1 k2 => exact k1
    refine h.2 _ (by rw [hs]; exact List.Forall₂.cons hb (unflat_inShape s i g1)) ?_
    simp only [List.getD_cons_succ]
    have e1 : (unflat s i).getD 0 0 = (unflat s i).headD 0 := by cases unflat s i <;> rfl
    rw [e1]
    refine le_trans g2 (le_trans ?_ ht)
    match idx with
    | [] => simp
    | [_] => simp
    | [_, _] => simp
    | _ :: _ :: _ :: _ => simp
  · rfl

theorem upto_softmax {T : ℕ} (stable : Bool) (f : List Bool) (expT invT : List ℕ → ℚ → ℚ) {x y : Arr ℚ} (hl : x.shape.length = f.length + 2) (h : SameUpTo T x y) :
    SameUpTo T (kerasSoftmax stable (false :: f) expT invT x) (kerasSoftmax stable (false :: f) expT invT y) := by
  have hred : ∀ (red : List ℚ → ℚ) (z w : Arr ℚ), z.shape = x.shape → SameUpTo T z w → ∀ idx, InShape idx x.shape → idx.getD 1 0 ≤ T →
      (npReduce red true (false :: false :: f) z).get idx = (npReduce red true (false :: false :: f) w).get idx := by
    intro red z w hz hzw idx hi ht
    simp only [npReduce]
    rw [← hzw.1, hz]
    congr 1
    refine List.map_congr_left fun r hr => hzw.2 r (by rw [hz]; exact redIdx_in _ _ idx (by simp [hl]) hi r hr) ?_
    have : r.getD 1 0 = idx.getD 1 0 := by
      obtain ⟨s0, s1, s, hs⟩ : ∃ s0 s1 s, x.shape = s0 :: s1 :: s := by
        match hx : x.shape, hl with
        | s0 :: s1 :: s, _ => exact ⟨s0, s1, s, rfl⟩
      rw [hs] at hi hr
      cases hi with
      | cons h1 h2 =>
        cases h2 with
        | cons h3 h4 =>
          simp only [dropKept, redIdx, List.mem_map] at hr
          obtain ⟨_, ⟨r', -, rfl⟩, rfl⟩ := hr
          rfl
    rw [this]
    exact ht
  have hy : SameUpTo T (if stable then ⟨x.shape, fun idx => (npReduce (poolMax 0) true (false :: false :: f) x).get idx - x.get idx⟩ else x)
      (if stable then ⟨y.shape, fun idx => (npReduce (poolMax 0) true (false :: false :: f) y).get idx - y.get idx⟩ else y) := by
    split
    · refine ⟨h.1, fun idx hi ht => ?_⟩
      simp only
      rw [hred _ x y rfl h idx hi ht, h.2 idx hi ht]
    · exact h
  have hys : (if stable then (⟨x.shape, fun idx => (npReduce (poolMax 0) true (false :: false :: f) x).get idx - x.get idx⟩ : Arr ℚ) else x).shape = x.shape := by split <;> rfl
  have he : SameUpTo T ⟨x.shape, fun idx => expT idx.tail ((if stable then (⟨x.shape, fun idx => (npReduce (poolMax 0) true (false :: false :: f) x).get idx - x.get idx⟩ : Arr ℚ) else x).get idx)⟩
      ⟨y.shape, fun idx => expT idx.tail ((if stable then (⟨y.shape, fun idx => (npReduce (poolMax 0) true (false :: false :: f) y).get idx - y.get idx⟩ : Arr ℚ) else y).get idx)⟩ :=
    ⟨h.1, fun idx hi ht => by simp only; rw [hy.2 idx (by rw [hys]; exact hi) ht]⟩
  refine ⟨h.1, fun idx hi ht => ?_⟩
  simp only [kerasSoftmax] at hi ⊢
  have e1 := hred List.sum _ _ (by rfl) he idx hi ht
  rw [e1, hy.2 idx (by rw [hys]; exact hi) ht]

theorem upto_core {T : ℕ} (core : Core) {xs ys : List (Arr ℚ)} (h : List.Forall₂ (SameUpTo T) xs ys) (hc : CausalCore core xs) {u v : Arr ℚ}
    (hu0 : run (core.keras xs) = some u) (hv0 : run (core.keras ys) = some v) : SameUpTo T u v := by
  obtain ⟨u, hu, rfl⟩ := Option.map_eq_some_iff.1 hu0
  obtain ⟨v, hv, rfl⟩ := Option.map_eq_some_iff.1 hv0
  refine upto_norm ?_
  have one : ∀ {f : Arr ℚ → Option (Arr ℚ)}, single f xs = some u → single f ys = some v → ∃ x y, xs = [x] ∧ SameUpTo T x y ∧ f x = some u ∧ f y = some v := by
    intro f h1 h2
    cases h with
    | nil => simp [single] at h1
    | cons g1 g2 =>
      cases g2 with
      | nil => exact ⟨_, _, rfl, g1, h1, h2⟩
      | cons _ _ => simp [single] at h1
  cases core with
  | dense n m K bias =>
    obtain ⟨x, y, rfl, hxy, h1, h2⟩ := one hu hv
    have hr := hc x (by simp)
    rw [if_pos (by omega)] at h1
    rw [if_pos (by rw [← hxy.1]; omega)] at h2
    exact upto_dense hr hxy h1 h2
  | conv P G a b osp geo K bias =>
    obtain ⟨x, y, rfl, hxy, h1, h2⟩ := one hu hv
    have hr := hc x (by simp)
    exact upto_conv hxy hr.1 hr.2 h1 h2
  | merge op =>
    simp only [Core.keras] at hu hv
    split at hu
    · simp at hu
    split at hv
    · simp at hv
    exact upto_merge _ h hc hu hv
  | avgPow2 scale =>
    simp only [Core.keras] at hu hv
    obtain ⟨a, ha, rfl⟩ := Option.map_eq_some_iff.1 hu
    obtain ⟨b, hb, rfl⟩ := Option.map_eq_some_iff.1 hv
    exact upto_map (fun _ z => z * scale) (upto_merge _ h hc ha hb)
  | sum keep fl scale =>
    obtain ⟨x, y, rfl, hxy, h1, h2⟩ := one hu hv
    obtain ⟨f, rfl, hl⟩ := hc
    obtain rfl := Option.some.inj h1
    obtain rfl := Option.some.inj h2
    exact upto_map (fun _ z => z * scale) (upto_reduce List.sum keep f (by rw [hl x (by simp)]; rfl) hxy)
  | softmax stable fl expT invT =>
    obtain ⟨x, y, rfl, hxy, h1, h2⟩ := one hu hv
    obtain ⟨f, rfl, hl⟩ := hc
    obtain rfl := Option.some.inj h1
    obtain rfl := Option.some.inj h2
    exact upto_softmax stable f expT invT (by rw [hl x (by simp)]; rfl) hxy
  | bn ax C sc o =>
    obtain ⟨x, y, rfl, hxy, h1, h2⟩ := one hu hv
    unfold axisAffine at h1 h2
    rw [← hxy.1] at h2
    split at h1
    · rename_i hax
      rw [if_pos hax] at h2
      obtain rfl := Option.some.inj h1
      obtain rfl := Option.some.inj h2
      exact ⟨rfl, fun idx hi ht => by simp only; rw [hxy.2 idx hi ht]⟩
    · simp at h1
  | lut f =>
    obtain ⟨x, y, rfl, hxy, h1, h2⟩ := one hu hv
    obtain rfl := Option.some.inj h1
    obtain rfl := Option.some.inj h2
    exact upto_map (fun _ z => f z) hxy
  | einsumDense inL kerL outL K bias =>
    obtain ⟨x, y, rfl, hxy, h1, h2⟩ := one hu hv
    obtain ⟨hnd, l, hi1, ho1⟩ := hc
    obtain ⟨a, h6, rfl⟩ := Option.map_eq_some_iff.1 h1
    obtain ⟨c, g6, rfl⟩ := Option.map_eq_some_iff.1 h2
    have at1 : ∀ (L : List ℕ) (σ : ℕ → ℕ), L[1]? = some l → (L.map σ).getD 1 0 = σ l := by
      intro L σ hL
      rw [List.getD_eq_getElem?_getD, List.getElem?_map, hL]; rfl
    have := agree_einsum (P := fun idx => idx.getD 1 0 ≤ T) (bL := kerL) (y := K) (y' := K) (u := a.norm) (v := c.norm) hnd hxy.1 rfl (fun σ hx _ hp => by
      rw [at1 outL σ ho1] at hp
      rw [hxy.2 _ hx (by rw [at1 inL σ hi1]; exact hp)]) (by rw [h6]; rfl) (by rw [g6]; rfl)
    refine ⟨this.1, fun idx hi ht => ?_⟩
    have hi' : InShape idx a.shape := hi
    have e := this.2 idx hi ht
    have hs : a.shape = c.shape := this.1
    rw [norm_get hi', norm_get (hs ▸ hi')] at e
    simp only [addBias, e]
  | pool | globalPool | einsum => exact hc.elim

/-! ## Quantized layers -/

/-- The condition depends on the shapes only. -/
theorem causal_shapes {core : Core} {xs ys : List (Arr ℚ)} (hs : ys.map (·.shape) = xs.map (·.shape)) (h : CausalCore core xs) : CausalCore core ys := by
  have mem : ∀ y ∈ ys, ∃ x ∈ xs, y.shape = x.shape := by
    intro y hy
    have : y.shape ∈ xs.map (·.shape) := by rw [← hs]; exact List.mem_map_of_mem hy
    obtain ⟨x, hx, e⟩ := List.mem_map.1 this
    exact ⟨x, hx, e.symm⟩
  cases core with
  | dense | conv =>
    intro y hy
    obtain ⟨x, hx, e⟩ := mem y hy
    rw [e]
    exact h x hx
  | merge | avgPow2 =>
    intro y hy z hz
    obtain ⟨x, hx, e⟩ := mem y hy
    obtain ⟨w, hw, e'⟩ := mem z hz
    rw [e, e']
    exact h x hx w hw
  | sum | softmax =>
    obtain ⟨f, h1, h2⟩ := h
    refine ⟨f, h1, fun y hy => ?_⟩
    obtain ⟨x, hx, e⟩ := mem y hy
    rw [e]
    exact h2 x hx
  | bn | lut => trivial
  | einsumDense => exact h
  | pool | globalPool | einsum => exact h.elim

theorem upto_iq {T : ℕ} (iq : Option (List ArrQuant)) {xs ys ins ins' : List (Arr ℚ)} (h : List.Forall₂ (SameUpTo T) xs ys) (hu : kerasIq iq xs = some ins)
    (hv : kerasIq iq ys = some ins') : List.Forall₂ (SameUpTo T) ins ins' ∧ ins.map (·.shape) = xs.map (·.shape) := by
  cases iq with
  | none =>
    obtain rfl := Option.some.inj hu
    obtain rfl := Option.some.inj hv
    exact ⟨h, rfl⟩
  | some qs =>
    simp only [kerasIq] at hu hv
    split at hu
    swap
    · simp at hu
    split at hv
    swap
    · simp at hv
    rename_i l1 l2
    clear l2
    induction h generalizing qs ins ins' with
    | nil =>
      simp only [List.zipWith_nil_right, List.mapM_nil, pure, Option.some.injEq] at hu hv
      subst hu hv
      exact ⟨List.Forall₂.nil, rfl⟩
    | cons h1 h2 ih =>
      cases qs with
      | nil => simp at l1
      | cons q qs =>
        simp only [List.zipWith_cons_cons, List.mapM_cons, id] at hu hv
        obtain ⟨a, ha, hu⟩ := Option.bind_eq_some_iff.1 hu
        obtain ⟨as, has, hu⟩ := Option.bind_eq_some_iff.1 hu
        obtain ⟨b, hb, hv⟩ := Option.bind_eq_some_iff.1 hv
        obtain ⟨bs, hbs, hv⟩ := Option.bind_eq_some_iff.1 hv
        obtain rfl := Option.some.inj hu
        obtain rfl := Option.some.inj hv
        obtain ⟨k1, k2⟩ := ih qs (by simpa using l1) has hbs
        refine ⟨List.Forall₂.cons (upto_opt (q := some q) h1 ha hb) k1, ?_⟩
        simp only [List.map_cons, k2, quant_shape (q := some q) ha]

theorem upto_qlayer {T : ℕ} (iq : Option (List ArrQuant)) (core : Core) (rl : Bool) (oq : Option ArrQuant) {xs ys : List (Arr ℚ)} (h : List.Forall₂ (SameUpTo T) xs ys)
    (hc : CausalCore core xs) {u v : Arr ℚ} (hu : (LLayer.qlayer iq core rl oq).keras xs = some u) (hv : (LLayer.qlayer iq core rl oq).keras ys = some v) : SameUpTo T u v := by
  have stages : ∀ {xs : List (Arr ℚ)} {u : Arr ℚ}, (LLayer.qlayer iq core rl oq).keras xs = some u →
      ∃ ins c, kerasIq iq xs = some ins ∧ run (core.keras ins) = some c ∧ kerasOpt oq (reluKeras rl c) = some u := by
    intro xs u h
    simp only [LLayer.keras, kerasQLayer] at h
    obtain ⟨st, h', rfl⟩ := Option.map_eq_some_iff.1 h
    obtain ⟨ins, h1, h''⟩ := Option.bind_eq_some_iff.1 h'
    obtain ⟨c, h2, h3⟩ := Option.bind_eq_some_iff.1 h''
    refine ⟨ins, c, h1, h2, ?_⟩
    cases oq with
    | none =>
      obtain rfl := Option.some.inj h3
      rfl
    | some q =>
      obtain ⟨o, ho, rfl⟩ := Option.map_eq_some_iff.1 h3
      exact ho
  obtain ⟨ins, c, h1, h2, h3⟩ := stages hu
  obtain ⟨ins', c', g1, g2, g3⟩ := stages hv
  obtain ⟨k1, k2⟩ := upto_iq iq h h1 g1
  exact upto_opt (upto_relu rl (upto_core core k1 (causal_shapes k2 hc) h2 g2)) h3 g3

theorem upto_llayer {T : ℕ} (l : LLayer) {xs ys : List (Arr ℚ)} (h : List.Forall₂ (SameUpTo T) xs ys) (hc : CausalLLayer l xs) {u v : Arr ℚ}
    (hu : l.keras xs = some u) (hv : l.keras ys = some v) : SameUpTo T u v := by
  have one : ∀ {f : Arr ℚ → Option (Arr ℚ)}, run (single f xs) = some u → run (single f ys) = some v →
      ∃ x y a b, SameUpTo T x y ∧ f x = some a ∧ f y = some b ∧ u = a.norm ∧ v = b.norm := by
    intro f h1 h2
    obtain ⟨a, k1, e1⟩ := Option.map_eq_some_iff.1 h1
    obtain ⟨b, k2, e2⟩ := Option.map_eq_some_iff.1 h2
    cases h with
    | nil => simp [single] at k1
    | cons g1 g2 =>
      cases g2 with
      | nil => exact ⟨_, _, a, b, g1, k1, k2, e1.symm, e2.symm⟩
      | cons _ _ => simp [single] at k1
  cases l with
  | quantizer q =>
    obtain ⟨x, y, a, b, hxy, h1, h2, rfl, rfl⟩ := one hu hv
    exact upto_opt (q := some q) hxy (by rw [kerasOpt, h1]; rfl) (by rw [kerasOpt, h2]; rfl)
  | qlayer iq core rl oq => exact upto_qlayer iq core rl oq h hc hu hv
  | relu neg maxv =>
    obtain ⟨x, y, a, b, hxy, h1, h2, rfl, rfl⟩ := one hu hv
    obtain rfl := Option.some.inj h1
    obtain rfl := Option.some.inj h2
    exact upto_norm (upto_map (fun _ z => kerasReLU 0 neg maxv z) hxy)
  | abs =>
    obtain ⟨x, y, a, b, hxy, h1, h2, rfl, rfl⟩ := one hu hv
    obtain rfl := Option.some.inj h1
    obtain rfl := Option.some.inj h2
    exact upto_norm (upto_map (fun _ z => |z|) hxy)
  | prelu alpha =>
    obtain ⟨x, y, a, b, hxy, h1, h2, rfl, rfl⟩ := one hu hv
    obtain rfl := Option.some.inj h1
    obtain rfl := Option.some.inj h2
    exact upto_norm (upto_map (fun idx z => kerasPReLU (alpha idx.tail) z) hxy)
  | noop =>
    obtain ⟨x, y, a, b, hxy, h1, h2, rfl, rfl⟩ := one hu hv
    obtain rfl := Option.some.inj h1
    obtain rfl := Option.some.inj h2
    exact upto_norm hxy
  | reshape | flatten | concat | getitem | «repeat» | moveaxis => exact hc.elim

/-! ## Attention with a causal mask -/

theorem proj_rank (p : ProjArr) (iq oq : Option ArrQuant) (n k m : ℕ) {x u : Arr ℚ} (hu : (p.layer iq oq n k m).keras [x] = some u) : u.shape.length = n + m := by
  obtain ⟨x1, x2, h1, h2, h3⟩ := qlayer_stages hu
  rw [quant_shape h3]
  simp only [Core.keras, single, run] at h2
  obtain ⟨_, h5, rfl⟩ := Option.map_eq_some_iff.1 h2
  obtain ⟨a, h6, rfl⟩ := Option.map_eq_some_iff.1 h5
  unfold npEinsum at h6
  split at h6
  swap
  · simp at h6
  obtain rfl := Option.some.inj h6
  show ((projOutL n k m).map _).length = _
  simp [projOutL]

/-- What a query at time `t` sees through a causal mask. -/
theorem causal_visible {T H b t : ℕ} {mask : List ℕ → Bool} (hm : CausalMask mask) (ht : t ≤ T) {x y : Arr ℚ} (h : SameUpTo T x y) :
    SameAt (Visible H mask b [t]) 2 x y ∧ SameAt (· = [b, t]) 2 x y := by
  have key : ∀ (idx p : List ℕ), idx.take 2 = b :: p → (∀ c, p = [c] → c ≤ T) → idx.getD 1 0 ≤ T := by
    intro idx p hp hc
    match idx, hp with
    | [_], _ => simp
    | [_, c], hp =>
      simp only [List.take_succ_cons, List.take_nil, List.cons.injEq] at hp
      exact hc c hp.2.symm
    | _ :: c :: _ :: _, hp =>
      simp only [List.take_succ_cons, List.take_zero, List.cons.injEq] at hp
      exact hc c hp.2.symm
  refine ⟨⟨h.1, fun idx hi hv => h.2 idx hi ?_⟩, ⟨h.1, fun idx hi hv => h.2 idx hi (key idx [t] hv (by rintro c e; obtain rfl := List.cons.inj e |>.1; exact ht))⟩⟩
  obtain ⟨s, hd, -, hp, hmm⟩ := hv
  exact key idx s hp (by rintro c rfl; exact le_trans (hm hd t c hmm) ht)

/-- From single queries to all queries up to `T`. -/
theorem upto_of_queries {T : ℕ} {u v : Arr ℚ} (hs : u.shape = v.shape) (hr : 2 ≤ u.shape.length) (h : ∀ b, ∀ t ≤ T, SameAt (· = [b, t]) 2 u v) : SameUpTo T u v := by
  refine ⟨hs, fun idx hi ht => ?_⟩
  have hl : 2 ≤ idx.length := by rw [hi.length_eq]; exact hr
  match idx, hl with
  | b :: t :: r, _ => exact (h b t (by simpa using ht)).2 _ hi rfl

theorem upto_mha {T : ℕ} (m : MhaArr) (hn : m.n = 2) (hc : m.conv = none) (ha : m.smOq.affine = none) (mask : List ℕ → Bool) (hm : CausalMask mask)
    {query value key query' value' key' out out' : Arr ℚ} (hQ : SameUpTo T query query') (hV : SameUpTo T value value') (hK : SameUpTo T key key')
    (h : kerasMha m (some mask) query value key = some out) (h' : kerasMha m (some mask) query' value' key' = some out') : SameUpTo T out out' := by
  have hH : ∃ H, m.q.kernel.shape.getD 1 0 ≤ H ∧ m.v.kernel.shape.getD 1 0 ≤ H := ⟨max _ _, le_max_left _ _, le_max_right _ _⟩
  obtain ⟨H, hH⟩ := hH
  have hq : ∀ b, ∀ t ≤ T, SameAt (· = [b, t]) 2 out out' := by
    intro b t ht
    have := C113_attention_partial m (by omega) hc ha mask H b [t] hH (by rw [hn]; exact (causal_visible (H := H) hm ht hQ).2) (by rw [hn]; exact (causal_visible hm ht hV).1)
      (by rw [hn]; exact (causal_visible hm ht hK).1) h h'
    rwa [hn] at this
  refine upto_of_queries (hq 0 0 (Nat.zero_le _)).1 ?_ hq
  unfold kerasMha kerasAttend at h
  obtain ⟨Q, -, h1⟩ := Option.bind_eq_some_iff.1 h
  obtain ⟨K, -, h2⟩ := Option.bind_eq_some_iff.1 h1
  obtain ⟨V, -, h3⟩ := Option.bind_eq_some_iff.1 h2
  obtain ⟨S, -, h4⟩ := Option.bind_eq_some_iff.1 h3
  obtain ⟨W, -, h5⟩ := Option.bind_eq_some_iff.1 h4
  obtain ⟨C, -, h6⟩ := Option.bind_eq_some_iff.1 h5
  obtain ⟨Y, hY, h7⟩ := Option.bind_eq_some_iff.1 h6
  rw [quant_shape h7, proj_rank _ _ _ _ _ _ hY, hn]
  omega

theorem upto_mhaT {T : ℕ} (m : MhaTArr) (hn : m.n = 2) (hb : MhaTBuilt m) (ha : m.smOq.affine = none) (mask : List ℕ → Bool) (hm : CausalMask mask)
    {query value key query' value' key' out out' : Arr ℚ} (hQ : SameUpTo T query query') (hV : SameUpTo T value value') (hK : SameUpTo T key key')
    (h : m.keras (some mask) query value key = some out) (h' : m.keras (some mask) query' value' key' = some out') : SameUpTo T out out' := by
  have hH : ∃ H, m.q.dim (m.n + 1) ≤ H ∧ m.v.dim (m.n + 1) ≤ H := ⟨max _ _, le_max_left _ _, le_max_right _ _⟩
  obtain ⟨H, hH⟩ := hH
  have hq : ∀ b, ∀ t ≤ T, SameAt (· = [b, t]) 2 out out' := by
    intro b t ht
    have := C113_table_attention_partial m hb ha mask H b [t] hH (by rw [hn]; exact (causal_visible (H := H) hm ht hQ).2) (by rw [hn]; exact (causal_visible hm ht hV).1)
      (by rw [hn]; exact (causal_visible hm ht hK).1) h h'
    rwa [hn] at this
  refine upto_of_queries (hq 0 0 (Nat.zero_le _)).1 ?_ hq
  obtain ⟨hn1, -, -, -, bo⟩ := hb
  unfold MhaTArr.keras at h
  obtain ⟨Q, -, h1⟩ := Option.bind_eq_some_iff.1 h
  obtain ⟨K, -, h2⟩ := Option.bind_eq_some_iff.1 h1
  obtain ⟨V, -, h3⟩ := Option.bind_eq_some_iff.1 h2
  obtain ⟨C, -, h4⟩ := Option.bind_eq_some_iff.1 h3
  obtain ⟨Y, hY, h5⟩ := Option.bind_eq_some_iff.1 h4
  obtain ⟨hbu, -⟩ := proj_built m.o m.n 2 m.mo hn1 (by omega) bo true m.enableOq
  have hacc : m.oLayer.accepts C = true := by
    have hw := hY
    unfold EinsumTArr.keras at hw
    split at hw
    · assumption
    · simp at hw
  have hax := of_decide_eq_true hacc
  obtain ⟨B, hxB⟩ : ∃ B, IsBatch B C := by
    cases hs : C.shape with
    | nil => exact absurd hs hax.1
    | cons B r => exact ⟨B, r, hs⟩
  rw [quant_shape h5, einsumT_shape _ hbu C Y hxB hY]
  show 2 ≤ ((projOutL m.n 2 m.mo).map _).length
  simp [projOutL, hn]

/-! ## Tables -/

theorem upto_table {T : ℕ} (t : TableArr) {x y u v : Arr ℚ} (hr : 3 ≤ x.shape.length) (h : SameUpTo T x y) (hu : t.keras x = some u) (hv : t.keras y = some v) : SameUpTo T u v := by
  unfold TableArr.keras at hu hv
  split at hu
  swap
  · simp at hu
  split at hv
  swap
  · simp at hv
  obtain ⟨x1, h1, h2⟩ := Option.bind_eq_some_iff.1 hu
  obtain ⟨x2, h3, h4⟩ := Option.bind_eq_some_iff.1 h2
  obtain ⟨y1, g1, g2⟩ := Option.bind_eq_some_iff.1 hv
  obtain ⟨y2, g3, g4⟩ := Option.bind_eq_some_iff.1 g2
  have hb : SameUpTo T (tableBroadcast t.nOut x) (tableBroadcast t.nOut y) := by
    refine ⟨by simp only [tableBroadcast, h.1], fun idx hi ht => ?_⟩
    simp only [tableBroadcast] at hi ⊢
    have ha := List.forall₂_take_append _ _ _ hi
    have hl : idx.length = x.shape.length + 1 := by simpa using hi.length_eq
    have e : idx.dropLast = idx.take x.shape.length := by rw [List.dropLast_eq_take, hl]; rfl
    rw [e]
    refine h.2 _ ha ?_
    match idx, hl, ht with
    | [], hl, _ => simp at hl
    | [_], hl, _ => simp at hl; simp [hl] at hr
    | a :: b :: r, _, ht =>
      obtain ⟨k, hk⟩ : ∃ k, x.shape.length = k + 2 := ⟨x.shape.length - 2, by omega⟩
      rw [hk]
      simpa using ht
  have e1 := upto_opt (upto_norm hb) h1 g1
  have e2 := upto_opt (q := some t.toq) (upto_map (fun idx z => t.net (pairIn idx) (pairOut idx) z) e1) h3 g3
  refine upto_opt (upto_relu _ (upto_norm ?_)) h4 g4
  have hs1 : x1.shape.length = x.shape.length + 1 := by rw [quant_shape h1]; simp [tableBroadcast, Arr.norm]
  have hs : x2.shape.length = x.shape.length + 1 := by
    rw [quant_shape (q := some t.toq) h3]
    exact hs1
  unfold tableReduce
  rw [← e2.1]
  obtain ⟨k, hk⟩ : ∃ k, x2.shape.length - 2 = k + 2 := ⟨x2.shape.length - 4, by omega⟩
  rw [hk, List.replicate_succ, List.replicate_succ]
  exact upto_reduce List.sum false _ (by simp; omega) e2

/-! ## Recurrent layers -/

/-- Steps on the same inputs give the same outputs. -/
theorem loop_prefix (step : Arr ℚ → Arr ℚ → Option (Arr ℚ × Arr ℚ)) (xs ys : List (Arr ℚ)) (s : Arr ℚ) (T : ℕ) (h : xs.take T = ys.take T) (hl : xs.length = ys.length)
    {r r' : List (Arr ℚ) × Arr ℚ} (hr : kerasLoop step xs s = some r) (hr' : kerasLoop step ys s = some r') : r.1.take T = r'.1.take T ∧ r.1.length = r'.1.length := by
  induction xs generalizing ys s T r r' with
  | nil =>
    cases ys with
    | nil => rw [hr] at hr'; obtain rfl := Option.some.inj hr'; exact ⟨rfl, rfl⟩
    | cons _ _ => simp at hl
  | cons x xs ih =>
    cases ys with
    | nil => simp at hl
    | cons y ys =>
      simp only [kerasLoop] at hr hr'
      obtain ⟨a, ha, hr1⟩ := Option.bind_eq_some_iff.1 hr
      obtain ⟨b, hb, hr2⟩ := Option.map_eq_some_iff.1 hr1
      obtain ⟨a', ha', hr1'⟩ := Option.bind_eq_some_iff.1 hr'
      obtain ⟨b', hb', hr2'⟩ := Option.map_eq_some_iff.1 hr1'
      subst hr2 hr2'
      have hl' : xs.length = ys.length := by simpa using hl
      cases T with
      | zero =>
        refine ⟨rfl, ?_⟩
        have len : ∀ (zs : List (Arr ℚ)) (s : Arr ℚ) (r : List (Arr ℚ) × Arr ℚ), kerasLoop step zs s = some r → r.1.length = zs.length := by
          intro zs
          induction zs with
          | nil => intro s r hr; obtain rfl := Option.some.inj hr; rfl
          | cons z zs ih2 =>
            intro s r hr
            simp only [kerasLoop] at hr
            obtain ⟨a, -, k1⟩ := Option.bind_eq_some_iff.1 hr
            obtain ⟨b, hb, rfl⟩ := Option.map_eq_some_iff.1 k1
            simp [ih2 _ _ hb]
        simp [len _ _ _ hb, len _ _ _ hb', hl']
      | succ T =>
        simp only [List.take_succ_cons, List.cons.injEq] at h
        obtain ⟨rfl, h⟩ := h
        rw [ha] at ha'
        obtain rfl := Option.some.inj ha'
        obtain ⟨e1, e2⟩ := ih ys a.2 T h hl' hb hb'
        exact ⟨by simp [e1], by simp [e2]⟩

theorem mapM_someC {α β : Type} {f : α → Option β} {l : List α} {r : List β} (h : l.mapM f = some r) : r.length = l.length ∧ ∀ j (hj : j < l.length), f l[j] = r[j]? := by
  induction l generalizing r with
  | nil => simp only [List.mapM_nil, pure, Option.some.injEq] at h; subst h; simp
  | cons a l ih =>
    simp only [List.mapM_cons] at h
    obtain ⟨b, hb, h1⟩ := Option.bind_eq_some_iff.1 h
    obtain ⟨bs, hbs, h2⟩ := Option.bind_eq_some_iff.1 h1
    obtain rfl := Option.some.inj h2
    obtain ⟨e1, e2⟩ := ih hbs
    refine ⟨by simp [e1], fun j hj => ?_⟩
    cases j with
    | zero => simpa using hb
    | succ j => simpa using e2 j (by simpa using hj)

theorem upto_slice {T : ℕ} {x y : Arr ℚ} (h : SameUpTo T x y) (t : ℕ) (ht : t ≤ T) : timeSlice x t = timeSlice y t := by
  unfold timeSlice
  rw [← h.1]
  split
  · rename_i B S d hs
    split
    · rename_i htS
      simp only [run, Option.map_some, Option.some.injEq, Arr.norm]
      congr 1
      funext idx
      split
      · rename_i hin
        have hi : InShape idx [B, d] := (inShapeB_iff _ _).1 hin
        refine h.2 _ ?_ (by simpa using ht)
        rw [hs]
        match idx, hi with
        | [b, c], hi =>
          simp only [InShape, List.forall₂_cons] at hi
          exact List.Forall₂.cons hi.1 (List.Forall₂.cons htS (List.Forall₂.cons hi.2.1 List.Forall₂.nil))
      · rfl
    · rfl
  · rfl

theorem upto_rnn {T : ℕ} (l : RnnLayer) (hg : l.goBackwards = false) (ho : l.out = .seq) {x y u v : Arr ℚ} (h : SameUpTo T x y) (hu : l.keras [x] = some u)
    (hv : l.keras [y] = some v) : SameUpTo T u v := by
  simp only [RnnLayer.keras] at hu hv
  rw [← h.1] at hv
  split at hu
  swap
  · simp at hu
  rename_i hlen
  rw [if_pos hlen] at hv
  obtain ⟨r, h1, h2⟩ := Option.bind_eq_some_iff.1 hu
  obtain ⟨r', g1, g2⟩ := Option.bind_eq_some_iff.1 hv
  unfold RnnLayer.kerasRun at h1 g1
  rw [hg] at h1 g1
  simp only [Bool.false_eq_true, if_false] at h1 g1
  obtain ⟨sl, k1, k2⟩ := Option.bind_eq_some_iff.1 h1
  obtain ⟨sl', k1', k2'⟩ := Option.bind_eq_some_iff.1 g1
  have hts : timeSteps x = timeSteps y := by simp only [timeSteps, h.1]
  obtain ⟨l1, l2⟩ := mapM_someC k1
  obtain ⟨l1', l2'⟩ := mapM_someC k1'
  rw [List.length_range] at l1 l1'
  have htake : sl.take (T + 1) = sl'.take (T + 1) := by
    refine List.ext_getElem? fun j => ?_
    rw [List.getElem?_take, List.getElem?_take]
    split
    · rename_i hj
      by_cases hjs : j < timeSteps x
      · have e1 := l2 j (by simpa using hjs)
        have e2 := l2' j (by simpa [← hts] using hjs)
        rw [List.getElem_range] at e1 e2
        rw [← e1, ← e2]
        exact upto_slice h j (by omega)
      · rw [List.getElem?_eq_none (by omega), List.getElem?_eq_none (by omega)]
    · rfl
  obtain ⟨p1, p2⟩ := loop_prefix _ sl sl' _ (T + 1) htake (by omega) k2 k2'
  rw [ho] at h2 g2
  simp only [RnnOut.result] at h2 g2
  generalize r.1 = as at *
  generalize r'.1 = bs at *
  match as, bs, p2, h2, g2, p1 with
  | [], _, _, h2, _, _ => simp [stackTime] at h2
  | a :: as, b :: bs, p2, h2, g2, p1 =>
    obtain ⟨rfl, p1⟩ := List.cons.inj p1
    simp only [stackTime] at h2 g2
    split at h2
    swap
    · simp at h2
    rename_i B w hs
    simp only [hs] at g2
    split at h2
    swap
    · simp at h2
    split at g2
    swap
    · simp at g2
    obtain rfl := Option.some.inj h2
    obtain rfl := Option.some.inj g2
    refine upto_norm ⟨by simp only [p2], fun idx hi ht => ?_⟩
    simp only
    have hh : (a :: as)[idx.getD 1 0]? = (a :: bs)[idx.getD 1 0]? := by
      have e : (a :: as).take (T + 1) = (a :: bs).take (T + 1) := p1
      have := congrArg (fun l => l[idx.getD 1 0]?) e
      simp only [List.getElem?_take] at this
      rwa [if_pos (by omega), if_pos (by omega)] at this
    have gd : ∀ (l : List (Arr ℚ)) (n : ℕ), l.getD n a = l[n]?.getD a := fun l n => List.getD_eq_getElem?_getD
    rw [gd, gd, hh]

/-! ## Layers and models -/

/-- **C114 (layers, partial).** Layers that do not look ahead: if the inputs agree up to time `T`, so do the outputs. -/
theorem C114_layers_partial (T : ℕ) (l : VLayer) {xs ys : List (Arr ℚ)} (hc : CausalLayer l xs) (h : List.Forall₂ (SameUpTo T) xs ys) {u v : Arr ℚ}
    (hu : l.keras xs = some u) (hv : l.keras ys = some v) : SameUpTo T u v := by
  have args : ∀ (a : MhaArgs) {t t'}, a.split xs = some t → a.split ys = some t' → SameUpTo T t.1 t'.1 ∧ SameUpTo T t.2.1 t'.2.1 ∧ SameUpTo T t.2.2 t'.2.2 := by
    intro a t t' ht ht'
    match a, xs, ys, h, ht, ht' with
    | .self, [_], [_], .cons h1 .nil, ht, ht' =>
      obtain rfl := Option.some.inj ht
      obtain rfl := Option.some.inj ht'
      exact ⟨h1, h1, h1⟩
    | .kv, [_, _], [_, _], .cons h1 (.cons h2 .nil), ht, ht' =>
      obtain rfl := Option.some.inj ht
      obtain rfl := Option.some.inj ht'
      exact ⟨h1, h2, h2⟩
    | .all, [_, _, _], [_, _, _], .cons h1 (.cons h2 (.cons h3 .nil)), ht, ht' =>
      obtain rfl := Option.some.inj ht
      obtain rfl := Option.some.inj ht'
      exact ⟨h1, h2, h3⟩
  have mha : ∀ (m : MhaArr) (a : MhaArgs) (mask : List ℕ → Bool), m.n = 2 ∧ m.conv = none ∧ m.smOq.affine = none ∧ CausalMask mask →
      ((a.split xs).bind fun t => kerasMha m (some mask) t.1 t.2.1 t.2.2) = some u → ((a.split ys).bind fun t => kerasMha m (some mask) t.1 t.2.1 t.2.2) = some v → SameUpTo T u v := by
    intro m a mask ⟨h1, h2, h3, h4⟩ k1 k2
    obtain ⟨t, ht, k1'⟩ := Option.bind_eq_some_iff.1 k1
    obtain ⟨t', ht', k2'⟩ := Option.bind_eq_some_iff.1 k2
    obtain ⟨e1, e2, e3⟩ := args a ht ht'
    exact upto_mha m h1 h2 h3 mask h4 e1 e2 e3 k1' k2'
  cases l with
  | base l =>
    cases l with
    | base l =>
      cases l with
      | base l =>
        cases l with
        | base l =>
          cases l with
          | base l => exact upto_llayer l h hc hu hv
          | mha m a mask low =>
            cases mask with
            | none => exact hc.elim
            | some mask => exact mha m a mask hc hu hv
          | linformer => exact hc.elim
          | salt => exact hc.elim
        | denseT t w =>
          have hu' : single t.keras xs = some u := hu
          have hv' : single t.keras ys = some v := hv
          cases h with
          | nil => simp [single] at hu'
          | cons g1 g2 =>
            cases g2 with
            | nil => exact upto_table t (hc _ (by simp)) g1 hu' hv'
            | cons _ _ => simp [single] at hu'
        | convT => exact hc.elim
      | rnn l =>
        obtain ⟨h1, h2, h3⟩ := hc
        cases h with
        | nil => simp at h3
        | cons g1 g2 =>
          cases g2 with
          | nil => exact upto_rnn l h1 h2 g1 hu hv
          | cons _ _ => simp at h3
    | einsumT => exact hc.elim
  | mhaT m r a mask low =>
    cases mask with
    | none => exact hc.elim
    | some mask =>
      obtain ⟨h1, h2, h3, h4⟩ := hc
      obtain ⟨t, ht, k1'⟩ := Option.bind_eq_some_iff.1 (show ((a.split xs).bind fun t => m.keras (some mask) t.1 t.2.1 t.2.2) = some u from hu)
      obtain ⟨t', ht', k2'⟩ := Option.bind_eq_some_iff.1 (show ((a.split ys).bind fun t => m.keras (some mask) t.1 t.2.1 t.2.2) = some v from hv)
      obtain ⟨e1, e2, e3⟩ := args a ht ht'
      exact upto_mhaT m h1 h2 h3 mask h4 e1 e2 e3 k1' k2'
  | linformerT => exact hc.elim

/-- **C114 (models, partial).** In every functional model of layers that do not look ahead, for every number of layers and tensors, weights, bit widths and inputs: what the
model computes up to time `T` depends only on its inputs up to time `T`. -/
theorem C114_models_partial {A : Type} [DecidableEq A] (T : ℕ) (inputs inputs' : List (A × Arr ℚ)) (byDepth : ℕ → List (ANode A VLayer)) (D : ℕ) (outputs : List A)
    (kval kval' : A → Arr ℚ) (hin : List.Forall₂ (fun p q => p.1 = q.1 ∧ SameUpTo T p.2 q.2) inputs inputs')
    (hacyc : DepthOrdered inputs (evalGraph VLayer.keras byDepth) D) (hsol : Solves inputs (parseModel (evalGraph VLayer.keras byDepth) D) kval)
    (hsol' : Solves inputs' (parseModel (evalGraph VLayer.keras byDepth) D) kval')
    (hok : ∀ d ≤ D, ∀ n ∈ byDepth d, n.isInput = false → CausalLayer n.layer (n.requires.map kval))
    (hout : ∀ t ∈ outputs, t ∈ inputs.map (·.1) ∨ ∃ d ≤ D, ∃ n ∈ byDepth d, n.isInput = false ∧ t = n.produces) :
    ∀ t ∈ outputs, SameUpTo T (kval t) (kval' t) := by
  have hinp : ∀ t ∈ inputs.map (·.1), SameUpTo T (kval t) (kval' t) := by
    have key : ∀ (l l' : List (A × Arr ℚ)), List.Forall₂ (fun p q => p.1 = q.1 ∧ SameUpTo T p.2 q.2) l l' → ∀ p ∈ l, ∃ q ∈ l', p.1 = q.1 ∧ SameUpTo T p.2 q.2 := by
      intro l l' hl
      induction hl with
      | nil => simp
      | cons h1 h2 ih =>
        intro p hp
        rcases List.mem_cons.1 hp with rfl | hp
        · exact ⟨_, by simp, h1⟩
        · obtain ⟨q, hq, e⟩ := ih p hp
          exact ⟨q, by simp [hq], e⟩
    intro t ht
    obtain ⟨p, hp, rfl⟩ := List.mem_map.1 ht
    obtain ⟨q, hq, e1, e2⟩ := key _ _ hin p hp
    rw [hsol.1 p hp, e1, hsol'.1 q hq]
    exact e2
  have value : ∀ (inp : List (A × Arr ℚ)) (val : A → Arr ℚ), Solves inp (parseModel (evalGraph VLayer.keras byDepth) D) val → ∀ d ≤ D, ∀ n ∈ byDepth d, n.isInput = false →
      n.layer.keras (n.requires.map val) = some (val n.produces) := by
    intro inp val hs d hd n hn hi
    have he := hs.2 (n.eval VLayer.keras) ((mem_parseModel _ _ _).2 ⟨d, hd, List.mem_map_of_mem hn⟩) hi
    simp only [ANode.eval, List.map_cons, List.map_nil] at he
    cases hk' : n.layer.keras (n.requires.map val) with
    | none => simp [hk', optList] at he
    | some out =>
      simp only [hk', optList, List.cons.injEq, and_true] at he
      rw [he]
  have all : ∀ k : ℕ, ∀ d ≤ D, D - d ≤ k → ∀ n ∈ byDepth d, n.isInput = false → SameUpTo T (kval n.produces) (kval' n.produces) := by
    intro k
    induction k using Nat.strong_induction_on with
    | _ k ih =>
      intro d hd hk n hn hi
      have hreq : ∀ t ∈ n.requires, SameUpTo T (kval t) (kval' t) := by
        intro t ht
        rcases hacyc d hd (n.eval VLayer.keras) (List.mem_map_of_mem hn) t ht with h | ⟨d', hd', hlt, n', hn', hi', ht'⟩
        · exact hinp t h
        · obtain ⟨m, hm, rfl⟩ := List.mem_map.1 hn'
          have := ih (D - d') (by omega) d' hd' le_rfl m hm hi'
          simp only [ANode.eval, List.mem_singleton] at ht'
          rw [ht']; exact this
      refine C114_layers_partial T n.layer (hok d hd n hn hi) ?_ (value _ _ hsol d hd n hn hi) (value _ _ hsol' d hd n hn hi)
      rw [List.forall₂_map_left_iff, List.forall₂_map_right_iff, List.forall₂_same]
      exact hreq
  intro t ht
  rcases hout t ht with h | ⟨d, hd, n, hn, hi, rfl⟩
  · exact hinp t h
  · exact all (D - d) d hd le_rfl n hn hi

/-! ## Causal padding and causal masks -/

/-- The patches of `Conv1D` with `padding='causal'`, stride 1, `k` taps, dilation `dil`, `c` channels (Keras pads `(k - 1) * dil` zeros at the start): tap `j / c` reads
`(k - 1 - j / c) * dil` steps back. -/
def Spec.causalPatches (k dil c : ℕ) (p : List ℕ) (j : ℕ) : Option ℕ :=
  let back := (k - 1 - j / c) * dil
  if back ≤ p.headD 0 then some ((p.headD 0 - back) * c + j % c) else none

/-- **C114 (causal padding).** Convolutions with `padding='causal'` do not look ahead, for all kernel sizes, dilations, lengths and channels. -/
theorem C114_causal_padding (k dil c S B P G a b : ℕ) (hc : 0 < c) (K bias : ℕ → ℚ) (x : Arr ℚ) (hx : x.shape = [B, S, c]) :
    CausalCore (.conv P G a b [S] (causalPatches k dil c) K bias) [x] := by
  intro y hy
  have : y = x := by simpa using hy
  subst this
  rw [hx]
  refine ⟨by simp, fun p hp j i hi => ?_⟩
  obtain ⟨t, rfl, ht⟩ : ∃ t, p = [t] ∧ t < S := by
    cases hp with
    | cons h1 h2 => cases h2; exact ⟨_, rfl, h1⟩
  replace hi : (if (k - 1 - j / c) * dil ≤ t then some ((t - (k - 1 - j / c) * dil) * c + j % c) else none) = some i := hi
  by_cases hb : (k - 1 - j / c) * dil ≤ t
  · rw [if_pos hb] at hi
    obtain rfl := Option.some.inj hi
    have hm := Nat.mod_lt j hc
    have hle : t - (k - 1 - j / c) * dil ≤ t := Nat.sub_le _ _
    generalize t - (k - 1 - j / c) * dil = w at hle
    have h1 : w * c + j % c < S * c := by
      have : (w + 1) * c ≤ S * c := Nat.mul_le_mul_right _ (by omega)
      rw [Nat.add_mul] at this
      omega
    refine ⟨by simpa using h1, ?_⟩
    simp only [List.tail_cons, unflat, List.prod_cons, List.prod_nil, mul_one, List.headD_cons]
    rw [Nat.mul_comm, Nat.mul_add_div hc, Nat.div_eq_of_lt hm]
    omega
  · rw [if_neg hb] at hi
    simp at hi

/-- **C114 (`use_causal_mask`).** The mask that Keras combines from the padding masks, the attention mask and `use_causal_mask=True` exists and lets through no later keys,
whatever the other masks are. -/
theorem C114_use_causal_mask (Q V : ℕ) (m : MaskArgs) (hQ : 0 < Q) (hV : 0 < V) (hm : m.causal = true) (ha : ∀ a, m.attention = some a → a.Fits Q V) :
    ∃ r, kerasMask Q V m = some r ∧
      CausalMask fun idx => decide (idx.getD 1 0 < Q ∧ idx.getD 2 0 < V ∧ ∀ x, r = some x → x.at (idx.getD 1 0) (idx.getD 2 0) = true) := by
  obtain ⟨r, hr, h⟩ := keras_mask_spec Q V m hQ hV ha
  refine ⟨r, hr, fun _ t s hd => ?_⟩
  obtain ⟨h1, h2, h3⟩ := of_decide_eq_true hd
  exact ((h t s h1 h2).1 h3).2.2.2.1 hm

/-! ## Example -/

/-- Self-attention with a causal mask. -/
def exCMha : VLayer := .base (.base (.base (.base (.mha exMhaArr .self (some fun idx => decide (idx.getD 2 0 ≤ idx.getD 1 0)) (-100)))))
/-- A residual connection. -/
def exCAdd : VLayer := .base (.base (.base (.base (.base (.qlayer none (.merge .add) false none)))))
/-- A convolution with causal padding, two taps, one filter. -/
def exCConv : VLayer := .base (.base (.base (.base (.base (.qlayer (some [exMQ 3 1]) (.conv 2 1 2 1 [2] (causalPatches 2 1 2) (fun i => 1 - (i : ℚ) / 2) fun _ => 1 / 4) false (some (exMQ 3 2)))))))
/-- A recurrent layer that returns the sequence. -/
def exCRnn : VLayer := .base (.base (.rnn ⟨.simple exSimpleArr, false, .seq⟩))

/-- `x → attention → add x → causal convolution → recurrent layer`. -/
def exCModel : ℕ → List (ANode ℕ VLayer)
  | 4 => [⟨"in".toList, true, [], 0, exCAdd⟩]
  | 3 => [⟨"a".toList, false, [0], 1, exCMha⟩]
  | 2 => [⟨"r".toList, false, [0, 1], 2, exCAdd⟩]
  | 1 => [⟨"c".toList, false, [2], 3, exCConv⟩]
  | 0 => [⟨"s".toList, false, [3], 4, exCRnn⟩]
  | _ => []

def exC1 (x : Arr ℚ) : Arr ℚ := (exCMha.keras [x]).getD ⟨[], fun _ => 0⟩
def exC2 (x : Arr ℚ) : Arr ℚ := (exCAdd.keras [x, exC1 x]).getD ⟨[], fun _ => 0⟩
def exC3 (x : Arr ℚ) : Arr ℚ := (exCConv.keras [exC2 x]).getD ⟨[], fun _ => 0⟩
def exC4 (x : Arr ℚ) : Arr ℚ := (exCRnn.keras [exC3 x]).getD ⟨[], fun _ => 0⟩
def exCVal (x : Arr ℚ) (t : ℕ) : Arr ℚ := [x, exC1 x, exC2 x, exC3 x, exC4 x].getD t x

/-- `exSeqArr` changed at time 1. -/
def exSeqLate : Arr ℚ := ⟨[2, 2, 2], fun idx => if idx.getD 1 0 = 0 then exSeqArr.get idx else 3 + idx.getD 2 0⟩

theorem exC_solves (x : Arr ℚ) (h1 : (exCMha.keras [x]).isSome = true) (h2 : (exCAdd.keras [x, exC1 x]).isSome = true) (h3 : (exCConv.keras [exC2 x]).isSome = true)
    (h4 : (exCRnn.keras [exC3 x]).isSome = true) : Solves [(0, x)] (parseModel (evalGraph VLayer.keras exCModel) 4) (exCVal x) := by
  refine ⟨by simp [exCVal], fun n hn hi => ?_⟩
  have : parseModel (evalGraph VLayer.keras exCModel) 4 = evalGraph VLayer.keras exCModel 4 ++ (evalGraph VLayer.keras exCModel 3 ++ (evalGraph VLayer.keras exCModel 2 ++
    (evalGraph VLayer.keras exCModel 1 ++ evalGraph VLayer.keras exCModel 0))) := rfl
  rw [this] at hn
  simp only [evalGraph, exCModel, List.map_cons, List.map_nil, List.cons_append, List.nil_append, List.mem_cons, List.not_mem_nil, or_false] at hn
  rcases hn with rfl | rfl | rfl | rfl | rfl
  · simp [ANode.eval] at hi
  · exact optList_getD (exCMha.keras [x]) ⟨[], fun _ => 0⟩ h1
  · exact optList_getD (exCAdd.keras [x, exC1 x]) ⟨[], fun _ => 0⟩ h2
  · exact optList_getD (exCConv.keras [exC2 x]) ⟨[], fun _ => 0⟩ h3
  · exact optList_getD (exCRnn.keras [exC3 x]) ⟨[], fun _ => 0⟩ h4

/-- The hypotheses of C114 hold for this model: the two batches differ at time 1, and the outputs are the same at time 0, but not at time 1. -/
example : SameUpTo 0 (exCVal exSeqArr 4) (exCVal exSeqLate 4) ∧ (exCVal exSeqArr 4).shape = [2, 2, 2] ∧
    ((List.range 2).flatMap fun t => (List.range 2).map fun o => ((exCVal exSeqArr 4).get [0, t, o], (exCVal exSeqLate 4).get [0, t, o])) = [(1, 1), (0, 0), (31 / 4, 7), (0, 0)] := by
  have hacyc : DepthOrdered [(0, exSeqArr)] (evalGraph VLayer.keras exCModel) 4 := by
    intro d hd n hn t ht
    have hd' : d = 0 ∨ d = 1 ∨ d = 2 ∨ d = 3 ∨ d = 4 := by omega
    rcases hd' with rfl | rfl | rfl | rfl | rfl <;>
      simp only [evalGraph, exCModel, List.map_cons, List.map_nil, List.mem_singleton] at hn <;> subst hn <;> simp [ANode.eval] at ht
    · subst ht; exact Or.inr ⟨1, by omega, by omega, _, List.mem_singleton.2 rfl, rfl, by simp [ANode.eval]⟩
    · subst ht; exact Or.inr ⟨2, by omega, by omega, _, List.mem_singleton.2 rfl, rfl, by simp [ANode.eval]⟩
    · rcases ht with rfl | rfl
      · exact Or.inl (by simp)
      · exact Or.inr ⟨3, by omega, by omega, _, List.mem_singleton.2 rfl, rfl, by simp [ANode.eval]⟩
    · subst ht; exact Or.inl (by simp)
  have hok : ∀ d ≤ 4, ∀ n ∈ exCModel d, n.isInput = false → CausalLayer n.layer (n.requires.map (exCVal exSeqArr)) := by
    intro d hd n hn hi
    have hd' : d = 0 ∨ d = 1 ∨ d = 2 ∨ d = 3 ∨ d = 4 := by omega
    rcases hd' with rfl | rfl | rfl | rfl | rfl <;> simp only [exCModel, List.mem_singleton] at hn <;> subst hn
    · exact ⟨rfl, rfl, rfl⟩
    · exact C114_causal_padding 2 1 2 2 2 2 1 2 1 (by decide) (fun i => 1 - (i : ℚ) / 2) (fun _ => 1 / 4) (exC2 exSeqArr) (by decide +kernel)
    · have e : ((exCVal exSeqArr 0).shape, (exCVal exSeqArr 1).shape) = ([2, 2, 2], [2, 2, 2]) := by decide +kernel
      have e0 := congrArg Prod.fst e
      have e1 := congrArg Prod.snd e
      simp only at e0 e1
      intro x hx y hy
      simp only [List.map_cons, List.map_nil, List.mem_cons, List.not_mem_nil, or_false] at hx hy
      rcases hx with rfl | rfl <;> rcases hy with rfl | rfl <;> simp [e0, e1]
    · exact ⟨rfl, rfl, rfl, fun h t s hm => by simpa using hm⟩
    · simp at hi
  refine ⟨?_, by decide +kernel, by decide +kernel⟩
  refine C114_models_partial 0 [(0, exSeqArr)] [(0, exSeqLate)] exCModel 4 [4] (exCVal exSeqArr) (exCVal exSeqLate) ?_ hacyc
    (exC_solves _ (by decide +kernel) (by decide +kernel) (by decide +kernel) (by decide +kernel))
    (exC_solves _ (by decide +kernel) (by decide +kernel) (by decide +kernel) (by decide +kernel)) hok ?_ 4 (by simp)
  · refine List.Forall₂.cons ⟨rfl, rfl, fun idx _ ht => ?_⟩ List.Forall₂.nil
    simp only [exSeqLate]
    rw [if_pos (by omega)]
  · intro t ht
    have : t = 4 := by simpa using ht
    subst this
    exact Or.inr ⟨0, by omega, _, List.mem_singleton.2 rfl, rfl, rfl⟩

/-- The conditions are needed: running backwards (`go_backwards=True`, where Keras does not flip the outputs) and without a mask, layers look ahead. -/
example : ((VLayer.base (.base (.rnn ⟨.simple exSimpleArr, true, .seq⟩))).keras [exC3 exSeqArr]).map (fun y => y.get [0, 0, 0]) = some (15 / 2) ∧
    ((VLayer.base (.base (.rnn ⟨.simple exSimpleArr, true, .seq⟩))).keras [exC3 exSeqLate]).map (fun y => y.get [0, 0, 0]) = some (13 / 2) ∧
    ((VLayer.base (.base (.base (.base (.mha exMhaArr .self none (-100)))))).keras [exSeqArr]).map (fun y => y.get [0, 0, 1]) = some (-3) ∧
    ((VLayer.base (.base (.base (.base (.mha exMhaArr .self none (-100)))))).keras [exSeqLate]).map (fun y => y.get [0, 0, 1]) = some (-5 / 2) := by
  refine ⟨?_, ?_, ?_, ?_⟩ <;> decide +kernel

end HGQ
