import Verif.Model.RnnMask
import Verif.Props.RnnValues

/-!
# C125: masked steps of a recurrent layer are skipped

The layer on a batch of masked sequences, and the same layer without mask on the steps of one sample that are not masked.
-/
namespace HGQ
open Spec

/-! ## Specification -/

/-- `e` lists the steps of sample `b`, of `T` steps, that are not masked. -/
def Spec.ValidSteps (mask : ℕ → ℕ → Bool) (b T : ℕ) (e : List ℕ) : Prop := e.Pairwise (· < ·) ∧ ∀ t, t ∈ e ↔ t < T ∧ mask b t = true

/-- `y` is the sequence of the steps `e` of sample `b` of the sequences `x`, alone. -/
def Spec.OnlySteps (b : ℕ) (e : List ℕ) (x y : Arr ℚ) : Prop :=
  ∃ B T d, b < B ∧ x.shape = [B, T, d] ∧ y.shape = [1, e.length, d] ∧ ∀ k < e.length, ∀ f < d, y.get [0, k, f] = x.get [b, e.getD k 0, f]

/-- Steps among `e` that a layer has seen when it has processed `k + 1` of `T` steps. -/
def Spec.seen (backwards : Bool) (T k : ℕ) (e : List ℕ) : ℕ := e.countP fun t => if backwards then decide (T - 1 - k ≤ t) else decide (t ≤ k)

/-- The first state of sample `b`. -/
def Spec.firstState (s0 : Option (Arr ℚ)) (b j : ℕ) : ℚ :=
  match s0 with
  | none => 0
  | some s => s.get [b, j]

/-- Backend and cell for which masked steps repeat the last output: zeros first, or the first state if outputs are states (not for spiking cells). -/
def Spec.RepeatsOutput (fill : MaskFill) (c : RnnCell) : Prop := fill = .output ∨ ∀ s, c ≠ .snn s

/-! ## One sample -/

variable {B : ℕ} {b : ℕ}

/-- Outputs with the masked ones replaced by the last one before. -/
def held {α : Type} : List Bool → List α → α → List α
  | [], _, _ => []
  | true :: m, o :: os, _ => o :: held m os o
  | true :: m, [], p => p :: held m [] p
  | false :: m, os, p => p :: held m os p

theorem where_pick {on : ℕ → Bool} {x y z : Arr ℚ} (hx : IsBatch B x) (h : whereRows on x y = some z) : z.shape = x.shape ∧ x.shape = y.shape ∧ IsBatch B z ∧
    pick [b] z = if on b then pick [b] x else pick [b] y := by
  unfold whereRows at h
  split at h
  swap
  · simp at h
  rename_i hs
  obtain rfl := Option.some.inj h
  refine ⟨rfl, hs, hx, ?_⟩
  split
  · rename_i hb
    unfold pick
    congr 1
    funext idx
    rcases idx with _ | ⟨j, r⟩
    · rfl
    · rcases j with _ | j <;> simp [hb]
  · rename_i hb
    unfold pick
    simp only [hs]
    congr 1
    funext idx
    rcases idx with _ | ⟨j, r⟩
    · rfl
    · rcases j with _ | j <;> simp [hb]

theorem loopM_pick (K : Arr ℚ → Arr ℚ → Option (Arr ℚ × Arr ℚ)) (h : ∀ x s, IsBatch B x → IsBatch B s → P2 B [b] (K x s) (K (pick [b] x) (pick [b] s)))
    (zs : List ((ℕ → Bool) × Arr ℚ)) : ∀ s p, (∀ z ∈ zs, IsBatch B z.2) → IsBatch B s → ∀ r, kerasLoopM .output K zs s p = some r →
      (∀ o ∈ r.1, IsBatch B o ∧ o.shape = p.shape) ∧ IsBatch B r.2 ∧ r.2.shape = s.shape ∧ ∃ os, kerasLoop K ((zs.filter (·.1 b)).map fun z => pick [b] z.2) (pick [b] s) = some (os, pick [b] r.2) ∧
        os.length = (zs.map (·.1 b)).count true ∧ r.1.map (pick [b]) = held (zs.map (·.1 b)) os (pick [b] p) := by
  induction zs with
  | nil => intro s p _ hs r hr; obtain rfl := Option.some.inj hr; exact ⟨by simp, hs, rfl, [], rfl, rfl, rfl⟩
  | cons z zs ih =>
    intro s p hz hs r hr
    obtain ⟨on, x⟩ := z
    simp only [kerasLoopM] at hr
    obtain ⟨q, hq, hr⟩ := Option.bind_eq_some_iff.1 hr
    obtain ⟨o, ho, hr⟩ := Option.bind_eq_some_iff.1 hr
    obtain ⟨s', hs', hr⟩ := Option.bind_eq_some_iff.1 hr
    obtain ⟨t, ht, rfl⟩ := Option.map_eq_some_iff.1 hr
    obtain ⟨⟨q1, q2⟩, q3⟩ := h x s (hz (on, x) (by simp)) hs q hq
    obtain ⟨o1, o2, o3, o4⟩ := where_pick (b := b) q1 ho
    obtain ⟨s1, s2, s3, s4⟩ := where_pick (b := b) q2 hs'
    obtain ⟨t1, t2, t3, os, t4, t5, t6⟩ := ih s' o (fun z hz' => hz z (by simp [hz'])) s3 t ht
    refine ⟨fun y hy => ?_, t2, by rw [t3, s1, s2], ?_⟩
    · rcases List.mem_cons.1 hy with rfl | hy
      · exact ⟨o3, by rw [o1, o2]⟩
      · exact ⟨(t1 y hy).1, by rw [(t1 y hy).2, o1, o2]⟩
    · cases hb : on b with
      | true =>
        rw [hb, if_pos rfl] at o4 s4
        rw [s4] at t4
        rw [o4] at t6
        refine ⟨pick [b] q.1 :: os, ?_, ?_, ?_⟩
        · rw [List.filter_cons_of_pos (by exact hb), List.map_cons]
          simp only [kerasLoop, q3, Option.bind_some, t4, Option.map_some]
        · simp [hb, t5]
        · simp only [List.map_cons, hb, held, t6, o4]
      | false =>
        rw [hb] at o4 s4
        simp only [Bool.false_eq_true, if_false] at o4 s4
        rw [s4] at t4
        rw [o4] at t6
        refine ⟨os, ?_, ?_, ?_⟩
        · rw [List.filter_cons_of_neg (by simp [hb])]; exact t4
        · simp [hb, t5]
        · simp only [List.map_cons, hb, held, t6, o4]

/-- If outputs are states, the first state in place of the output is the same. -/
theorem loopM_state (K : Arr ℚ → Arr ℚ → Option (Arr ℚ × Arr ℚ)) (h : ∀ x s r, K x s = some r → r.1 = r.2) (zs : List ((ℕ → Bool) × Arr ℚ)) :
    ∀ s p, kerasLoopM .state K zs s p = kerasLoopM .output K zs s s := by
  induction zs with
  | nil => intro s p; rfl
  | cons z zs ih =>
    intro s p
    obtain ⟨on, x⟩ := z
    simp only [kerasLoopM]
    cases hK : K x s with
    | none => rfl
    | some r =>
      simp only [Option.bind_some]
      rw [h x s r hK]
      cases whereRows on r.2 s with
      | none => rfl
      | some o => simp only [Option.bind_some]; rw [ih]

theorem step_state (c : RnnCell) (hc : ∀ s, c ≠ .snn s) (x s : Arr ℚ) (r) (h : c.stepK x s = some r) : r.1 = r.2 := by
  cases c with
  | snn c => exact absurd rfl (hc c)
  | simple c =>
    simp only [RnnCell.stepK, SimpleArr.stepK] at h
    iterate 7 (obtain ⟨_, _, h⟩ := Option.bind_eq_some_iff.1 h)
    obtain ⟨y, _, rfl⟩ := Option.map_eq_some_iff.1 h
    rfl
  | gru c =>
    simp only [RnnCell.stepK, GruArr.stepK] at h
    iterate 17 (obtain ⟨_, _, h⟩ := Option.bind_eq_some_iff.1 h)
    obtain ⟨y, _, rfl⟩ := Option.map_eq_some_iff.1 h
    rfl

/-! ## Held outputs -/

theorem held_length {α : Type} (m : List Bool) : ∀ (os : List α) (p : α), (held m os p).length = m.length := by
  induction m with
  | nil => intros; rfl
  | cons a m ih =>
    intro os p
    cases a <;> cases os <;> simp [held, ih]

theorem held_get {α : Type} (m : List Bool) : ∀ (os : List α) (p : α), os.length = m.count true → ∀ k < m.length,
    (held m os p)[k]? = if (m.take (k + 1)).count true = 0 then some p else os[(m.take (k + 1)).count true - 1]? := by
  induction m with
  | nil => intro os p _ k hk; simp at hk
  | cons a m ih =>
    intro os p hl k hk
    cases a with
    | false =>
      have hl' : os.length = m.count true := by simpa using hl
      cases k with
      | zero => simp [held]
      | succ k =>
        have := ih os p hl' k (by simpa using hk)
        simpa [held] using this
    | true =>
      cases os with
      | nil => simp at hl
      | cons o os =>
        have hl' : os.length = m.count true := by simpa using hl
        cases k with
        | zero => simp [held]
        | succ k =>
          have := ih os o hl' k (by simpa using hk)
          simp only [held, List.getElem?_cons_succ, this, List.take_succ_cons, List.count_cons_self, Nat.add_eq_zero_iff, one_ne_zero, and_false, if_false, Nat.add_sub_cancel]
          split
          · rename_i h0; rw [h0]; rfl
          · rename_i h0
            obtain ⟨n, hn⟩ := Nat.exists_eq_succ_of_ne_zero h0
            rw [hn]; rfl

theorem held_last {α : Type} (m : List Bool) (os : List α) (p : α) (hl : os.length = m.count true) (hm : m ≠ []) : (held m os p).getLast? = some (os.getLast?.getD p) := by
  have hpos : 0 < m.length := List.length_pos_iff.2 hm
  rw [List.getLast?_eq_getElem?, held_length, held_get m os p hl _ (by omega), Nat.sub_add_cancel hpos, List.take_length, ← hl]
  cases os with
  | nil => rfl
  | cons o os => rw [if_neg (by simp), List.getLast?_eq_getElem?]; simp

/-! ## Slices -/

/-- Step `t` of sequences of shape `[B, T, d]`. -/
def sliceAt (B d : ℕ) (x : Arr ℚ) (t : ℕ) : Arr ℚ := (⟨[B, d], fun idx => x.get [idx.getD 0 0, t, idx.getD 1 0]⟩ : Arr ℚ).norm

theorem timeSlice_at {x : Arr ℚ} {B T d t : ℕ} (hx : x.shape = [B, T, d]) (ht : t < T) : timeSlice x t = some (sliceAt B d x t) := by
  simp only [timeSlice, hx, if_pos ht]; rfl

theorem valid_filter {mask : ℕ → ℕ → Bool} {b T : ℕ} {e : List ℕ} (he : ValidSteps mask b T e) : (List.range T).filter (fun t => mask b t) = e := by
  have h1 : ((List.range T).filter (fun t => mask b t)).Pairwise (· < ·) := List.pairwise_lt_range.filter _
  refine List.Perm.eq_of_pairwise (le := (· < ·)) (fun a c _ _ h h' => absurd h (by omega)) h1 he.1 ?_
  rw [List.perm_ext_iff_of_nodup (h1.imp fun h => Nat.ne_of_lt h) (he.1.imp fun h => Nat.ne_of_lt h)]
  intro t
  rw [he.2 t]
  simp

theorem slices_only {b B T d : ℕ} (hb : b < B) {e : List ℕ} (hlt : ∀ t ∈ e, t < T) {x y : Arr ℚ} (hx : x.shape = [B, T, d]) (hy : y.shape = [1, e.length, d])
    (h : ∀ k < e.length, ∀ f < d, y.get [0, k, f] = x.get [b, e.getD k 0, f]) : (List.range (timeSteps y)).mapM (timeSlice y) = some (e.map fun t => pick [b] (sliceAt B d x t)) := by
  have ht : timeSteps y = e.length := by simp [timeSteps, hy]
  rw [ht, graph_mapM_some (timeSlice y) (sliceAt 1 d y) (List.range e.length) fun t ht => timeSlice_at hy (List.mem_range.1 ht)]
  congr 1
  apply List.ext_getElem
  · simp
  · intro k h1 h2
    rw [List.getElem_map, List.getElem_map, List.getElem_range]
    have hk : k < e.length := by simpa using h1
    refine norm_pick (one_lt hb) _ _ ⟨_, rfl⟩ ⟨_, rfl⟩ rfl fun j hj idx hi => ?_
    obtain rfl : j = 0 := by simpa using hj
    cases hi with
    | @cons f _ r _ hf hr =>
      cases hr
      simp only [List.getD_cons_zero, List.getD_cons_succ]
      rw [h k hk f hf, List.getD_eq_getElem?_getD, List.getElem?_eq_getElem hk, Option.getD_some]

/-! ## Layers -/

/-- What stands before the first output. -/
def MaskFill.before (fill : MaskFill) (B u : ℕ) (s : Arr ℚ) : Arr ℚ :=
  match fill with
  | .output => zeroState B u
  | .state => s

theorem runM (l : RnnLayer) (fill : MaskFill) (hf : RepeatsOutput fill l.cell) (hq : ∀ q ∈ cellQuants l.cell, QuantBatch q) (mask : ℕ → ℕ → Bool) {x y s : Arr ℚ} {B T d b : ℕ}
    (hb : b < B) (hx : x.shape = [B, T, d]) (hs : s.shape = [B, l.cell.units]) {e : List ℕ} (he : ValidSteps mask b T e) (hy : y.shape = [1, e.length, d])
    (h : ∀ k < e.length, ∀ f < d, y.get [0, k, f] = x.get [b, e.getD k 0, f]) (r) (hr : l.kerasRunM fill mask x s = some r) :
    (∀ o ∈ r.1, o.shape = [B, l.cell.units]) ∧ r.2.shape = [B, l.cell.units] ∧ ∃ os, l.kerasRun y (pick [b] s) = some (os, pick [b] r.2) ∧
      os.length = ((List.range T).map fun t => mask b t).count true ∧
      r.1.map (pick [b]) = held (if l.goBackwards then ((List.range T).map fun t => mask b t).reverse else (List.range T).map fun t => mask b t) os
        (pick [b] (fill.before B l.cell.units s)) := by
  have hbatch := cell_batch (σ := [b]) (one_lt hb) l.cell hq
  unfold RnnLayer.kerasRunM at hr
  obtain ⟨zs, hzs, hr⟩ := Option.bind_eq_some_iff.1 hr
  have hT : timeSteps x = T := by simp [timeSteps, hx]
  rw [hT, graph_mapM_some _ (fun t => ((fun b => mask b t), sliceAt B d x t)) (List.range T) fun t ht => by
    rw [timeSlice_at hx (List.mem_range.1 ht)]; rfl] at hzs
  obtain rfl := Option.some.inj hzs
  have hr' : kerasLoopM .output l.cell.stepK (if l.goBackwards then ((List.range T).map fun t => ((fun b => mask b t), sliceAt B d x t)).reverse
      else (List.range T).map fun t => ((fun b => mask b t), sliceAt B d x t)) s (fill.before B l.cell.units s) = some r := by
    cases fill with
    | output => rw [← hr, hx]; rfl
    | state =>
      rw [loopM_state _ (step_state l.cell (hf.resolve_left (by simp)))] at hr
      exact hr
  have hp : (fill.before B l.cell.units s).shape = [B, l.cell.units] := by
    cases fill with
    | output => rfl
    | state => exact hs
  obtain ⟨h1, h2, h3, os, h4, h5, h6⟩ := loopM_pick (b := b) l.cell.stepK hbatch _ s _ (fun z hz => by
      have : z ∈ (List.range T).map fun t => ((fun b => mask b t), sliceAt B d x t) := by split at hz <;> simpa using hz
      obtain ⟨t, _, rfl⟩ := List.mem_map.1 this
      exact ⟨_, rfl⟩) ⟨_, hs⟩ r hr'
  refine ⟨fun o ho => by rw [(h1 o ho).2, hp], by rw [h3, hs], os, ?_, ?_, ?_⟩
  · unfold RnnLayer.kerasRun
    rw [slices_only hb (fun t ht => ((he.2 t).1 ht).1) hx hy h, Option.bind_some, ← h4, ← valid_filter he]
    congr 1
    cases l.goBackwards
    · simp only [Bool.false_eq_true, if_false, List.filter_map, List.map_map]; rfl
    · simp only [if_true, List.filter_reverse, List.map_reverse, List.filter_map, List.map_map]; rfl
  · rw [h5]
    cases l.goBackwards
    · simp only [Bool.false_eq_true, if_false, List.map_map]; rfl
    · simp only [if_true, List.map_reverse, List.count_reverse, List.map_map]; rfl
  · rw [h6]
    congr 1
    cases l.goBackwards
    · simp only [Bool.false_eq_true, if_false, List.map_map]; rfl
    · simp only [if_true, List.map_reverse, List.map_map]; rfl

theorem range_cut (n j : ℕ) : List.range (n + j) = List.range n ++ List.range' n j := by
  rw [List.range_eq_range', List.range_eq_range', ← List.range'_append_1]; simp

theorem count_valid {mask : ℕ → ℕ → Bool} {b T : ℕ} {e : List ℕ} (he : ValidSteps mask b T e) : ((List.range T).map fun t => mask b t).count true = e.length := by
  rw [← valid_filter he, List.count_eq_countP, List.countP_map, List.countP_eq_length_filter]
  congr 2
  funext t
  simp

theorem seen_count {mask : ℕ → ℕ → Bool} {b T : ℕ} {e : List ℕ} (he : ValidSteps mask b T e) (back : Bool) (k : ℕ) (hk : k < T) :
    ((if back then ((List.range T).map fun t => mask b t).reverse else (List.range T).map fun t => mask b t).take (k + 1)).count true = seen back T k e := by
  obtain ⟨n, rfl⟩ := Nat.exists_eq_add_of_lt hk
  rw [← valid_filter he, seen, List.countP_filter]
  cases back with
  | false =>
    simp only [Bool.false_eq_true, if_false]
    rw [← List.map_take, List.take_range, List.count_eq_countP, List.countP_map, show min (k + 1) (k + n + 1) = k + 1 by omega, show k + n + 1 = (k + 1) + n by omega,
      range_cut (k + 1) n, List.countP_append, (List.countP_eq_zero (l := List.range' (k + 1) n)).2, Nat.add_zero]
    · refine List.countP_congr fun t ht => ?_
      have := List.mem_range.1 ht
      simp; omega
    · intro t ht
      have := (List.mem_range'_1.1 ht).1
      simp; omega
  | true =>
    simp only [if_true]
    rw [List.take_reverse, List.count_reverse, List.length_map, List.length_range, show k + n + 1 - (k + 1) = n by omega, ← List.map_drop, List.count_eq_countP, List.countP_map,
      show k + n + 1 = n + (k + 1) by omega, range_cut n (k + 1), List.drop_append_of_le_length (by simp), List.drop_of_length_le (by simp), List.nil_append, List.countP_append,
      (List.countP_eq_zero (l := List.range n)).2, Nat.zero_add]
    · refine List.countP_congr fun t ht => ?_
      have := (List.mem_range'_1.1 ht).1
      simp; omega
    · intro t ht
      have := List.mem_range.1 ht
      simp; omega

/-- Arguments: the sequences and an initial state, if one is given. -/
theorem masked_run (l : RnnLayer) (fill : MaskFill) (mask : ℕ → ℕ → Bool) {x out : Arr ℚ} {s0 : Option (Arr ℚ)} {B T d : ℕ} (hx : x.shape = [B, T, d])
    (h : l.kerasMasked fill mask (x :: s0.toList) = some out) : ∃ s r, s = s0.getD (zeroState B l.cell.units) ∧ s.shape = [B, l.cell.units] ∧ l.kerasRunM fill mask x s = some r ∧
      l.out.result r = some out := by
  cases s0 with
  | none =>
    simp only [Option.toList_none, RnnLayer.kerasMasked, hx, List.length_cons, List.length_nil, if_true, List.getD_cons_zero] at h
    obtain ⟨r, hr, h⟩ := Option.bind_eq_some_iff.1 h
    exact ⟨_, r, rfl, rfl, hr, h⟩
  | some s =>
    simp only [Option.toList_some, RnnLayer.kerasMasked, hx, List.length_cons, List.length_nil, true_and, List.getD_cons_zero] at h
    split at h
    swap
    · simp at h
    rename_i hs
    obtain ⟨r, hr, h⟩ := Option.bind_eq_some_iff.1 h
    exact ⟨s, r, rfl, hs, hr, h⟩

theorem plain_run (l : RnnLayer) {y : Arr ℚ} {s0 : Option (Arr ℚ)} {b B n d : ℕ} (hy : y.shape = [1, n, d]) {s : Arr ℚ} (hs : s = s0.getD (zeroState B l.cell.units))
    (hsh : s.shape = [B, l.cell.units]) : l.keras (y :: (s0.map (pick [b])).toList) = (l.kerasRun y (pick [b] s)).bind l.out.result := by
  cases s0 with
  | none =>
    obtain rfl := hs
    simp only [Option.map_none, Option.toList_none, RnnLayer.keras, hy, List.length_cons, List.length_nil, if_true, List.getD_cons_zero, Option.getD_none, pick_zero]
  | some t =>
    obtain rfl := hs
    simp only [Option.map_some, Option.toList_some, RnnLayer.keras, hy, List.length_cons, List.length_nil, true_and, List.getD_cons_zero, Option.getD_some]
    rw [if_pos (by simpa using pick_shape [b] _ hsh)]

theorem stack_get {ys : List (Arr ℚ)} {out : Arr ℚ} (h : stackTime ys = some out) {B u : ℕ} (hs : ∀ y ∈ ys, y.shape = [B, u]) {b k j : ℕ} (hb : b < B) (hk : k < ys.length) (hj : j < u) :
    out.shape = [B, ys.length, u] ∧ some (out.get [b, k, j]) = ys[k]?.map fun y => y.get [b, j] := by
  unfold stackTime at h
  cases ys with
  | nil => simp at h
  | cons y ys =>
    simp only [hs y (by simp)] at h
    split at h
    swap
    · simp at h
    obtain rfl := Option.some.inj h
    refine ⟨rfl, ?_⟩
    have hi : InShape [b, k, j] [B, (y :: ys).length, u] := .cons hb (.cons hk (.cons hj .nil))
    rw [norm_get (a := _) hi, List.getElem?_eq_getElem hk]
    simp only [List.getD_cons_zero, List.getD_cons_succ, Option.map_some, List.getD_eq_getElem?_getD (l := y :: ys), List.getElem?_eq_getElem hk, Option.getD_some]

/-- **C125 (last output and state, partial).** A recurrent or spiking layer on a batch of sequences with a mask: the last output (or the state) for a sample with at least one step that is not
masked is what the layer without a mask gives on this sample alone, without its masked steps, wherever they are. -/
theorem C125_last_partial (l : RnnLayer) (hl : l.out ≠ .seq) (fill : MaskFill) (hf : RepeatsOutput fill l.cell) (hq : ∀ q ∈ cellQuants l.cell, QuantBatch q) (mask : ℕ → ℕ → Bool)
    (x y : Arr ℚ) (s0 : Option (Arr ℚ)) (b : ℕ) (e : List ℕ) (he : ValidSteps mask b (x.shape.getD 1 0) e) (hne : e ≠ []) (hy : OnlySteps b e x y) (out : Arr ℚ)
    (h : l.kerasMasked fill mask (x :: s0.toList) = some out) : l.keras (y :: (s0.map (pick [b])).toList) = some (pick [b] out) := by
  obtain ⟨B, T, d, hb, hx, hy, hg⟩ := hy
  have he : ValidSteps mask b T e := by simpa [hx] using he
  obtain ⟨s, r, hs, hsh, hr, hout⟩ := masked_run l fill mask hx h
  obtain ⟨-, -, os, g1, g2, g3⟩ := runM l fill hf hq mask hb hx hsh he hy hg r hr
  rw [plain_run l hy hs hsh, g1, Option.bind_some]
  rw [count_valid he] at g2
  have hos : os ≠ [] := by rintro rfl; exact hne (List.length_eq_zero_iff.1 g2.symm)
  cases ho : l.out with
  | seq => exact absurd ho hl
  | last =>
    rw [ho] at hout
    have hout : r.1.getLast? = some out := hout
    have hlast := congrArg List.getLast? g3
    have hT : (if l.goBackwards then ((List.range T).map fun t => mask b t).reverse else (List.range T).map fun t => mask b t) ≠ [] := by
      have : T ≠ 0 := by
        rintro rfl
        obtain ⟨t, ht⟩ := List.exists_mem_of_ne_nil _ hne
        have := ((he.2 t).1 ht).1
        omega
      split <;> simpa using this
    rw [List.getLast?_map, hout, held_last _ _ _ (by rw [g2, ← count_valid he]; split <;> simp [List.count_reverse]) hT, Option.map_some] at hlast
    simp only [RnnOut.result]
    obtain ⟨o, ho'⟩ := Option.isSome_iff_exists.1 (List.getLast?_isSome.2 hos)
    rw [ho'] at hlast ⊢
    simpa using hlast.symm
  | state =>
    rw [ho] at hout
    simp only [RnnOut.result] at hout ⊢
    split at hout
    · simp at hout
    · obtain rfl := Option.some.inj hout
      rw [if_neg hos]

/-- **C125 (sequences, partial).** With `return_sequences=True`: the output after any number of steps is the output of the layer without mask after the steps among them that are not
masked, or what stands before the first output if all of them are masked; outputs for masked steps repeat the last one. -/
theorem C125_sequence_partial (l : RnnLayer) (hl : l.out = .seq) (fill : MaskFill) (hf : RepeatsOutput fill l.cell) (hq : ∀ q ∈ cellQuants l.cell, QuantBatch q) (mask : ℕ → ℕ → Bool)
    (x y : Arr ℚ) (s0 : Option (Arr ℚ)) (b : ℕ) (e : List ℕ) (he : ValidSteps mask b (x.shape.getD 1 0) e) (hne : e ≠ []) (hy : OnlySteps b e x y) (out : Arr ℚ)
    (h : l.kerasMasked fill mask (x :: s0.toList) = some out) : ∃ out', l.keras (y :: (s0.map (pick [b])).toList) = some out' ∧
      ∀ k < x.shape.getD 1 0, ∀ j < l.cell.units, out.get [b, k, j] = if seen l.goBackwards (x.shape.getD 1 0) k e = 0 then
        (if fill = .output then 0 else firstState s0 b j) else out'.get [0, seen l.goBackwards (x.shape.getD 1 0) k e - 1, j] := by
  obtain ⟨B, T, d, hb, hx, hy, hg⟩ := hy
  have he : ValidSteps mask b T e := by simpa [hx] using he
  obtain ⟨s, r, hs, hsh, hr, hout⟩ := masked_run l fill mask hx h
  obtain ⟨g0, -, os, g1, g2, g3⟩ := runM l fill hf hq mask hb hx hsh he hy hg r hr
  rw [plain_run l hy hs hsh, g1, Option.bind_some]
  rw [hl] at hout ⊢
  have hout : stackTime r.1 = some out := hout
  rw [hx]
  simp only [List.getD_cons_succ, List.getD_cons_zero, RnnOut.result]
  have hlen : r.1.length = T := by
    have := congrArg List.length g3
    rw [List.length_map, held_length] at this
    rw [this]; split <;> simp
  have hcount : os.length = (if l.goBackwards then ((List.range T).map fun t => mask b t).reverse else (List.range T).map fun t => mask b t).count true := by
    rw [g2]; split <;> simp [List.count_reverse]
  have hml : (if l.goBackwards then ((List.range T).map fun t => mask b t).reverse else (List.range T).map fun t => mask b t).length = T := by split <;> simp
  have hget : ∀ k < T, (r.1.map (pick [b]))[k]? = if seen l.goBackwards T k e = 0 then some (pick [b] (fill.before B l.cell.units s)) else os[seen l.goBackwards T k e - 1]? := by
    intro k hk
    rw [g3, held_get _ _ _ hcount k (by rw [hml]; exact hk), seen_count he _ k hk]
  have hseen : ∀ k < T, seen l.goBackwards T k e ≤ os.length := by
    intro k _
    rw [g2, count_valid he]
    exact List.countP_le_length
  have hos : ∀ o ∈ os, o.shape = [1, l.cell.units] := by
    have hsp : (pick [b] s).shape = [1, l.cell.units] := pick_shape [b] s hsh
    have := g1
    unfold RnnLayer.kerasRun at this
    obtain ⟨ys, hys, hk⟩ := Option.bind_eq_some_iff.1 this
    rw [slices_only hb (fun t ht => ((he.2 t).1 ht).1) hx hy hg] at hys
    obtain rfl := Option.some.inj hys
    exact (loop_value l.cell 1 d _ (pick [b] s) (fun z hz => by
      have : z ∈ e.map fun t => pick [b] (sliceAt B d x t) := by split at hz <;> simpa using hz
      obtain ⟨t, _, rfl⟩ := List.mem_map.1 this
      rfl) hsp _ hk).2.1
  have hone : os ≠ [] := by
    rintro rfl
    rw [count_valid he] at g2
    exact hne (List.length_eq_zero_iff.1 g2.symm)
  have hst : ∃ out', stackTime os = some out' := by
    obtain ⟨o, os', rfl⟩ := List.exists_cons_of_ne_nil hone
    unfold stackTime
    simp only [hos o (by simp)]
    rw [if_pos (List.all_eq_true.2 fun z hz => decide_eq_true (hos z hz))]
    exact ⟨_, rfl⟩
  obtain ⟨out', hout'⟩ := hst
  refine ⟨out', hout', fun k hk j hj => ?_⟩
  obtain ⟨-, e1⟩ := stack_get hout g0 hb (by rw [hlen]; exact hk) hj
  have hk' : k < r.1.length := by rw [hlen]; exact hk
  have e2 := hget k hk
  rw [List.getElem?_map, List.getElem?_eq_getElem hk', Option.map_some] at e2
  rw [List.getElem?_eq_getElem hk', Option.map_some, Option.some.injEq] at e1
  have e3 : out.get [b, k, j] = (pick [b] r.1[k]).get [0, j] := by rw [e1, pick_get [b] _ 0 (by simp)]; rfl
  rw [e3]
  split
  · rename_i h0
    rw [if_pos h0, Option.some.injEq] at e2
    rw [e2, pick_get [b] _ 0 (by simp)]
    cases fill with
    | output => rfl
    | state =>
      rw [if_neg (by simp)]
      rw [hs]
      cases s0 <;> rfl
  · rename_i h0
    rw [if_neg h0] at e2
    have hlt : seen l.goBackwards T k e - 1 < os.length := by have := hseen k hk; omega
    obtain ⟨-, e4⟩ := stack_get hout' hos (b := 0) (by omega) hlt hj
    rw [← e2, Option.map_some, Option.some.injEq] at e4
    exact e4.symm

/-- **C125 (nothing but masked steps, partial).** If all steps of a sample are masked, the state stays the first state, and every output is what stands before the first output. -/
theorem C125_all_masked_partial (l : RnnLayer) (fill : MaskFill) (hf : RepeatsOutput fill l.cell) (hq : ∀ q ∈ cellQuants l.cell, QuantBatch q) (mask : ℕ → ℕ → Bool)
    (x : Arr ℚ) (s0 : Option (Arr ℚ)) (b B T d : ℕ) (hb : b < B) (hx : x.shape = [B, T, d]) (he : ∀ t < T, mask b t = false) (out : Arr ℚ)
    (h : l.kerasMasked fill mask (x :: s0.toList) = some out) :
    match l.out with
    | .seq => ∀ k < T, ∀ j < l.cell.units, out.get [b, k, j] = if fill = .output then 0 else firstState s0 b j
    | .last => ∀ j < l.cell.units, out.get [b, j] = if fill = .output then 0 else firstState s0 b j
    | .state => ∀ j < l.cell.units, out.get [b, j] = firstState s0 b j := by
  obtain ⟨s, r, hs, hsh, hr, hout⟩ := masked_run l fill mask hx h
  have hv : ValidSteps mask b T [] := ⟨.nil, fun t => by simpa using fun ht => he t ht⟩
  obtain ⟨g0, -, os, g1, g2, g3⟩ := runM l fill hf hq mask hb hx hsh (y := ⟨[1, 0, d], fun _ => 0⟩) hv rfl (by simp) r hr
  rw [count_valid hv] at g2
  obtain rfl := List.length_eq_zero_iff.1 g2
  have hlen : r.1.length = T := by
    have := congrArg List.length g3
    rw [List.length_map, held_length] at this
    rw [this]; split <;> simp
  have hml : (if l.goBackwards then ((List.range T).map fun t => mask b t).reverse else (List.range T).map fun t => mask b t).length = T := by split <;> simp
  have hfirst : ∀ j, s.get [b, j] = firstState s0 b j := by
    intro j
    rw [hs]
    cases s0 <;> rfl
  have hbefore : ∀ j, (fill.before B l.cell.units s).get [b, j] = if fill = .output then 0 else firstState s0 b j := by
    intro j
    cases fill with
    | output => rfl
    | state => rw [if_neg (by simp)]; exact hfirst j
  have hget : ∀ k (hk : k < r.1.length), ∀ j, (r.1[k]).get [b, j] = if fill = .output then 0 else firstState s0 b j := by
    intro k hk j
    have e2 : (r.1.map (pick [b]))[k]? = some (pick [b] (fill.before B l.cell.units s)) := by
      rw [g3, held_get _ _ _ (by rw [List.length_nil, ← List.length_nil (α := ℕ), ← count_valid hv]; split <;> simp [List.count_reverse]) k (by rw [hml, ← hlen]; exact hk),
        seen_count hv _ k (by rw [← hlen]; exact hk)]
      simp [seen]
    rw [List.getElem?_map, List.getElem?_eq_getElem hk, Option.map_some, Option.some.injEq] at e2
    have e3 : (r.1[k]).get [b, j] = (pick [b] r.1[k]).get [0, j] := by rw [pick_get [b] _ 0 (by simp)]; rfl
    rw [e3, e2, pick_get [b] _ 0 (by simp)]
    exact hbefore j
  cases ho : l.out with
  | seq =>
    rw [ho] at hout
    intro k hk j hj
    obtain ⟨-, e1⟩ := stack_get (ys := r.1) hout g0 hb (by rw [hlen]; exact hk) hj
    rw [List.getElem?_eq_getElem (by rw [hlen]; exact hk), Option.map_some, Option.some.injEq] at e1
    rw [e1]
    exact hget k _ j
  | last =>
    rw [ho] at hout
    have hout : r.1.getLast? = some out := hout
    intro j hj
    rw [List.getLast?_eq_getElem?] at hout
    obtain ⟨hk, rfl⟩ := List.getElem?_eq_some_iff.1 hout
    exact hget _ hk j
  | state =>
    rw [ho] at hout
    simp only [RnnOut.result] at hout
    split at hout
    · simp at hout
    · obtain rfl := Option.some.inj hout
      intro j hj
      have h5 : pick [b] r.2 = pick [b] s := by
        unfold RnnLayer.kerasRun at g1
        simp only [timeSteps, List.getD_cons_succ, List.getD_cons_zero, List.range_zero, List.mapM_nil, Option.pure_def, Option.bind_some, List.reverse_nil, ite_self, kerasLoop] at g1
        exact ((Prod.mk.inj (Option.some.inj g1)).2).symm
      have e3 : r.2.get [b, j] = (pick [b] r.2).get [0, j] := by rw [pick_get [b] _ 0 (by simp)]; rfl
      rw [e3, h5, pick_get [b] _ 0 (by simp)]
      exact hfirst j

/-- **C125 (padding, partial).** Sequences of different lengths in one batch, padded at the end with anything and masked: the last output (or the state) of a sample is what the layer gives
for its sequence alone, not padded. -/
theorem C125_padding_partial (l : RnnLayer) (hl : l.out ≠ .seq) (fill : MaskFill) (hf : RepeatsOutput fill l.cell) (hq : ∀ q ∈ cellQuants l.cell, QuantBatch q) (len : ℕ → ℕ)
    (x y : Arr ℚ) (b B T d : ℕ) (hb : b < B) (hx : x.shape = [B, T, d]) (h0 : 0 < len b) (hT : len b ≤ T) (hy : y.shape = [1, len b, d])
    (hg : ∀ k < len b, ∀ f < d, y.get [0, k, f] = x.get [b, k, f]) (out : Arr ℚ) (h : l.kerasMasked fill (fun b t => decide (t < len b)) [x] = some out) :
    l.keras [y] = some (pick [b] out) := by
  refine C125_last_partial l hl fill hf hq (fun b t => decide (t < len b)) x y none b (List.range (len b)) ⟨List.pairwise_lt_range, fun t => ?_⟩ (by simpa using Nat.pos_iff_ne_zero.1 h0)
    ⟨B, T, d, hb, hx, by rw [List.length_range]; exact hy, fun k hk f hf' => ?_⟩ out h
  · simp only [hx, List.mem_range, List.getD_cons_succ, List.getD_cons_zero, decide_eq_true_eq]
    omega
  · rw [List.length_range] at hk
    rw [hg k hk f hf', List.getD_eq_getElem?_getD, List.getElem?_range hk, Option.getD_some]

/-! ## Examples -/

/-- Step 1 of sample 1 is masked, the last two of sample 0. -/
def exRnnMask (b t : ℕ) : Bool := if b = 0 then decide (t = 0) else decide (t ≠ 1)

theorem exRnnMask_valid : ValidSteps exRnnMask 1 3 [0, 2] := ⟨by decide, fun t => by simp only [exRnnMask]; rcases t with _ | _ | _ | t <;> simp⟩

/-- The steps 0 and 2 of sample 1. -/
def exSeq3Cut : Arr ℚ := ⟨[1, 2, 1], fun idx => 1 + (idx.getD 1 0 : ℚ)⟩

theorem exSeq3Cut_only : OnlySteps 1 [0, 2] exSeq3 exSeq3Cut := by
  refine ⟨2, 3, 1, by decide, rfl, rfl, fun k hk f hf => ?_⟩
  obtain rfl : f = 0 := by omega
  rcases k with _ | _ | k
  · decide +kernel
  · decide +kernel
  · simp only [List.length_cons, List.length_nil] at hk; omega

/-- A simple recurrent layer: the masked step is skipped, with either backend. -/
example (fill : MaskFill) : ∃ out, (RnnLayer.mk (.simple exSimpleArr) false .last).kerasMasked fill exRnnMask [exSeq3] = some out ∧
    (RnnLayer.mk (.simple exSimpleArr) false .last).keras [exSeq3Cut] = some (pick [1] out) ∧ out.get [1, 0] ≠ 7 / 2 ∧
    ((RnnLayer.mk (.simple exSimpleArr) false .last).keras [exSeq3]).map (fun o => o.get [1, 0]) = some (7 / 2) := by
  have hs : ∃ v, v ≠ 7 / 2 ∧ ((RnnLayer.mk (.simple exSimpleArr) false .last).kerasMasked fill exRnnMask [exSeq3]).map (fun out => out.get [1, 0]) = some v := by
    refine ⟨5 / 2, by norm_num, ?_⟩
    cases fill <;> decide +kernel
  obtain ⟨v, hv, hs⟩ := hs
  obtain ⟨out, hout, hval⟩ := Option.map_eq_some_iff.1 hs
  have hok : ∀ q ∈ cellQuants (.simple exSimpleArr), QuantBatch q := fun q hq => ((exRnn_ok true).1 .last false q hq).1
  exact ⟨out, hout, C125_last_partial _ (by simp) fill (.inr (by simp)) hok exRnnMask exSeq3 exSeq3Cut none 1 [0, 2] exRnnMask_valid (by simp) exSeq3Cut_only out hout, by rw [hval]; exact hv,
    by decide +kernel⟩

/-- A gated recurrent layer, backwards, all outputs: the output for the masked step repeats the one before. -/
example (fill : MaskFill) : ∃ out out', (RnnLayer.mk (.gru (exGruArr true)) true .seq).kerasMasked fill exRnnMask [exSeq3] = some out ∧
    (RnnLayer.mk (.gru (exGruArr true)) true .seq).keras [exSeq3Cut] = some out' ∧ out.get [1, 0, 0] = out'.get [0, 0, 0] ∧ out.get [1, 1, 0] = out'.get [0, 0, 0] ∧
    out.get [1, 2, 0] = out'.get [0, 1, 0] := by
  have hs : ∃ out, (RnnLayer.mk (.gru (exGruArr true)) true .seq).kerasMasked fill exRnnMask [exSeq3] = some out := by
    apply Option.isSome_iff_exists.1
    cases fill <;> decide +kernel
  obtain ⟨out, hout⟩ := hs
  have hok : ∀ q ∈ cellQuants (.gru (exGruArr true)), QuantBatch q := fun q hq => ((exRnn_ok true).2.1 .seq true q hq).1
  obtain ⟨out', h', hg⟩ := C125_sequence_partial _ rfl fill (.inr (by simp)) hok exRnnMask exSeq3 exSeq3Cut none 1 [0, 2] exRnnMask_valid (by simp) exSeq3Cut_only out hout
  exact ⟨out, out', hout, h', hg 0 (by decide) 0 (by decide), hg 1 (by decide) 0 (by decide), hg 2 (by decide) 0 (by decide)⟩

/-- A spiking layer, on the backends that repeat the output: the state. -/
example : ∃ out, (RnnLayer.mk (.snn exSnnArr) false .state).kerasMasked .output exRnnMask [exSeq3] = some out ∧
    (RnnLayer.mk (.snn exSnnArr) false .state).keras [exSeq3Cut] = some (pick [1] out) := by
  have hs : ∃ out, (RnnLayer.mk (.snn exSnnArr) false .state).kerasMasked .output exRnnMask [exSeq3] = some out := by
    apply Option.isSome_iff_exists.1
    decide +kernel
  obtain ⟨out, hout⟩ := hs
  have hok : ∀ q ∈ cellQuants (.snn exSnnArr), QuantBatch q := fun q hq => ((exRnn_ok true).2.2 .state false q hq).1
  exact ⟨out, hout, C125_last_partial _ (by simp) .output (.inl rfl) hok exRnnMask exSeq3 exSeq3Cut none 1 [0, 2] exRnnMask_valid (by simp) exSeq3Cut_only out hout⟩

/-- A sequence of one step, padded. -/
example (fill : MaskFill) : ∃ out, (RnnLayer.mk (.simple exSimpleArr) false .last).kerasMasked fill (fun b t => decide (t < if b = 0 then 3 else 1)) [exSeq3] = some out ∧
    (RnnLayer.mk (.simple exSimpleArr) false .last).keras [⟨[1, 1, 1], fun _ => 1⟩] = some (pick [1] out) := by
  have hs : ∃ out, (RnnLayer.mk (.simple exSimpleArr) false .last).kerasMasked fill (fun b t => decide (t < if b = 0 then 3 else 1)) [exSeq3] = some out := by
    apply Option.isSome_iff_exists.1
    cases fill <;> decide +kernel
  obtain ⟨out, hout⟩ := hs
  have hok : ∀ q ∈ cellQuants (.simple exSimpleArr), QuantBatch q := fun q hq => ((exRnn_ok true).1 .last false q hq).1
  refine ⟨out, hout, C125_padding_partial _ (by simp) fill (.inr (by simp)) hok (fun b => if b = 0 then 3 else 1) exSeq3 _ 1 2 3 1 (by decide) rfl (by decide) (by decide) rfl
    (fun k hk f hf => ?_) out hout⟩
  simp only [one_ne_zero, if_false] at hk
  obtain rfl : k = 0 := by omega
  obtain rfl : f = 0 := by omega
  decide +kernel

/-- Nothing but masked steps. -/
example : ∃ out, (RnnLayer.mk (.simple exSimpleArr) false .last).kerasMasked .state (fun b _ => decide (b = 0)) [exSeq3, ⟨[2, 2], fun _ => 1⟩] = some out ∧ out.get [1, 1] = 1 := by
  have hs : ∃ out, (RnnLayer.mk (.simple exSimpleArr) false .last).kerasMasked .state (fun b _ => decide (b = 0)) [exSeq3, ⟨[2, 2], fun _ => 1⟩] = some out := by
    apply Option.isSome_iff_exists.1
    decide +kernel
  obtain ⟨out, hout⟩ := hs
  have hok : ∀ q ∈ cellQuants (.simple exSimpleArr), QuantBatch q := fun q hq => ((exRnn_ok true).1 .last false q hq).1
  exact ⟨out, hout, C125_all_masked_partial (RnnLayer.mk (.simple exSimpleArr) false .last) .state (.inr (by simp)) hok _ exSeq3 (some ⟨[2, 2], fun _ => 1⟩) 1 2 3 1 (by decide) rfl
    (by simp) out hout 1 (by decide)⟩

/-- With a backend that puts the first state in place of the output, the last output of a spiking layer is not its output on the sequence that is not padded: `RepeatsOutput` is needed. -/
theorem C125_spiking_state_violated : ∃ (l : RnnLayer) (x y out : Arr ℚ), l.out = .last ∧ (∀ q ∈ cellQuants l.cell, QuantBatch q) ∧ OnlySteps 1 [0] x y ∧
    l.kerasMasked .state (fun _ t => decide (t = 0)) [x] = some out ∧ l.keras [y] ≠ some (pick [1] out) := by
  have hs : ((RnnLayer.mk (.snn exSnnArr) false .last).kerasMasked .state (fun _ t => decide (t = 0)) [exSeq3]).map (fun o => o.get [1, 0]) = some (1 / 4) := by decide +kernel
  obtain ⟨out, hout, hv⟩ := Option.map_eq_some_iff.1 hs
  refine ⟨_, exSeq3, ⟨[1, 1, 1], fun _ => 1⟩, out, rfl, fun q hq => ((exRnn_ok true).2.2 .last false q hq).1, ⟨2, 3, 1, by decide, rfl, rfl, fun k hk f hf => ?_⟩, hout, fun h => ?_⟩
  · obtain rfl : k = 0 := by simpa using hk
    obtain rfl : f = 0 := by omega
    decide +kernel
  · have h1 : ((RnnLayer.mk (.snn exSnnArr) false .last).keras [⟨[1, 1, 1], fun _ => 1⟩]).map (fun o => o.get [0, 0]) = some 2 := by decide +kernel
    rw [h, Option.map_some, pick_get [1] _ 0 (by simp), Option.some.injEq] at h1
    have h1 : out.get [1, 0] = 2 := h1
    rw [hv] at h1
    norm_num at h1

end HGQ
