import Verif.Model.RnnArr
import Verif.Props.AlkaidX
import Verif.Props.Rnn

/-!
# C110: models with recurrent and spiking layers; C104 for them
-/
namespace HGQ
open Spec

/-! ## Specification -/

/-- Quantizers of a cell. -/
def Spec.cellQuants : RnnCell → List ArrQuant
  | .simple c => [c.iq, c.paq] ++ c.sq.toList
  | .gru c => [c.sq, c.rhq, c.paq, c.praq] ++ c.iq.toList
  | .snn c => c.iq.toList ++ c.oq.toList ++ c.sq.toList

/-- Layers that process the samples of a batch independently. -/
def Spec.ZLayerBatch : ZLayer → List (Arr ℚ) → Prop
  | .base l, xs => YLayerBatch l xs
  | .rnn l, _ => ∀ q ∈ cellQuants l.cell, QuantBatch q

/-- Layers that the plugin converts exactly: supported quantizers. -/
def Spec.ZLayerAlkaid : ZLayer → List (Arr ℚ) → Prop
  | .base l, xs => YLayerAlkaid l xs
  | .rnn l, _ => ∀ q ∈ cellQuants l.cell, QuantOk q

/-! ## Steps -/

/-- The second computation succeeds on the chosen samples whenever the first does on the batch. -/
def P1 (B : ℕ) (σ : List ℕ) (o o' : Option (Arr ℚ)) : Prop := ∀ a, o = some a → IsBatch B a ∧ o' = some (pick σ a)

def P2 (B : ℕ) (σ : List ℕ) (o o' : Option (Arr ℚ × Arr ℚ)) : Prop :=
  ∀ r, o = some r → (IsBatch B r.1 ∧ IsBatch B r.2) ∧ o' = some (pick σ r.1, pick σ r.2)

variable {B : ℕ} {σ : List ℕ}

theorem P1.bind {o o' : Option (Arr ℚ)} {k k' : Arr ℚ → Option (Arr ℚ)} (h : P1 B σ o o') (hk : ∀ a, IsBatch B a → P1 B σ (k a) (k' (pick σ a))) :
    P1 B σ (o.bind k) (o'.bind k') := by
  intro r hr
  obtain ⟨a, ha, hr⟩ := Option.bind_eq_some_iff.1 hr
  obtain ⟨h1, h2⟩ := h a ha
  rw [h2, Option.bind_some]
  exact hk a h1 r hr

theorem P1.bind2 {o o' : Option (Arr ℚ)} {k k' : Arr ℚ → Option (Arr ℚ × Arr ℚ)} (h : P1 B σ o o')
    (hk : ∀ a, IsBatch B a → P2 B σ (k a) (k' (pick σ a))) : P2 B σ (o.bind k) (o'.bind k') := by
  intro r hr
  obtain ⟨a, ha, hr⟩ := Option.bind_eq_some_iff.1 hr
  obtain ⟨h1, h2⟩ := h a ha
  rw [h2, Option.bind_some]
  exact hk a h1 r hr

theorem P1.twice {o o' : Option (Arr ℚ)} (h : P1 B σ o o') : P2 B σ (o.map fun y => (y, y)) (o'.map fun y => (y, y)) := by
  intro r hr
  obtain ⟨a, ha, rfl⟩ := Option.map_eq_some_iff.1 hr
  obtain ⟨h1, h2⟩ := h a ha
  exact ⟨⟨h1, h1⟩, by rw [h2]; rfl⟩

theorem P1.pair {o o' : Option (Arr ℚ)} (y : Arr ℚ) (hy : IsBatch B y) (h : P1 B σ o o') : P2 B σ (o.map fun s => (y, s)) (o'.map fun s => (pick σ y, s)) := by
  intro r hr
  obtain ⟨a, ha, rfl⟩ := Option.map_eq_some_iff.1 hr
  obtain ⟨h1, h2⟩ := h a ha
  exact ⟨⟨hy, h1⟩, by rw [h2]; rfl⟩

theorem P1.here {a : Arr ℚ} (h : IsBatch B a) : P1 B σ (some a) (some (pick σ a)) := fun _ e => by obtain rfl := Option.some.inj e; exact ⟨h, rfl⟩

theorem p_opt (hσ : ∀ j ∈ σ, j < B) (q : Option ArrQuant) (hq : ∀ r ∈ q, QuantBatch r) (x : Arr ℚ) (hx : IsBatch B x) :
    P1 B σ (kerasOpt q x) (kerasOpt q (pick σ x)) := fun a h => bw_opt hσ q hq x hx a h

theorem p_optA {b : ℕ} (hb : b < B) (q : Option ArrQuant) (hq : ∀ r ∈ q, QuantOk r) (x : Arr ℚ) (hx : IsBatch B x) :
    P1 B [b] (kerasOpt q x) (alkaidOpt q (pick [b] x)) := fun a h => ak_opt hb q hq x hx a h

theorem rowOf_pick (x : Arr ℚ) {j : ℕ} (hj : j < σ.length) : rowOf (pick σ x) j = rowOf x (σ.getD j 0) := by
  funext a; exact pick_get σ x j hj [a]

theorem p_row1 (hσ : ∀ j ∈ σ, j < B) (d u : ℕ) (g : RVec → RVec) (x : Arr ℚ) (hx : IsBatch B x) : P1 B σ (row1 d u g x) (row1 d u g (pick σ x)) := by
  intro out h
  obtain ⟨s, hs⟩ := hx
  unfold row1 at h ⊢
  rw [pick_shape σ x hs]
  rw [hs] at h
  match s, hs, h with
  | [e], hs, h =>
    simp only at h ⊢
    split at h
    swap
    · simp at h
    rename_i he
    rw [if_pos he]
    obtain rfl := Option.some.inj h
    refine ⟨⟨_, rfl⟩, congrArg some (norm_pick hσ _ _ ⟨_, rfl⟩ ⟨_, rfl⟩ rfl fun j hj idx _ => ?_)⟩
    simp only [List.getD_cons_zero]
    rw [rowOf_pick x hj]
    rfl
  | [], _, h => simp at h
  | _ :: _ :: _, _, h => simp at h

theorem p_row2 (hσ : ∀ j ∈ σ, j < B) (d e u : ℕ) (g : RVec → RVec → RVec) (x y : Arr ℚ) (hx : IsBatch B x) (hy : IsBatch B y) :
    P1 B σ (row2 d e u g x y) (row2 d e u g (pick σ x) (pick σ y)) := by
  intro out h
  obtain ⟨s, hs⟩ := hx
  obtain ⟨t, ht⟩ := hy
  unfold row2 at h ⊢
  rw [pick_shape σ x hs, pick_shape σ y ht]
  rw [hs, ht] at h
  match s, t, hs, ht, h with
  | [d'], [e'], hs, ht, h =>
    simp only at h ⊢
    split at h
    swap
    · simp at h
    rename_i he
    rw [if_pos ⟨he.1, he.2.1, trivial⟩]
    obtain rfl := Option.some.inj h
    refine ⟨⟨_, rfl⟩, congrArg some (norm_pick hσ _ _ ⟨_, rfl⟩ ⟨_, rfl⟩ rfl fun j hj idx _ => ?_)⟩
    simp only [List.getD_cons_zero]
    rw [rowOf_pick x hj, rowOf_pick y hj]
    rfl
  | [], _, _, _, h => simp at h
  | _ :: _ :: _, _, _, _, h => simp at h
  | [_], [], _, _, h => simp at h
  | [_], _ :: _ :: _, _, _, h => simp at h

theorem p_mat (hσ : ∀ j ∈ σ, j < B) (d u : ℕ) (W : RMat) (x : Arr ℚ) (hx : IsBatch B x) : P1 B σ (matOp d u W x) (matOp d u W (pick σ x)) := p_row1 hσ _ _ _ x hx
theorem p_cols (hσ : ∀ j ∈ σ, j < B) (d lo u : ℕ) (x : Arr ℚ) (hx : IsBatch B x) : P1 B σ (colsOp d lo u x) (colsOp d lo u (pick σ x)) := p_row1 hσ _ _ _ x hx
theorem p_act (hσ : ∀ j ∈ σ, j < B) (u : ℕ) (f : ℚ → ℚ) (x : Arr ℚ) (hx : IsBatch B x) : P1 B σ (actOp u f x) (actOp u f (pick σ x)) := p_row1 hσ _ _ _ x hx
theorem p_add (hσ : ∀ j ∈ σ, j < B) (u : ℕ) (x y : Arr ℚ) (hx : IsBatch B x) (hy : IsBatch B y) : P1 B σ (addOp u x y) (addOp u (pick σ x) (pick σ y)) :=
  p_row2 hσ _ _ _ _ x y hx hy
theorem p_mul (hσ : ∀ j ∈ σ, j < B) (u : ℕ) (x y : Arr ℚ) (hx : IsBatch B x) (hy : IsBatch B y) : P1 B σ (mulOp u x y) (mulOp u (pick σ x) (pick σ y)) :=
  p_row2 hσ _ _ _ _ x y hx hy

theorem p_bias (hσ : ∀ j ∈ σ, j < B) (u : ℕ) (b : Option RVec) (x : Arr ℚ) (hx : IsBatch B x) : P1 B σ (biasOpt u b x) (biasOpt u b (pick σ x)) := by
  cases b with
  | none => exact P1.here hx
  | some b => simp only [biasOpt, biasOp]; exact p_row1 hσ _ _ _ x hx

/-! ## Cells -/

/-- A step with the quantizers evaluated by `Q`: common form of the steps in Keras and in the plugin (for the latter see `snn_stepA_eq`, `gru_stepA_eq`). -/
def SimpleArr.stepQ (Q : Option ArrQuant → Arr ℚ → Option (Arr ℚ)) (c : SimpleArr) (x state : Arr ℚ) : Option (Arr ℚ × Arr ℚ) :=
  (Q c.sq state).bind fun qstate => (Q (some c.iq) x).bind fun qx =>
  (matOp c.inDim c.units c.kernel qx).bind fun h => (biasOpt c.units c.bias h).bind fun h =>
  (matOp c.units c.units c.rkernel qstate).bind fun r => (addOp c.units h r).bind fun y =>
  (Q (some c.paq) y).bind fun y => (actOp c.units c.act y).map fun y => (y, y)

theorem simple_stepA_eq (c : SimpleArr) (x state : Arr ℚ) : c.stepA x state = c.stepQ alkaidOpt x state := by
  unfold SimpleArr.stepA SimpleArr.stepQ
  cases alkaidOpt (some c.iq) x <;> cases alkaidOpt c.sq state <;> rfl

theorem simple_rel (hσ : ∀ j ∈ σ, j < B) (c : SimpleArr) (Q : Option ArrQuant → Arr ℚ → Option (Arr ℚ))
    (hQ : ∀ q, (∀ r ∈ q, r ∈ cellQuants (.simple c)) → ∀ x, IsBatch B x → P1 B σ (kerasOpt q x) (Q q (pick σ x))) (x s : Arr ℚ) (hx : IsBatch B x) (hs : IsBatch B s) :
    P2 B σ (c.stepK x s) (c.stepQ Q (pick σ x) (pick σ s)) := by
  unfold SimpleArr.stepK SimpleArr.stepQ
  refine (hQ c.sq (fun r hr => by simp [cellQuants]; exact .inr (.inr hr)) s hs).bind2 fun qs hqs => ?_
  refine (hQ (some c.iq) (fun r hr => by obtain rfl := Option.some.inj hr; simp [cellQuants]) x hx).bind2 fun qx hqx => ?_
  refine (p_mat hσ _ _ _ qx hqx).bind2 fun h hh => ?_
  refine (p_bias hσ _ _ h hh).bind2 fun h hh => ?_
  refine (p_mat hσ _ _ _ qs hqs).bind2 fun r hr => ?_
  refine (p_add hσ _ h r hh hr).bind2 fun y hy => ?_
  refine (hQ (some c.paq) (fun r hr => by obtain rfl := Option.some.inj hr; simp [cellQuants]) y hy).bind2 fun y hy => ?_
  exact (p_act hσ _ _ y hy).twice

def GruArr.innerQ (c : GruArr) (qh : Arr ℚ) : Option (Arr ℚ) := c.innerK qh

def GruArr.candQ (Q : Option ArrQuant → Arr ℚ → Option (Arr ℚ)) (c : GruArr) (inner r qh : Arr ℚ) : Option (Arr ℚ) :=
  if c.resetAfter then (colsOp (3 * c.units) (2 * c.units) c.units inner).bind fun m => (Q (some c.rhq) m).bind fun m => mulOp c.units r m
  else (mulOp c.units r qh).bind fun m => (Q (some c.rhq) m).bind fun m => matOp c.units c.units (fun a j => c.rkernel a (2 * c.units + j)) m

def GruArr.stepQ (Q : Option ArrQuant → Arr ℚ → Option (Arr ℚ)) (c : GruArr) (x h_tm1 : Arr ℚ) : Option (Arr ℚ × Arr ℚ) :=
  let u := c.units
  (Q (some c.sq) h_tm1).bind fun qh => (Q c.iq x).bind fun qx =>
  (matOp c.inDim (3 * u) c.kernel qx).bind fun mx => (biasOpt (3 * u) (c.bias.map (·.1)) mx).bind fun mx =>
  (colsOp (3 * u) 0 (2 * u) mx).bind fun x_zr => (colsOp (3 * u) (2 * u) u mx).bind fun x_h =>
  (c.innerQ qh).bind fun inner => (colsOp (if c.resetAfter then 3 * u else 2 * u) 0 (2 * u) inner).bind fun r_zr =>
  (addOp (2 * u) x_zr r_zr).bind fun zr => (actOp (2 * u) c.ract zr).bind fun zr => (Q (some c.praq) zr).bind fun zr =>
  (colsOp (2 * u) 0 u zr).bind fun z => (colsOp (2 * u) u u zr).bind fun r =>
  (c.candQ Q inner r qh).bind fun rh => (addOp u x_h rh).bind fun hh => (actOp u c.act hh).bind fun hh => (Q (some c.paq) hh).bind fun hh =>
  (mixOp u z qh hh).map fun h => (h, h)

theorem row1_shape {d u : ℕ} {g : RVec → RVec} {x y : Arr ℚ} (h : row1 d u g x = some y) :
    ∃ B, x.shape = [B, d] ∧ y = Arr.norm ⟨[B, u], fun idx => g (rowOf x (idx.getD 0 0)) (idx.getD 1 0)⟩ := by
  unfold row1 at h
  split at h
  · split at h
    · rename_i hs hd
      subst hd
      exact ⟨_, hs, (Option.some.inj h).symm⟩
    · simp at h
  · simp at h

theorem row1_mk {d u : ℕ} {g : RVec → RVec} {x : Arr ℚ} {B : ℕ} (h : x.shape = [B, d]) :
    row1 d u g x = some (Arr.norm ⟨[B, u], fun idx => g (rowOf x (idx.getD 0 0)) (idx.getD 1 0)⟩) := by
  unfold row1
  rw [h]
  simp [run]

theorem row2_shape {d e u : ℕ} {g : RVec → RVec → RVec} {x y z : Arr ℚ} (h : row2 d e u g x y = some z) :
    ∃ B, x.shape = [B, d] ∧ y.shape = [B, e] ∧ z = Arr.norm ⟨[B, u], fun idx => g (rowOf x (idx.getD 0 0)) (rowOf y (idx.getD 0 0)) (idx.getD 1 0)⟩ := by
  unfold row2 at h
  split at h
  · split at h
    · rename_i hs ht hd
      obtain ⟨rfl, rfl, rfl⟩ := hd
      exact ⟨_, hs, ht, (Option.some.inj h).symm⟩
    · simp at h
  · simp at h

theorem row2_mk {d e u : ℕ} {g : RVec → RVec → RVec} {x y : Arr ℚ} {B : ℕ} (h : x.shape = [B, d]) (h' : y.shape = [B, e]) :
    row2 d e u g x y = some (Arr.norm ⟨[B, u], fun idx => g (rowOf x (idx.getD 0 0)) (rowOf y (idx.getD 0 0)) (idx.getD 1 0)⟩) := by
  unfold row2
  rw [h, h']
  simp [run]

/-- An entry of a normalised matrix. -/
theorem mat_get {B u : ℕ} (f : List ℕ → ℚ) {b j : ℕ} (hb : b < B) (hj : j < u) : (Arr.norm ⟨[B, u], f⟩).get [b, j] = f [b, j] := by
  have : InShape [b, j] [B, u] := .cons hb (.cons hj .nil)
  exact norm_get (a := ⟨[B, u], f⟩) this

/-- Two matrices with equal entries. -/
theorem mat_ext {B u : ℕ} (f g : List ℕ → ℚ) (h : ∀ b < B, ∀ j < u, f [b, j] = g [b, j]) : Arr.norm ⟨[B, u], f⟩ = Arr.norm ⟨[B, u], g⟩ := by
  refine norm_same ⟨rfl, fun idx hidx => ?_⟩
  have hidx : InShape idx [B, u] := hidx
  cases hidx with
  | cons hb hr => cases hr with
    | cons hj hn => cases hn; exact h _ hb _ hj

/-- A zero row as bias changes nothing. -/
theorem row1_zero (d u : ℕ) (g : RVec → RVec) (x : Arr ℚ) : (row1 d u g x).bind (biasOp u fun _ => 0) = row1 d u g x := by
  cases h : row1 d u g x with
  | none => rfl
  | some y =>
    obtain ⟨B, -, rfl⟩ := row1_shape h
    rw [Option.bind_some, biasOp, row1_mk (B := B) rfl]
    refine congrArg some (mat_ext _ _ fun b hb j hj => ?_)
    simp only [List.getD_cons_zero, List.getD_cons_succ, add_zero, rowOf]
    exact mat_get _ hb hj

theorem gru_stepA_eq (c : GruArr) (x state : Arr ℚ) : c.stepA x state = c.stepQ alkaidOpt x state := by
  have e1 : ∀ qx : Arr ℚ, ((matOp c.inDim (3 * c.units) c.kernel qx).bind fun mx => biasOp (3 * c.units) c.biasesA.1 mx) =
      (matOp c.inDim (3 * c.units) c.kernel qx).bind fun mx => biasOpt (3 * c.units) (c.bias.map (·.1)) mx := by
    intro qx
    unfold GruArr.biasesA
    cases hb : c.bias with
    | none => simp only [Option.map_none, biasOpt]; rw [matOp, row1_zero, Option.bind_fun_some]
    | some b => cases c.resetAfter <;> rfl
  have e2 : ∀ qh : Arr ℚ, c.innerA qh = c.innerQ qh := by
    intro qh
    unfold GruArr.innerA GruArr.innerQ GruArr.innerK GruArr.biasesA
    cases hr : c.resetAfter with
    | false => rfl
    | true =>
      simp only [if_true]
      cases hb : c.bias with
      | none => simp only [Option.map_none, biasOpt]; rw [matOp, row1_zero, Option.bind_fun_some]
      | some b => rfl
  have e2' : c.innerA = c.innerQ := funext e2
  have e3 : c.candA = c.candQ alkaidOpt := rfl
  unfold GruArr.stepA GruArr.stepQ
  rw [e2', e3]
  refine congrArg (Option.bind (alkaidOpt (some c.sq) state)) (funext fun qh => congrArg (Option.bind (alkaidOpt c.iq x)) (funext fun qx => ?_))
  rw [← Option.bind_assoc, e1, Option.bind_assoc]

theorem gru_rel (hσ : ∀ j ∈ σ, j < B) (c : GruArr) (Q : Option ArrQuant → Arr ℚ → Option (Arr ℚ))
    (hQ : ∀ q, (∀ r ∈ q, r ∈ cellQuants (.gru c)) → ∀ x, IsBatch B x → P1 B σ (kerasOpt q x) (Q q (pick σ x))) (x s : Arr ℚ) (hx : IsBatch B x) (hs : IsBatch B s) :
    P2 B σ (c.stepK x s) (c.stepQ Q (pick σ x) (pick σ s)) := by
  have mem : ∀ q ∈ [c.sq, c.rhq, c.paq, c.praq], ∀ r ∈ (some q : Option ArrQuant), r ∈ cellQuants (.gru c) := by
    intro q hq r hr
    obtain rfl := Option.some.inj hr
    exact List.mem_append_left _ hq
  have hinner : ∀ qh, IsBatch B qh → P1 B σ (c.innerK qh) (c.innerQ (pick σ qh)) := by
    intro qh hqh
    unfold GruArr.innerQ GruArr.innerK
    cases c.resetAfter with
    | false => simp only [Bool.false_eq_true, if_false]; exact p_mat hσ _ _ _ qh hqh
    | true => simp only [if_true]; exact (p_mat hσ _ _ _ qh hqh).bind fun m hm => p_bias hσ _ _ m hm
  have hcand : ∀ i r qh, IsBatch B i → IsBatch B r → IsBatch B qh → P1 B σ (c.candK i r qh) (c.candQ Q (pick σ i) (pick σ r) (pick σ qh)) := by
    intro i r qh hi hr hqh
    unfold GruArr.candK GruArr.candQ
    cases c.resetAfter with
    | false =>
      simp only [Bool.false_eq_true, if_false]
      refine (p_mul hσ _ r qh hr hqh).bind fun m hm => ?_
      exact (hQ _ (mem c.rhq (by simp)) m hm).bind fun m hm => p_mat hσ _ _ _ m hm
    | true =>
      simp only [if_true]
      refine (p_cols hσ _ _ _ i hi).bind fun m hm => ?_
      exact (hQ _ (mem c.rhq (by simp)) m hm).bind fun m hm => p_mul hσ _ r m hr hm
  unfold GruArr.stepK GruArr.stepQ
  refine (hQ _ (mem c.sq (by simp)) s hs).bind2 fun qh hqh => ?_
  refine (hQ c.iq (fun r hr => by simp [cellQuants]; exact .inr (.inr (.inr (.inr hr)))) x hx).bind2 fun qx hqx => ?_
  refine (p_mat hσ _ _ _ qx hqx).bind2 fun mx hmx => ?_
  refine (p_bias hσ _ _ mx hmx).bind2 fun mx hmx => ?_
  refine (p_cols hσ _ _ _ mx hmx).bind2 fun xzr hxzr => ?_
  refine (p_cols hσ _ _ _ mx hmx).bind2 fun xh hxh => ?_
  refine (hinner qh hqh).bind2 fun i hi => ?_
  refine (p_cols hσ _ _ _ i hi).bind2 fun rzr hrzr => ?_
  refine (p_add hσ _ xzr rzr hxzr hrzr).bind2 fun zr hzr => ?_
  refine (p_act hσ _ _ zr hzr).bind2 fun zr hzr => ?_
  refine (hQ _ (mem c.praq (by simp)) zr hzr).bind2 fun zr hzr => ?_
  refine (p_cols hσ _ _ _ zr hzr).bind2 fun z hz => ?_
  refine (p_cols hσ _ _ _ zr hzr).bind2 fun r hr => ?_
  refine (hcand i r qh hi hr hqh).bind2 fun rh hrh => ?_
  refine (p_add hσ _ xh rh hxh hrh).bind2 fun hh hhh => ?_
  refine (p_act hσ _ _ hh hhh).bind2 fun hh hhh => ?_
  refine (hQ _ (mem c.paq (by simp)) hh hhh).bind2 fun hh hhh => ?_
  refine P1.twice ?_
  refine (p_mul hσ _ z qh hz hqh).bind fun a ha => ?_
  exact (p_row2 hσ _ _ _ _ z hh hz hhh).bind fun b hb => p_add hσ _ a b ha hb

/-! ## Spikes -/

theorem argmaxRow_spec (v : RVec) (n : ℕ) (h : 0 < n) :
    argmaxRow v n < n ∧ (∀ i < n, v i ≤ v (argmaxRow v n)) ∧ ∀ i < argmaxRow v n, v i < v (argmaxRow v n) := by
  induction n with
  | zero => omega
  | succ n ih =>
    rcases Nat.eq_zero_or_pos n with rfl | hn
    · simp [argmaxRow]
    · obtain ⟨h1, h2, h3⟩ := ih hn
      unfold argmaxRow
      split
      · rename_i hlt
        refine ⟨by omega, fun i hi => ?_, fun i hi => lt_of_le_of_lt (h2 i hi) hlt⟩
        rcases Nat.lt_succ_iff_lt_or_eq.1 hi with hi | rfl
        · exact (h2 i hi).trans hlt.le
        · exact le_refl _
      · rename_i hge
        refine ⟨by omega, fun i hi => ?_, h3⟩
        rcases Nat.lt_succ_iff_lt_or_eq.1 hi with hi | rfl
        · exact h2 i hi
        · exact not_lt.1 hge

theorem argmaxRow_iff (v : RVec) (n j : ℕ) (hj : j < n) : j = argmaxRow v n ↔ (∀ i < j, v i < v j) ∧ ∀ i, j < i → i < n → v i ≤ v j := by
  obtain ⟨h1, h2, h3⟩ := argmaxRow_spec v n (by omega)
  constructor
  · rintro rfl
    exact ⟨h3, fun i _ hi => h2 i hi⟩
  · rintro ⟨h4, h5⟩
    rcases lt_trichotomy j (argmaxRow v n) with h | h | h
    · have := h3 j h
      have := h5 _ h h1
      linarith
    · exact h
    · have := h4 _ h
      have := h2 j hj
      linarith

theorem fireRow_iff (c : SnnArr) (m : RVec) (j : ℕ) (hj : j < c.units) : c.fireRow m j = true ↔
    0 < m j - c.threshold j ∧ (c.inhibition = true → j = argmaxRow (fun j => m j - c.threshold j) c.units) := by
  unfold SnnArr.fireRow
  cases c.inhibition with
  | false => simp
  | true =>
    simp only [if_true, Bool.and_eq_true, decide_eq_true_eq, List.all_eq_true, List.mem_range, forall_const, gt_iff_lt, ge_iff_le]
    rw [argmaxRow_iff _ _ _ hj, and_assoc]
    refine and_congr_right fun _ => and_congr_right fun _ => ⟨fun h i hi hu => ?_, fun h i hi => h _ (by omega) (by omega)⟩
    have := h (i - (j + 1)) (by omega)
    rwa [show j + 1 + (i - (j + 1)) = i by omega] at this

theorem spikeRow_eq (c : SnnArr) (m : RVec) (j : ℕ) (hj : j < c.units) : c.spikeRow m j = if c.fireRow m j then 1 else 0 := by
  have h := fireRow_iff c m j hj
  unfold SnnArr.spikeRow
  cases hi : c.inhibition with
  | false =>
    simp only [hi, Bool.false_eq_true, false_implies, and_true] at h
    simp only [Bool.false_eq_true, if_false, spikeFn_eq]
    by_cases hp : 0 < m j - c.threshold j
    · rw [if_pos hp, if_pos (h.2 hp)]
    · rw [if_neg hp, if_neg (fun hf => hp (h.1 hf))]
  | true =>
    simp only [hi, true_implies] at h
    simp only [if_true, spikeFn_eq]
    by_cases hf : c.fireRow m j = true
    · obtain ⟨h1, h2⟩ := h.1 hf
      rw [if_pos h1, if_pos h2, if_pos hf, mul_one]
    · rw [if_neg hf]
      by_cases hp : 0 < m j - c.threshold j
      · rw [if_neg (fun he => hf (h.2 ⟨hp, he⟩)), mul_zero]
      · rw [if_neg hp, zero_mul]

def SnnArr.stepQ (Q : Option ArrQuant → Arr ℚ → Option (Arr ℚ)) (c : SnnArr) (x state : Arr ℚ) : Option (Arr ℚ × Arr ℚ) :=
  let u := c.units
  (Q c.iq x).bind fun qx => (row2 u u u c.memRow state qx).bind fun mem => (row1 u u c.spikeRow mem).bind fun spk =>
  (row1 u u (fun s j => s j * c.factor j) spk).bind fun output => (Q c.oq output).bind fun output =>
  (row2 u u u c.resetRow mem spk).bind fun new => (Q c.sq new).map fun new => (output, new)

theorem snn_stepA_eq (c : SnnArr) (x state : Arr ℚ) : c.stepA x state = c.stepQ alkaidOpt x state := by
  unfold SnnArr.stepA SnnArr.stepQ
  simp only
  congr 1
  funext qx
  cases hm : row2 c.units c.units c.units c.memRow state qx with
  | none => rfl
  | some mem =>
    obtain ⟨B, -, -, hmem⟩ := row2_shape hm
    have hs : mem.shape = [B, c.units] := by rw [hmem]; rfl
    rw [Option.bind_some, Option.bind_some, row1_mk (g := c.spikeRow) hs, Option.bind_some]
    have e1 : row1 c.units c.units (fun s j => s j * c.factor j) (Arr.norm ⟨[B, c.units], fun idx => c.spikeRow (rowOf mem (idx.getD 0 0)) (idx.getD 1 0)⟩) =
        row1 c.units c.units (fun m j => if c.fireRow m j then c.factor j else 0) mem := by
      rw [row1_mk (B := B) rfl, row1_mk hs]
      refine congrArg some (mat_ext _ _ fun b hb j hj => ?_)
      simp only [List.getD_cons_zero, List.getD_cons_succ, rowOf]
      rw [mat_get _ hb hj]
      simp only [List.getD_cons_zero, List.getD_cons_succ]
      rw [spikeRow_eq c _ j hj]
      simp only [ite_mul, one_mul, zero_mul]
    have e2 : row2 c.units c.units c.units c.resetRow mem (Arr.norm ⟨[B, c.units], fun idx => c.spikeRow (rowOf mem (idx.getD 0 0)) (idx.getD 1 0)⟩) =
        row1 c.units c.units c.resetA mem := by
      rw [row2_mk hs rfl, row1_mk hs]
      refine congrArg some (mat_ext _ _ fun b hb j hj => ?_)
      simp only [List.getD_cons_zero, List.getD_cons_succ]
      have hg : rowOf (Arr.norm ⟨[B, c.units], fun idx => c.spikeRow (rowOf mem (idx.getD 0 0)) (idx.getD 1 0)⟩) b j = if c.fireRow (rowOf mem b) j then 1 else 0 := by
        rw [rowOf, mat_get _ hb hj]
        exact spikeRow_eq c _ j hj
      unfold SnnArr.resetRow SnnArr.resetA
      cases c.reset with
      | subtract => simp only [hg]; split <;> simp
      | zero => simp only [hg]; split <;> simp
      | none => rfl
    rw [e1]
    simp only [e2]

theorem snn_rel (hσ : ∀ j ∈ σ, j < B) (c : SnnArr) (Q : Option ArrQuant → Arr ℚ → Option (Arr ℚ))
    (hQ : ∀ q, (∀ r ∈ q, r ∈ cellQuants (.snn c)) → ∀ x, IsBatch B x → P1 B σ (kerasOpt q x) (Q q (pick σ x))) (x s : Arr ℚ) (hx : IsBatch B x) (hs : IsBatch B s) :
    P2 B σ (c.stepK x s) (c.stepQ Q (pick σ x) (pick σ s)) := by
  unfold SnnArr.stepK SnnArr.stepQ
  refine (hQ c.iq (fun r hr => by simp [cellQuants]; exact .inl hr) x hx).bind2 fun qx hqx => ?_
  refine (p_row2 hσ _ _ _ _ s qx hs hqx).bind2 fun mem hmem => ?_
  refine (p_row1 hσ _ _ _ mem hmem).bind2 fun spk hspk => ?_
  refine (p_row1 hσ _ _ _ spk hspk).bind2 fun o ho => ?_
  refine (hQ c.oq (fun r hr => by simp [cellQuants]; exact .inr (.inl hr)) o ho).bind2 fun o ho => ?_
  refine (p_row2 hσ _ _ _ _ mem spk hmem hspk).bind2 fun new hnew => ?_
  exact P1.pair o ho (hQ c.sq (fun r hr => by simp [cellQuants]; exact .inr (.inr hr)) new hnew)

theorem cell_batch (hσ : ∀ j ∈ σ, j < B) (c : RnnCell) (hq : ∀ q ∈ cellQuants c, QuantBatch q) (x s : Arr ℚ) (hx : IsBatch B x) (hs : IsBatch B s) :
    P2 B σ (c.stepK x s) (c.stepK (pick σ x) (pick σ s)) := by
  have hQ : ∀ q, (∀ r ∈ q, r ∈ cellQuants c) → ∀ x, IsBatch B x → P1 B σ (kerasOpt q x) (kerasOpt q (pick σ x)) :=
    fun q h x hx => p_opt hσ q (fun r hr => hq r (h r hr)) x hx
  cases c with
  | simple c => exact simple_rel hσ c kerasOpt hQ x s hx hs
  | gru c => exact gru_rel hσ c kerasOpt hQ x s hx hs
  | snn c => exact snn_rel hσ c kerasOpt hQ x s hx hs

theorem cell_alkaid {b : ℕ} (hb : b < B) (c : RnnCell) (hq : ∀ q ∈ cellQuants c, QuantOk q) (x s : Arr ℚ) (hx : IsBatch B x) (hs : IsBatch B s) :
    P2 B [b] (c.stepK x s) (c.stepA (pick [b] x) (pick [b] s)) := by
  have hQ : ∀ q, (∀ r ∈ q, r ∈ cellQuants c) → ∀ x, IsBatch B x → P1 B [b] (kerasOpt q x) (alkaidOpt q (pick [b] x)) :=
    fun q h x hx => p_optA hb q (fun r hr => hq r (h r hr)) x hx
  cases c with
  | simple c => simp only [RnnCell.stepA, simple_stepA_eq]; exact simple_rel (one_lt hb) c alkaidOpt hQ x s hx hs
  | gru c => simp only [RnnCell.stepA, gru_stepA_eq]; exact gru_rel (one_lt hb) c alkaidOpt hQ x s hx hs
  | snn c => simp only [RnnCell.stepA, snn_stepA_eq]; exact snn_rel (one_lt hb) c alkaidOpt hQ x s hx hs

end HGQ
