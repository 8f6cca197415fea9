import Verif.Props.RnnLayers

/-!
# C110: what recurrent and spiking layers compute

Specification: the recurrences of one sample, written with sums; quantizers act on each entry.
-/
namespace HGQ
open Spec Finset

/-! ## Specification -/

/-- The entry of an optional bias. -/
def Spec.biasAt (b : Option RVec) (j : ℕ) : ℚ :=
  match b with
  | some b => b j
  | none => 0

/-- `QSimpleRNN`: `o = act(q(W qx + b + R qs))`, and the new state is the output. -/
def Spec.SimpleEq (c : SimpleArr) (b : ℕ) (x s o s' : RVec) : Prop :=
  (∀ j < c.units, o j = c.act (quantAt c.paq [b, j] ((∑ a ∈ range c.inDim, quantAt c.iq [b, a] (x a) * c.kernel a j) + biasAt c.bias j +
    ∑ a ∈ range c.units, optAt c.sq [b, a] (s a) * c.rkernel a j))) ∧ ∀ j < c.units, s' j = o j

/-- `QGRU`: there are gates `z`, `r` and a candidate `n` with the usual equations, each quantized after its activation; the reset gate multiplies the state after
(`reset_after`) or before the recurrent product. -/
def Spec.GruEq (c : GruArr) (b : ℕ) (x s o s' : RVec) : Prop :=
  let u := c.units
  let W : ℕ → ℚ := fun j => (∑ a ∈ range c.inDim, optAt c.iq [b, a] (x a) * c.kernel a j) + biasAt (c.bias.map (·.1)) j
  let R : ℕ → ℚ := fun j => (∑ a ∈ range u, quantAt c.sq [b, a] (s a) * c.rkernel a j) + if c.resetAfter then biasAt (c.bias.map (·.2)) j else 0
  ∃ z r n : RVec,
    (∀ j < u, z j = quantAt c.praq [b, j] (c.ract (W j + R j))) ∧
    (∀ j < u, r j = quantAt c.praq [b, u + j] (c.ract (W (u + j) + R (u + j)))) ∧
    (∀ j < u, n j = quantAt c.paq [b, j] (c.act (W (2 * u + j) +
      if c.resetAfter then r j * quantAt c.rhq [b, j] (R (2 * u + j))
      else ∑ a ∈ range u, quantAt c.rhq [b, a] (r a * quantAt c.sq [b, a] (s a)) * c.rkernel a (2 * u + j)))) ∧
    (∀ j < u, o j = z j * quantAt c.sq [b, j] (s j) + (1 - z j) * n j) ∧ ∀ j < u, s' j = o j

/-- Spiking layers: a unit fires if its membrane potential exceeds the threshold and, with lateral inhibition, no unit exceeds its threshold by more, nor an earlier
one by as much; a firing unit emits its factor and is reset. -/
def Spec.SnnEq (c : SnnArr) (b : ℕ) (x s o s' : RVec) : Prop :=
  ∃ (m : RVec) (fires : ℕ → Prop),
    (∀ j < c.units, m j = (match c.beta with | some β => β j | none => 1) * s j + optAt c.iq [b, j] (x j)) ∧
    (∀ j < c.units, fires j ↔ c.threshold j < m j ∧ (c.inhibition = true →
      ∀ i < c.units, m i - c.threshold i ≤ m j - c.threshold j ∧ (i < j → m i - c.threshold i < m j - c.threshold j))) ∧
    (∀ j < c.units, (fires j → o j = optAt c.oq [b, j] (c.factor j)) ∧ (¬ fires j → o j = optAt c.oq [b, j] 0)) ∧
    (∀ j < c.units, (¬ fires j → s' j = optAt c.sq [b, j] (m j)) ∧ (fires j → s' j = optAt c.sq [b, j]
      (match c.reset with | .subtract => m j - c.threshold j | .zero => 0 | .none => m j)))

/-- One step of sample `b`: input row, state, output row, new state. -/
def Spec.CellEq : RnnCell → ℕ → RVec → RVec → RVec → RVec → Prop
  | .simple c => SimpleEq c
  | .gru c => GruEq c
  | .snn c => SnnEq c

/-- The recurrence of sample `b` of a batch `x` of `T` steps started at `s0`: states `s 0, ..., s T` and outputs `o 0, ..., o (T-1)`; step `k` reads time `k`, or
`T - 1 - k` backwards. -/
def Spec.Recurrence (l : RnnLayer) (x : Arr ℚ) (T b : ℕ) (s0 : RVec) (s o : ℕ → RVec) : Prop :=
  (∀ j < l.cell.units, s 0 j = s0 j) ∧
  ∀ k < T, CellEq l.cell b (fun a => x.get [b, if l.goBackwards then T - 1 - k else k, a]) (s k) (o k) (s (k + 1))

/-- The result contains the outputs, the last output or the last state. -/
def Spec.Returns (l : RnnLayer) (T B : ℕ) (s o : ℕ → ℕ → RVec) (out : Arr ℚ) : Prop :=
  match l.out with
  | .seq => out.shape = [B, T, l.cell.units] ∧ ∀ b < B, ∀ k < T, ∀ j < l.cell.units, out.get [b, k, j] = o b k j
  | .last => out.shape = [B, l.cell.units] ∧ ∀ b < B, ∀ j < l.cell.units, out.get [b, j] = o b (T - 1) j
  | .state => out.shape = [B, l.cell.units] ∧ ∀ b < B, ∀ j < l.cell.units, out.get [b, j] = s b T j

/-! ## Steps -/

theorem row1_get {d u : ℕ} {g : RVec → RVec} {x y : Arr ℚ} {B : ℕ} (hx : x.shape.head? = some B) (h : row1 d u g x = some y) :
    x.shape = [B, d] ∧ y.shape = [B, u] ∧ ∀ b < B, ∀ j < u, y.get [b, j] = g (rowOf x b) j := by
  obtain ⟨B', h1, rfl⟩ := row1_shape h
  rw [h1] at hx
  obtain rfl : B' = B := Option.some.inj hx
  exact ⟨h1, rfl, fun b hb j hj => mat_get _ hb hj⟩

theorem row2_get {d e u : ℕ} {g : RVec → RVec → RVec} {x y z : Arr ℚ} {B : ℕ} (hx : x.shape.head? = some B) (h : row2 d e u g x y = some z) :
    x.shape = [B, d] ∧ y.shape = [B, e] ∧ z.shape = [B, u] ∧ ∀ b < B, ∀ j < u, z.get [b, j] = g (rowOf x b) (rowOf y b) j := by
  obtain ⟨B', h1, h2, rfl⟩ := row2_shape h
  rw [h1] at hx
  obtain rfl : B' = B := Option.some.inj hx
  exact ⟨h1, h2, rfl, fun b hb j hj => mat_get _ hb hj⟩

theorem opt_shape {q : Option ArrQuant} {x y : Arr ℚ} (h : kerasOpt q x = some y) : y.shape = x.shape := by
  cases q with
  | none => simp only [kerasOpt, Option.some.injEq] at h; rw [h]
  | some q =>
    obtain ⟨a, ha, rfl⟩ := Option.map_eq_some_iff.1 h
    unfold ArrQuant.keras at ha
    split at ha
    · obtain rfl := Option.some.inj ha; rfl
    · simp at ha

theorem opt_mat {q : Option ArrQuant} {x y : Arr ℚ} {B u : ℕ} (hx : x.shape = [B, u]) (h : kerasOpt q x = some y) :
    y.shape = [B, u] ∧ ∀ b < B, ∀ j < u, y.get [b, j] = optAt q [b, j] (x.get [b, j]) :=
  ⟨by rw [opt_shape h, hx], fun b hb j hj => kerasOpt_get h (by rw [hx]; exact .cons hb (.cons hj .nil))⟩

theorem head_of {x : Arr ℚ} {B u : ℕ} (h : x.shape = [B, u]) : x.shape.head? = some B := by rw [h]; rfl

theorem bias_get {u : ℕ} {bs : Option RVec} {x y : Arr ℚ} {B : ℕ} (hx : x.shape = [B, u]) (h : biasOpt u bs x = some y) :
    y.shape = [B, u] ∧ ∀ b < B, ∀ j < u, y.get [b, j] = x.get [b, j] + biasAt bs j := by
  cases bs with
  | none => simp only [biasOpt, Option.some.injEq] at h; subst h; exact ⟨hx, fun b hb j hj => by simp [biasAt]⟩
  | some bs =>
    have h : row1 u u (fun x j => x j + bs j) x = some y := h
    exact ⟨(row1_get (head_of hx) h).2.1, fun b hb j hj => (row1_get (head_of hx) h).2.2 b hb j hj⟩

theorem simple_value (c : SimpleArr) (x s : Arr ℚ) (r : Arr ℚ × Arr ℚ) (B d : ℕ) (hx : x.shape = [B, d]) (hs : s.shape = [B, c.units]) (h : c.stepK x s = some r) :
    (r.1.shape = [B, c.units] ∧ r.2.shape = [B, c.units]) ∧ ∀ b < B, SimpleEq c b (rowOf x b) (rowOf s b) (rowOf r.1 b) (rowOf r.2 b) := by
  unfold SimpleArr.stepK at h
  obtain ⟨qs, h1, h⟩ := Option.bind_eq_some_iff.1 h
  obtain ⟨qx, h2, h⟩ := Option.bind_eq_some_iff.1 h
  obtain ⟨y1, h3, h⟩ := Option.bind_eq_some_iff.1 h
  obtain ⟨y2, h4, h⟩ := Option.bind_eq_some_iff.1 h
  obtain ⟨y3, h5, h⟩ := Option.bind_eq_some_iff.1 h
  obtain ⟨y4, h6, h⟩ := Option.bind_eq_some_iff.1 h
  obtain ⟨y5, h7, h⟩ := Option.bind_eq_some_iff.1 h
  obtain ⟨y6, h8, rfl⟩ := Option.map_eq_some_iff.1 h
  obtain ⟨s1, g1⟩ := opt_mat hs h1
  obtain ⟨s2, g2⟩ := opt_mat hx h2
  obtain ⟨s2', s3, g3⟩ := row1_get (head_of s2) h3
  obtain ⟨s4, g4⟩ := bias_get s3 h4
  obtain ⟨-, s5, g5⟩ := row1_get (head_of s1) h5
  obtain ⟨-, -, s6, g6⟩ := row2_get (head_of s4) h6
  obtain ⟨s7, g7⟩ := opt_mat s6 h7
  obtain ⟨-, s8, g8⟩ := row1_get (head_of s7) h8
  have hd : d = c.inDim := by rw [s2] at s2'; simpa using s2'
  subst hd
  refine ⟨⟨s8, s8⟩, fun b hb => ⟨fun j hj => ?_, fun j _ => rfl⟩⟩
  show y6.get [b, j] = _
  rw [g8 b hb j hj]
  simp only [rowOf]
  rw [g7 b hb j hj, g6 b hb j hj]
  simp only [rowOf, optAt]
  rw [g4 b hb j hj, g3 b hb j hj, g5 b hb j hj]
  have e1 : rowMul c.inDim (rowOf qx b) c.kernel j = ∑ a ∈ range c.inDim, quantAt c.iq [b, a] (x.get [b, a]) * c.kernel a j :=
    sum_congr rfl fun a ha => by rw [show rowOf qx b a = _ from g2 b hb a (mem_range.1 ha)]; rfl
  have e2 : rowMul c.units (rowOf qs b) c.rkernel j = ∑ a ∈ range c.units, optAt c.sq [b, a] (s.get [b, a]) * c.rkernel a j :=
    sum_congr rfl fun a ha => by rw [show rowOf qs b a = _ from g1 b hb a (mem_range.1 ha)]
  rw [e1, e2]
  rfl

theorem snn_value (c : SnnArr) (x s : Arr ℚ) (r : Arr ℚ × Arr ℚ) (B d : ℕ) (hx : x.shape = [B, d]) (hs : s.shape = [B, c.units]) (h : c.stepK x s = some r) :
    (r.1.shape = [B, c.units] ∧ r.2.shape = [B, c.units]) ∧ ∀ b < B, SnnEq c b (rowOf x b) (rowOf s b) (rowOf r.1 b) (rowOf r.2 b) := by
  unfold SnnArr.stepK at h
  obtain ⟨qx, h1, h⟩ := Option.bind_eq_some_iff.1 h
  obtain ⟨m, h2, h⟩ := Option.bind_eq_some_iff.1 h
  obtain ⟨spk, h3, h⟩ := Option.bind_eq_some_iff.1 h
  obtain ⟨o1, h4, h⟩ := Option.bind_eq_some_iff.1 h
  obtain ⟨o2, h5, h⟩ := Option.bind_eq_some_iff.1 h
  obtain ⟨n1, h6, h⟩ := Option.bind_eq_some_iff.1 h
  obtain ⟨n2, h7, rfl⟩ := Option.map_eq_some_iff.1 h
  obtain ⟨s1, g1⟩ := opt_mat hx h1
  obtain ⟨-, s1', s2, g2⟩ := row2_get (head_of hs) h2
  obtain ⟨-, s3, g3⟩ := row1_get (head_of s2) h3
  obtain ⟨-, s4, g4⟩ := row1_get (head_of s3) h4
  obtain ⟨s5, g5⟩ := opt_mat s4 h5
  obtain ⟨-, -, s6, g6⟩ := row2_get (head_of s2) h6
  obtain ⟨s7, g7⟩ := opt_mat s6 h7
  have hd : d = c.units := by rw [s1] at s1'; simpa using s1'
  subst hd
  refine ⟨⟨s5, s7⟩, fun b hb => ⟨rowOf m b, fun j => c.fireRow (rowOf m b) j = true, fun j hj => ?_, fun j hj => ?_, fun j hj => ?_, fun j hj => ?_⟩⟩
  · show m.get [b, j] = _
    rw [g2 b hb j hj]
    unfold SnnArr.memRow
    cases c.beta with
    | none => simp only [one_mul]; rw [show rowOf qx b j = _ from g1 b hb j hj]; rfl
    | some β => simp only; rw [show rowOf qx b j = _ from g1 b hb j hj]; rfl
  · simp only
    rw [fireRow_iff c _ j hj, sub_pos]
    refine and_congr_right fun _ => imp_congr_right fun _ => ?_
    constructor
    · intro e i hi
      obtain ⟨-, e2, e3⟩ := argmaxRow_spec (fun j => rowOf m b j - c.threshold j) c.units (by omega)
      rw [← e] at e2 e3
      exact ⟨e2 i hi, e3 i⟩
    · intro e
      rw [argmaxRow_iff _ _ _ hj]
      exact ⟨fun i hi => (e i (by omega)).2 hi, fun i _ hi => (e i hi).1⟩
  · have hv : rowOf o2 b j = optAt c.oq [b, j] ((if c.fireRow (rowOf m b) j then 1 else 0) * c.factor j) := by
      show o2.get [b, j] = _
      rw [g5 b hb j hj, g4 b hb j hj]
      simp only [rowOf]
      rw [g3 b hb j hj, spikeRow_eq c _ j hj]
    simp only at hv ⊢
    exact ⟨fun hf => by rw [hv, if_pos hf, one_mul], fun hf => by rw [hv, if_neg hf, zero_mul]⟩
  · have hk : rowOf spk b j = if c.fireRow (rowOf m b) j then 1 else 0 := by
      show spk.get [b, j] = _
      rw [g3 b hb j hj, spikeRow_eq c _ j hj]
    have hv : rowOf n2 b j = optAt c.sq [b, j] (c.resetRow (rowOf m b) (rowOf spk b) j) := by
      show n2.get [b, j] = _
      rw [g7 b hb j hj, g6 b hb j hj]
    simp only at hv ⊢
    rw [hv]
    unfold SnnArr.resetRow
    constructor
    · intro hf
      rw [if_neg hf] at hk
      cases c.reset <;> simp [hk]
    · intro hf
      rw [if_pos hf] at hk
      cases c.reset <;> simp [hk]

theorem gru_value (c : GruArr) (x s : Arr ℚ) (r : Arr ℚ × Arr ℚ) (B d : ℕ) (hx : x.shape = [B, d]) (hs : s.shape = [B, c.units]) (h : c.stepK x s = some r) :
    (r.1.shape = [B, c.units] ∧ r.2.shape = [B, c.units]) ∧ ∀ b < B, GruEq c b (rowOf x b) (rowOf s b) (rowOf r.1 b) (rowOf r.2 b) := by
  unfold GruArr.stepK at h
  obtain ⟨qh, h1, h⟩ := Option.bind_eq_some_iff.1 h
  obtain ⟨qx, h2, h⟩ := Option.bind_eq_some_iff.1 h
  obtain ⟨mx, h3, h⟩ := Option.bind_eq_some_iff.1 h
  obtain ⟨mb, h4, h⟩ := Option.bind_eq_some_iff.1 h
  obtain ⟨xzr, h5, h⟩ := Option.bind_eq_some_iff.1 h
  obtain ⟨xh, h6, h⟩ := Option.bind_eq_some_iff.1 h
  obtain ⟨inner, h7, h⟩ := Option.bind_eq_some_iff.1 h
  obtain ⟨rzr, h8, h⟩ := Option.bind_eq_some_iff.1 h
  obtain ⟨zr1, h9, h⟩ := Option.bind_eq_some_iff.1 h
  obtain ⟨zr2, h10, h⟩ := Option.bind_eq_some_iff.1 h
  obtain ⟨zr, h11, h⟩ := Option.bind_eq_some_iff.1 h
  obtain ⟨z, h12, h⟩ := Option.bind_eq_some_iff.1 h
  obtain ⟨rr, h13, h⟩ := Option.bind_eq_some_iff.1 h
  obtain ⟨rh, h14, h⟩ := Option.bind_eq_some_iff.1 h
  obtain ⟨n1, h15, h⟩ := Option.bind_eq_some_iff.1 h
  obtain ⟨n2, h16, h⟩ := Option.bind_eq_some_iff.1 h
  obtain ⟨n, h17, h⟩ := Option.bind_eq_some_iff.1 h
  obtain ⟨o, h18, rfl⟩ := Option.map_eq_some_iff.1 h
  obtain ⟨p, h19, h⟩ := Option.bind_eq_some_iff.1 h18
  obtain ⟨q, h20, h21⟩ := Option.bind_eq_some_iff.1 h
  obtain ⟨s1, g1⟩ := opt_mat hs h1
  obtain ⟨s2, g2⟩ := opt_mat hx h2
  obtain ⟨s2', s3, g3⟩ := row1_get (head_of s2) h3
  obtain ⟨s4, g4⟩ := bias_get s3 h4
  obtain ⟨-, s5, g5⟩ := row1_get (head_of s4) h5
  obtain ⟨-, s6, g6⟩ := row1_get (head_of s4) h6
  have hd : d = c.inDim := by rw [s2] at s2'; simpa using s2'
  subst hd
  -- the recurrent product
  obtain ⟨w, hw, hw2, s7, g7⟩ : ∃ w, w = (if c.resetAfter then 3 * c.units else 2 * c.units) ∧ 2 * c.units ≤ w ∧ inner.shape = [B, w] ∧
      ∀ b < B, ∀ j < w, inner.get [b, j] = (∑ a ∈ range c.units, quantAt c.sq [b, a] (rowOf s b a) * c.rkernel a j) +
        if c.resetAfter then biasAt (c.bias.map (·.2)) j else 0 := by
    refine ⟨_, rfl, ?_⟩
    unfold GruArr.innerK at h7
    have hsum : ∀ b < B, ∀ j, rowMul c.units (rowOf qh b) c.rkernel j = ∑ a ∈ range c.units, quantAt c.sq [b, a] (rowOf s b a) * c.rkernel a j := by
      intro b hb j
      exact sum_congr rfl fun a ha => by rw [show rowOf qh b a = _ from g1 b hb a (mem_range.1 ha)]; rfl
    cases hr : c.resetAfter with
    | false =>
      simp only [hr, Bool.false_eq_true, if_false] at h7 ⊢
      obtain ⟨-, t1, t2⟩ := row1_get (head_of s1) h7
      exact ⟨le_refl _, t1, fun b hb j hj => by rw [t2 b hb j hj, hsum b hb, add_zero]⟩
    | true =>
      simp only [hr, if_true] at h7 ⊢
      obtain ⟨m, h7, h7'⟩ := Option.bind_eq_some_iff.1 h7
      obtain ⟨-, t1, t2⟩ := row1_get (head_of s1) h7
      obtain ⟨t3, t4⟩ := bias_get t1 h7'
      exact ⟨by omega, t3, fun b hb j hj => by rw [t4 b hb j hj, t2 b hb j hj, hsum b hb]⟩
  obtain ⟨-, s8, g8⟩ := row1_get (head_of s7) h8
  obtain ⟨-, -, s9, g9⟩ := row2_get (head_of s5) h9
  obtain ⟨-, s10, g10⟩ := row1_get (head_of s9) h10
  obtain ⟨s11, g11⟩ := opt_mat s10 h11
  obtain ⟨-, s12, g12⟩ := row1_get (head_of s11) h12
  obtain ⟨-, s13, g13⟩ := row1_get (head_of s11) h13
  have gx : ∀ b < B, ∀ j < 3 * c.units, mb.get [b, j] = (∑ a ∈ range c.inDim, optAt c.iq [b, a] (rowOf x b a) * c.kernel a j) + biasAt (c.bias.map (·.1)) j := by
    intro b hb j hj
    rw [g4 b hb j hj, g3 b hb j hj]
    congr 1
    exact sum_congr rfl fun a ha => by rw [show rowOf qx b a = _ from g2 b hb a (mem_range.1 ha)]; rfl
  have gzr : ∀ b < B, ∀ j < 2 * c.units, zr.get [b, j] = quantAt c.praq [b, j] (c.ract (mb.get [b, j] + inner.get [b, j])) := by
    intro b hb j hj
    rw [g11 b hb j hj, g10 b hb j hj]
    simp only [rowOf, optAt]
    rw [g9 b hb j hj]
    simp only [rowOf]
    rw [g5 b hb j hj, g8 b hb j hj]
    simp [rowOf]
  -- the candidate's recurrent part
  have s14 : rh.shape = [B, c.units] ∧ ∀ b < B, ∀ j < c.units, rh.get [b, j] =
      if c.resetAfter then rr.get [b, j] * quantAt c.rhq [b, j] (inner.get [b, 2 * c.units + j])
      else ∑ a ∈ range c.units, quantAt c.rhq [b, a] (rr.get [b, a] * quantAt c.sq [b, a] (rowOf s b a)) * c.rkernel a (2 * c.units + j) := by
    unfold GruArr.candK at h14
    cases hr : c.resetAfter with
    | true =>
      simp only [hr, if_true] at h14 ⊢
      obtain ⟨m1, t1, h14⟩ := Option.bind_eq_some_iff.1 h14
      obtain ⟨m2, t2, t3⟩ := Option.bind_eq_some_iff.1 h14
      obtain ⟨-, u1, v1⟩ := row1_get (head_of s7) t1
      obtain ⟨u2, v2⟩ := opt_mat u1 t2
      obtain ⟨-, -, u3, v3⟩ := row2_get (head_of s13) t3
      refine ⟨u3, fun b hb j hj => ?_⟩
      rw [v3 b hb j hj]
      simp only [rowOf]
      rw [v2 b hb j hj, v1 b hb j hj]
      rfl
    | false =>
      simp only [hr, Bool.false_eq_true, if_false] at h14 ⊢
      obtain ⟨m1, t1, h14⟩ := Option.bind_eq_some_iff.1 h14
      obtain ⟨m2, t2, t3⟩ := Option.bind_eq_some_iff.1 h14
      obtain ⟨-, -, u1, v1⟩ := row2_get (head_of s13) t1
      obtain ⟨u2, v2⟩ := opt_mat u1 t2
      obtain ⟨-, u3, v3⟩ := row1_get (head_of u2) t3
      refine ⟨u3, fun b hb j hj => ?_⟩
      rw [v3 b hb j hj]
      refine sum_congr rfl fun a ha => ?_
      have ha := mem_range.1 ha
      congr 1
      simp only [rowOf]
      rw [v2 b hb a ha, v1 b hb a ha]
      simp only [rowOf, optAt]
      rw [g1 b hb a ha]
      rfl
  obtain ⟨s14, g14⟩ := s14
  obtain ⟨-, -, s15, g15⟩ := row2_get (head_of s6) h15
  obtain ⟨-, s16, g16⟩ := row1_get (head_of s15) h16
  obtain ⟨s17, g17⟩ := opt_mat s16 h17
  obtain ⟨-, -, s19, g19⟩ := row2_get (head_of s12) h19
  obtain ⟨-, -, s20, g20⟩ := row2_get (head_of s12) h20
  obtain ⟨-, -, s21, g21⟩ := row2_get (head_of s19) h21
  refine ⟨⟨s21, s21⟩, fun b hb => ⟨rowOf z b, rowOf rr b, rowOf n b, fun j hj => ?_, fun j hj => ?_, fun j hj => ?_, fun j hj => ?_, fun j _ => rfl⟩⟩
  · show z.get [b, j] = _
    rw [g12 b hb j hj]
    simp only [rowOf, zero_add]
    rw [gzr b hb j (by omega), gx b hb j (by omega), g7 b hb j (by omega)]
    rfl
  · show rr.get [b, j] = _
    rw [g13 b hb j hj]
    simp only [rowOf]
    rw [gzr b hb _ (by omega), gx b hb _ (by omega), g7 b hb _ (by omega)]
    rfl
  · show n.get [b, j] = _
    rw [g17 b hb j hj, g16 b hb j hj]
    simp only [rowOf, optAt]
    rw [g15 b hb j hj]
    simp only [rowOf]
    rw [g6 b hb j hj]
    simp only [rowOf]
    rw [gx b hb _ (by omega), g14 b hb j hj]
    cases hr : c.resetAfter with
    | false => rfl
    | true =>
      simp only [if_true]
      rw [g7 b hb _ (by rw [hw, hr]; simp only [if_true]; omega), hr]
      rfl
  · show o.get [b, j] = _
    rw [g21 b hb j hj]
    simp only [rowOf]
    rw [g19 b hb j hj, g20 b hb j hj]
    simp only [rowOf]
    rw [g1 b hb j hj]
    rfl

theorem cell_value (c : RnnCell) (x s : Arr ℚ) (r : Arr ℚ × Arr ℚ) (B d : ℕ) (hx : x.shape = [B, d]) (hs : s.shape = [B, c.units]) (h : c.stepK x s = some r) :
    (r.1.shape = [B, c.units] ∧ r.2.shape = [B, c.units]) ∧ ∀ b < B, CellEq c b (rowOf x b) (rowOf s b) (rowOf r.1 b) (rowOf r.2 b) := by
  cases c with
  | simple c => exact simple_value c x s r B d hx hs h
  | gru c => exact gru_value c x s r B d hx hs h
  | snn c => exact snn_value c x s r B d hx hs h

/-! ## The loop -/

theorem slice_get {x y : Arr ℚ} {B T d t : ℕ} (hx : x.shape = [B, T, d]) (h : timeSlice x t = some y) :
    t < T ∧ y.shape = [B, d] ∧ ∀ b < B, ∀ a < d, y.get [b, a] = x.get [b, t, a] := by
  unfold timeSlice at h
  rw [hx] at h
  simp only at h
  split at h
  · rename_i ht
    obtain rfl := Option.some.inj h
    exact ⟨ht, rfl, fun b hb a ha => mat_get _ hb ha⟩
  · simp at h

theorem mapM_getElem {f : ℕ → Option (Arr ℚ)} {ts : List ℕ} {ys : List (Arr ℚ)} (h : ts.mapM f = some ys) :
    ys.length = ts.length ∧ ∀ (k : ℕ) (h1 : k < ts.length) (h2 : k < ys.length), f ts[k] = some ys[k] := by
  induction ts generalizing ys with
  | nil => simp at h; subst h; simp
  | cons t ts ih =>
    rw [List.mapM_cons] at h
    simp only [Option.pure_def, Option.bind_eq_bind] at h
    obtain ⟨y, hy, h⟩ := Option.bind_eq_some_iff.1 h
    obtain ⟨zs, hzs, h⟩ := Option.bind_eq_some_iff.1 h
    obtain rfl := Option.some.inj h
    obtain ⟨h1, h2⟩ := ih hzs
    refine ⟨by simp [h1], fun k hk1 hk2 => ?_⟩
    cases k with
    | zero => exact hy
    | succ k => exact h2 k (by simpa using hk1) (by simpa using hk2)

def cellDim : RnnCell → ℕ
  | .simple c => c.inDim
  | .gru c => c.inDim
  | .snn c => c.units

/-- Equations only read the features of the input row. -/
theorem cellEq_congr (c : RnnCell) {d : ℕ} (x x' : RVec) (hx : ∀ a < d, x a = x' a) (hd : cellDim c ≤ d) (b : ℕ) (s o s' : RVec) (h : CellEq c b x s o s') : CellEq c b x' s o s' := by
  cases c with
  | simple c =>
    refine ⟨fun j hj => ?_, h.2⟩
    rw [h.1 j hj]
    have e : (∑ a ∈ range c.inDim, quantAt c.iq [b, a] (x a) * c.kernel a j) = ∑ a ∈ range c.inDim, quantAt c.iq [b, a] (x' a) * c.kernel a j :=
      sum_congr rfl fun a ha => by rw [hx a (lt_of_lt_of_le (mem_range.1 ha) hd)]
    rw [e]
  | gru c =>
    have e : ∀ j, (∑ a ∈ range c.inDim, optAt c.iq [b, a] (x a) * c.kernel a j) = ∑ a ∈ range c.inDim, optAt c.iq [b, a] (x' a) * c.kernel a j :=
      fun j => sum_congr rfl fun a ha => by rw [hx a (lt_of_lt_of_le (mem_range.1 ha) hd)]
    simp only [CellEq, GruEq] at h ⊢
    simp only [e] at h
    exact h
  | snn c =>
    obtain ⟨m, fires, h1, h2⟩ := h
    exact ⟨m, fires, fun j hj => by rw [h1 j hj, hx j (lt_of_lt_of_le hj hd)], h2⟩

theorem loop_value (c : RnnCell) (B d : ℕ) (ys : List (Arr ℚ)) : ∀ s, (∀ y ∈ ys, y.shape = [B, d]) → s.shape = [B, c.units] → ∀ r, kerasLoop c.stepK ys s = some r →
    r.1.length = ys.length ∧ (∀ o ∈ r.1, o.shape = [B, c.units]) ∧ r.2.shape = [B, c.units] ∧
      ∃ st : ℕ → Arr ℚ, st 0 = s ∧ st ys.length = r.2 ∧ ∀ k (h1 : k < ys.length) (h2 : k < r.1.length), ∀ b < B,
        CellEq c b (rowOf ys[k] b) (rowOf (st k) b) (rowOf r.1[k] b) (rowOf (st (k + 1)) b) := by
  induction ys with
  | nil => intro s _ hs r hr; obtain rfl := Option.some.inj hr; exact ⟨rfl, by simp, hs, fun _ => s, rfl, rfl, by simp⟩
  | cons y ys ih =>
    intro s hy hs r hr
    simp only [kerasLoop] at hr
    obtain ⟨p, hp, hr⟩ := Option.bind_eq_some_iff.1 hr
    obtain ⟨q, hq, rfl⟩ := Option.map_eq_some_iff.1 hr
    obtain ⟨⟨h1, h2⟩, h3⟩ := cell_value c y s p B d (hy y (by simp)) hs hp
    obtain ⟨h4, h5, h6, st, h7, h8, h9⟩ := ih p.2 (fun z hz => hy z (by simp [hz])) h2 q hq
    refine ⟨by simp [h4], fun o ho => ?_, h6, fun k => match k with | 0 => s | k + 1 => st k, rfl, h8, fun k hk1 hk2 b hb => ?_⟩
    · rcases List.mem_cons.1 ho with rfl | ho
      · exact h1
      · exact h5 o ho
    · cases k with
      | zero =>
        show CellEq c b (rowOf y b) (rowOf s b) (rowOf p.1 b) (rowOf (st 0) b)
        rw [h7]; exact h3 b hb
      | succ k => exact h9 k (by simpa using hk1) (by simpa using hk2) b hb

theorem step_dim (c : RnnCell) (x s : Arr ℚ) (r : Arr ℚ × Arr ℚ) (B d : ℕ) (hx : x.shape = [B, d]) (hs : s.shape = [B, c.units]) (h : c.stepK x s = some r) :
    cellDim c ≤ d := by
  cases c with
  | simple c =>
    simp only [RnnCell.stepK, SimpleArr.stepK] at h
    obtain ⟨qs, h1, h⟩ := Option.bind_eq_some_iff.1 h
    obtain ⟨qx, h2, h⟩ := Option.bind_eq_some_iff.1 h
    obtain ⟨y1, h3, h⟩ := Option.bind_eq_some_iff.1 h
    obtain ⟨s2, g2⟩ := opt_mat hx h2
    obtain ⟨s2', -, -⟩ := row1_get (head_of s2) h3
    rw [s2] at s2'
    have e : d = c.inDim := by simpa using s2'
    exact e.ge
  | gru c =>
    simp only [RnnCell.stepK, GruArr.stepK] at h
    obtain ⟨qs, h1, h⟩ := Option.bind_eq_some_iff.1 h
    obtain ⟨qx, h2, h⟩ := Option.bind_eq_some_iff.1 h
    obtain ⟨y1, h3, h⟩ := Option.bind_eq_some_iff.1 h
    obtain ⟨s2, g2⟩ := opt_mat hx h2
    obtain ⟨s2', -, -⟩ := row1_get (head_of s2) h3
    rw [s2] at s2'
    have e : d = c.inDim := by simpa using s2'
    exact e.ge
  | snn c =>
    simp only [RnnCell.stepK, SnnArr.stepK] at h
    obtain ⟨qx, h1, h⟩ := Option.bind_eq_some_iff.1 h
    obtain ⟨m, h2, h⟩ := Option.bind_eq_some_iff.1 h
    obtain ⟨s1, g1⟩ := opt_mat hx h1
    obtain ⟨-, s1', -, -⟩ := row2_get (head_of hs) h2
    rw [s1] at s1'
    have e : d = c.units := by simpa using s1'
    exact e.ge

theorem loop_dim (c : RnnCell) (B d : ℕ) (ys : List (Arr ℚ)) (s : Arr ℚ) (hy : ∀ y ∈ ys, y.shape = [B, d]) (hs : s.shape = [B, c.units]) (r) (hr : kerasLoop c.stepK ys s = some r)
    (hne : ys ≠ []) : cellDim c ≤ d := by
  cases ys with
  | nil => exact absurd rfl hne
  | cons y ys =>
    simp only [kerasLoop] at hr
    obtain ⟨p, hp, hr⟩ := Option.bind_eq_some_iff.1 hr
    exact step_dim c y s p B d (hy y (by simp)) hs hp

theorem run_value (l : RnnLayer) (x s out : Arr ℚ) (B T d : ℕ) (hx : x.shape = [B, T, d]) (hs : s.shape = [B, l.cell.units])
    (h : (l.kerasRun x s).bind l.out.result = some out) :
    ∃ st o : ℕ → ℕ → RVec, (∀ b < B, Recurrence l x T b (rowOf s b) (st b) (o b)) ∧ Returns l T B st o out := by
  obtain ⟨r, hr, hout⟩ := Option.bind_eq_some_iff.1 h
  obtain ⟨ys, hys, hr⟩ := Option.bind_eq_some_iff.1 hr
  have hT : timeSteps x = T := by simp [timeSteps, hx]
  rw [hT] at hys
  obtain ⟨hlen, hget⟩ := mapM_getElem hys
  simp only [List.length_range, List.getElem_range] at hlen hget
  obtain ⟨zs, hzs⟩ : ∃ zs, zs = if l.goBackwards then ys.reverse else ys := ⟨_, rfl⟩
  rw [← hzs] at hr
  have hzl : zs.length = T := by rw [hzs]; split <;> simp [hlen]
  have hz : ∀ k (hk : k < zs.length), timeSlice x (if l.goBackwards then T - 1 - k else k) = some zs[k] := by
    intro k hk
    cases hb : l.goBackwards with
    | false =>
      simp only [hb, Bool.false_eq_true, if_false] at hzs ⊢
      subst hzs
      exact hget k (by omega) hk
    | true =>
      simp only [hb, if_true] at hzs ⊢
      subst hzs
      rw [List.length_reverse] at hk
      rw [List.getElem_reverse]
      have := hget (ys.length - 1 - k) (by omega) (by omega)
      rw [← this, hlen]
  have hzshape : ∀ y ∈ zs, y.shape = [B, d] := by
    intro y hy
    obtain ⟨k, hk, rfl⟩ := List.getElem_of_mem hy
    exact (slice_get hx (hz k hk)).2.1
  obtain ⟨h1, h2, h3, st, h4, h5, h6⟩ := loop_value l.cell B d zs s hzshape hs r hr
  have hdim := fun hne => loop_dim l.cell B d zs s hzshape hs r hr hne
  refine ⟨fun b k => rowOf (st k) b, fun b k => rowOf (r.1.getD k s) b, fun b hb => ⟨fun j _ => by beta_reduce; rw [h4], fun k hk => ?_⟩, ?_⟩
  · have hk1 : k < zs.length := by omega
    have hk2 : k < r.1.length := by omega
    have := h6 k hk1 hk2 b hb
    have e : r.1.getD k s = r.1[k] := by simp [List.getD, hk2]
    beta_reduce
    rw [e]
    refine cellEq_congr l.cell _ _ (fun a ha => ?_) (hdim (by intro hn; rw [hn] at hk1; simp at hk1)) b _ _ _ this
    exact (slice_get hx (hz k hk1)).2.2 b hb a ha
  · unfold Returns
    cases hl : l.out with
    | seq =>
      rw [hl] at hout
      have hout : stackTime r.1 = some out := hout
      simp only
      unfold stackTime at hout
      cases hr1 : r.1 with
      | nil => rw [hr1] at hout; simp at hout
      | cons y rest =>
        have hall : ∀ z ∈ y :: rest, z.shape = [B, l.cell.units] := fun z hz' => h2 z (by rw [hr1]; exact hz')
        rw [hr1] at hout
        simp only [hall y (by simp)] at hout
        rw [if_pos (by rw [List.all_eq_true]; exact fun z hz' => decide_eq_true (hall z hz'))] at hout
        obtain rfl := Option.some.inj hout
        have hTl : (y :: rest).length = T := by rw [← hr1, h1, hzl]
        refine ⟨by rw [← hTl]; rfl, fun b hb k hk j hj => ?_⟩
        rw [norm_get (by exact .cons hb (.cons (by rw [hTl]; exact hk) (.cons hj .nil)))]
        have hk' : k < (y :: rest).length := by omega
        simp [rowOf, List.getD_eq_getElem?_getD, List.getElem?_eq_getElem hk']
    | last =>
      rw [hl] at hout
      have hout : r.1.getLast? = some out := hout
      simp only
      have hne : r.1 ≠ [] := by intro hn; rw [hn] at hout; simp at hout
      refine ⟨h2 out (List.mem_of_getLast? hout), fun b hb j hj => ?_⟩
      rw [List.getLast?_eq_getElem?, h1, hzl] at hout
      simp [rowOf, List.getD_eq_getElem?_getD, hout]
    | state =>
      rw [hl] at hout
      simp only [RnnOut.result] at hout
      split at hout
      · simp at hout
      obtain rfl := Option.some.inj hout
      simp only
      refine ⟨h3, fun b hb j hj => ?_⟩
      rw [← h5, hzl]; rfl

/-- **C110 (values).** What Keras computes for a recurrent or spiking layer on a batch of sequences is, for every sample, the recurrence of its cell from a zero
state, or from the given one. -/
theorem C110_values (l : RnnLayer) (x out : Arr ℚ) (s0 : Option (Arr ℚ)) (h : l.keras (x :: s0.toList) = some out) :
    ∃ B T d, x.shape = [B, T, d] ∧ ∃ st o : ℕ → ℕ → RVec,
      (∀ b < B, Recurrence l x T b (fun j => match s0 with | some s => s.get [b, j] | none => 0) (st b) (o b)) ∧ Returns l T B st o out := by
  have three : ∀ s : List ℕ, s.length = 3 → ∃ B T d, s = [B, T, d] := by
    intro s hs
    match s, hs with
    | [B, T, d], _ => exact ⟨B, T, d, rfl⟩
  cases s0 with
  | none =>
    simp only [Option.toList, RnnLayer.keras] at h
    split at h
    swap
    · simp at h
    rename_i hl
    obtain ⟨B, T, d, hx⟩ := three _ hl
    have hB : x.shape.getD 0 0 = B := by rw [hx]; rfl
    rw [hB] at h
    obtain ⟨st, o, h1, h2⟩ := run_value l x _ out B T d hx rfl h
    exact ⟨B, T, d, hx, st, o, h1, h2⟩
  | some s =>
    simp only [Option.toList, RnnLayer.keras] at h
    split at h
    swap
    · simp at h
    rename_i hl
    obtain ⟨B, T, d, hx⟩ := three _ hl.1
    have hB : x.shape.getD 0 0 = B := by rw [hx]; rfl
    obtain ⟨st, o, h1, h2⟩ := run_value l x s out B T d hx (by rw [hl.2, hB]) h
    exact ⟨B, T, d, hx, st, o, h1, h2⟩

/-! ## Concrete layers -/

/-- Two sequences of three steps with one feature. -/
def exSeq3 : Arr ℚ := ⟨[2, 3, 1], fun idx => (idx.getD 0 0 : ℚ) + (idx.getD 1 0 : ℚ) / 2⟩

/-- A simple cell with two units and relu. -/
def exSimpleArr : SimpleArr := ⟨1, 2, fun _ j => if j = 0 then 1 else -1, fun a j => if a = j then 1 / 2 else 1, some fun j => (j : ℚ), exMQ 2 1, some (exMQ 2 2), exMQ 2 2,
  fun v => max v 0⟩

/-- A GRU cell with one unit. -/
def exGruArr (ra : Bool) : GruArr := ⟨1, 1, fun _ j => (j : ℚ) / 4, fun _ j => 1 - (j : ℚ) / 2, some (fun j => (j : ℚ) / 4, fun j => 1 / 2 - (j : ℚ) / 4), ra, some (exMQ 2 1),
  exMQ 2 2, exMQ 2 2, exMQ 2 2, exMQ 2 3, fun v => v, fun v => max 0 (min 1 (v / 2))⟩

/-- A leaky integrate-and-fire cell with inhibition. -/
def exSnnArr : SnnArr := ⟨1, fun _ => 3 / 4, fun _ => 2, true, .subtract, some fun _ => 1 / 2, some (exMQ 2 1), some (exMQ 2 1), some (exMQ 2 2), fun v => v * v⟩

theorem exRnn_ok (ra : Bool) : (∀ o gb, ZLayerAlkaid (.rnn ⟨.simple exSimpleArr, gb, o⟩) [exSeq3]) ∧ (∀ o gb, ZLayerAlkaid (.rnn ⟨.gru (exGruArr ra), gb, o⟩) [exSeq3]) ∧
    ∀ o gb, ZLayerAlkaid (.rnn ⟨.snn exSnnArr, gb, o⟩) [exSeq3] := by
  have h : ∀ f : ℤ, -128 ≤ f ∧ f ≤ 127 → QuantOk (exMQ 2 f) := fun f => exMQ_ok 1 f
  refine ⟨fun o gb q hq => ?_, fun o gb q hq => ?_, fun o gb q hq => ?_⟩
  · have hq : q ∈ [exMQ 2 1, exMQ 2 2, exMQ 2 2] := hq
    simp only [List.mem_cons, List.not_mem_nil, or_false] at hq
    rcases hq with rfl | rfl | rfl <;> exact h _ (by decide)
  · have hq : q ∈ [exMQ 2 2, exMQ 2 2, exMQ 2 2, exMQ 2 3, exMQ 2 1] := hq
    simp only [List.mem_cons, List.not_mem_nil, or_false] at hq
    rcases hq with rfl | rfl | rfl | rfl | rfl <;> exact h _ (by decide)
  · have hq : q ∈ [exMQ 2 1, exMQ 2 1, exMQ 2 2] := hq
    simp only [List.mem_cons, List.not_mem_nil, or_false] at hq
    rcases hq with rfl | rfl | rfl <;> exact h _ (by decide)

/-- **C110 violated** for `stateful=True`: on its second batch Keras continues from the state left by the first one; the conversion starts from zero, so that it
reproduces the first prediction and not the second. -/
theorem C110_stateful_violated : ∃ (l : RnnLayer) (x o1 s1 o2 s2 : Arr ℚ), ZLayerAlkaid (.rnn l) [x] ∧ IsBatch 1 x ∧
    l.kerasNext x (zeroState 1 l.cell.units) = some (o1, s1) ∧ l.kerasNext x s1 = some (o2, s2) ∧
    l.alkaid [x] = some o1 ∧ o1.get [0, 0] ≠ o2.get [0, 0] := by
  have hok : ZLayerAlkaid (.rnn ⟨.simple exSimpleArr, false, .last⟩) [pick [1] exSeq3] := fun q hq => (exRnn_ok true).1 .last false q hq
  have hv : (((⟨.simple exSimpleArr, false, .last⟩ : RnnLayer).kerasNext (pick [1] exSeq3) (zeroState 1 2)).bind fun r1 =>
      ((⟨.simple exSimpleArr, false, .last⟩ : RnnLayer).kerasNext (pick [1] exSeq3) r1.2).map fun r2 => (r1.1.get [0, 0], r2.1.get [0, 0])) =
      some (7 / 2, 31 / 4) := by decide +kernel
  obtain ⟨r1, h1, hv⟩ := Option.bind_eq_some_iff.1 hv
  obtain ⟨r2, h2, hv⟩ := Option.map_eq_some_iff.1 hv
  obtain ⟨e1, e2⟩ := Prod.mk.inj hv
  refine ⟨_, pick [1] exSeq3, r1.1, r1.2, r2.1, r2.2, hok, pick_batch [1] exSeq3, h1, h2, ?_, by rw [e1, e2]; norm_num⟩
  obtain ⟨r, hr, hr'⟩ := Option.bind_eq_some_iff.1 h1
  obtain ⟨o, ho, rfl⟩ := Option.map_eq_some_iff.1 hr'
  have hk : (ZLayer.rnn ⟨.simple exSimpleArr, false, .last⟩).keras [pick [1] exSeq3] = some o := by
    simp only [ZLayer.keras, RnnLayer.keras]
    rw [if_pos (by decide)]
    exact Option.bind_eq_some_iff.2 ⟨r, hr, ho⟩
  have hp : ∀ y : Arr ℚ, pick [0] (pick [1] y) = pick [1] y := by
    intro y
    simp only [pick]
    congr 1
    funext idx
    cases idx with
    | nil => rfl
    | cons j r =>
      cases j with
      | zero => simp
      | succ j => simp
  have hstep := C110_layer_partial (B := 1) (b := 0) (by decide) _ [pick [1] exSeq3] hok (by simpa using pick_batch [1] exSeq3) o hk
  simp only [List.map_cons, List.map_nil, hp, ZLayer.alkaid] at hstep
  have hpo : pick [0] o = o := by
    have : (ZLayer.rnn ⟨.simple exSimpleArr, false, .last⟩).keras [pick [1] exSeq3] = some (pick [0] o) := by
      have hok' : ZLayerBatch (.rnn ⟨.simple exSimpleArr, false, .last⟩) [pick [1] exSeq3] := fun q hq => (hok q hq).1
      have := (C104_recurrent_partial (B := 1) (σ := [0]) (by decide) _ [pick [1] exSeq3] hok' (by simpa using pick_batch [1] exSeq3) o hk).2
      simpa only [List.map_cons, List.map_nil, hp] using this
    rw [hk] at this
    exact (Option.some.inj this).symm
  rw [hpo] at hstep
  exact hstep.2

/-- A simple recurrent layer: all outputs of both samples; the second sample alone; the conversion. -/
example : ∃ out, (ZLayer.rnn ⟨.simple exSimpleArr, false, .seq⟩).keras [exSeq3] = some out ∧
    (ZLayer.rnn ⟨.simple exSimpleArr, false, .seq⟩).keras [pick [1] exSeq3] = some (pick [1] out) ∧
    (∀ b < 2, (ZLayer.rnn ⟨.simple exSimpleArr, false, .seq⟩).alkaid [pick [b] exSeq3] = some (pick [b] out)) ∧
    ((List.range 3).map fun k => out.get [1, k, 0]) = [1, 2, 7 / 2] := by
  have hs : ((ZLayer.rnn ⟨.simple exSimpleArr, false, .seq⟩).keras [exSeq3]).map (fun out => (List.range 3).map fun k => out.get [1, k, 0]) = some [1, 2, 7 / 2] := by
    decide +kernel
  obtain ⟨out, hout, hv⟩ := Option.map_eq_some_iff.1 hs
  have hok := (exRnn_ok true).1 .seq false
  have hbk : ZLayerBatch (.rnn ⟨.simple exSimpleArr, false, .seq⟩) [exSeq3] := fun q hq => (hok q hq).1
  refine ⟨out, hout, (C104_recurrent_partial (B := 2) (σ := [1]) (by decide) _ [exSeq3] hbk (by simp [IsBatch, exSeq3]) out hout).2,
    fun b hb => (C110_layer_partial hb _ [exSeq3] hok (by simp [IsBatch, exSeq3]) out hout).2, hv⟩

/-- Gated recurrent layers, backwards, with either position of the reset gate. -/
example (ra : Bool) : ∃ out, (ZLayer.rnn ⟨.gru (exGruArr ra), true, .seq⟩).keras [exSeq3] = some out ∧
    (∀ b < 2, (ZLayer.rnn ⟨.gru (exGruArr ra), true, .seq⟩).alkaid [pick [b] exSeq3] = some (pick [b] out)) ∧
    out.get [0, 2, 0] = if ra then 21 / 32 else 3 / 4 := by
  have hs : ((ZLayer.rnn ⟨.gru (exGruArr ra), true, .seq⟩).keras [exSeq3]).map (fun out => out.get [0, 2, 0]) = some (if ra then 21 / 32 else 3 / 4) := by
    cases ra <;> decide +kernel
  obtain ⟨out, hout, hv⟩ := Option.map_eq_some_iff.1 hs
  exact ⟨out, hout, fun b hb => (C110_layer_partial hb _ [exSeq3] ((exRnn_ok ra).2.1 .seq true) (by simp [IsBatch, exSeq3]) out hout).2, hv⟩

/-- A spiking layer: spikes and the last state. -/
example : ∃ out st, (ZLayer.rnn ⟨.snn exSnnArr, false, .seq⟩).keras [exSeq3] = some out ∧ (ZLayer.rnn ⟨.snn exSnnArr, false, .state⟩).keras [exSeq3] = some st ∧
    (∀ b < 2, (ZLayer.rnn ⟨.snn exSnnArr, false, .seq⟩).alkaid [pick [b] exSeq3] = some (pick [b] out)) ∧
    (∀ b < 2, (ZLayer.rnn ⟨.snn exSnnArr, false, .state⟩).alkaid [pick [b] exSeq3] = some (pick [b] st)) ∧
    ((List.range 3).map fun k => out.get [0, k, 0]) = [0, 0, 2] ∧ st.get [1, 0] = 7 / 4 := by
  have h1 : ((ZLayer.rnn ⟨.snn exSnnArr, false, .seq⟩).keras [exSeq3]).map (fun out => (List.range 3).map fun k => out.get [0, k, 0]) = some [0, 0, 2] := by decide +kernel
  have h2 : ((ZLayer.rnn ⟨.snn exSnnArr, false, .state⟩).keras [exSeq3]).map (fun out => out.get [1, 0]) = some (7 / 4) := by decide +kernel
  obtain ⟨out, hout, hv⟩ := Option.map_eq_some_iff.1 h1
  obtain ⟨st, hst, hw⟩ := Option.map_eq_some_iff.1 h2
  exact ⟨out, st, hout, hst, fun b hb => (C110_layer_partial hb _ [exSeq3] ((exRnn_ok true).2.2 .seq false) (by simp [IsBatch, exSeq3]) out hout).2,
    fun b hb => (C110_layer_partial hb _ [exSeq3] ((exRnn_ok true).2.2 .state false) (by simp [IsBatch, exSeq3]) st hst).2, hv, hw⟩

/-- A given initial state. -/
example : ((RnnLayer.mk (.simple exSimpleArr) false .last).keras [exSeq3, ⟨[2, 2], fun _ => 1⟩]).map (fun out => out.get [0, 0]) = some (25 / 4) ∧
    ((RnnLayer.mk (.simple exSimpleArr) false .last).alkaid [pick [0] exSeq3, pick [0] ⟨[2, 2], fun _ => 1⟩]).map (fun out => out.get [0, 0]) = some (25 / 4) := by
  decide +kernel

end HGQ
