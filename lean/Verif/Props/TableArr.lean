import Verif.Model.TableArr
import Verif.Props.MhaArr
import Verif.Props.FixedPoint

/-!
# C108: models with table layers are traced to what Keras computes
-/
namespace HGQ
open Spec

/-! ## Specification -/

/-- The tracer knows a grid `l, l + s, ..., h` for the variable at an index of the sample, and the value `a` is on it. -/
def Spec.Knows (v : LhsArr) (idx : List ℕ) (a : ℚ) : Prop :=
  0 < v.s idx ∧ ∃ m p : ℕ, v.h idx = v.l idx + m * v.s idx ∧ p ≤ m ∧ a = v.l idx + p * v.s idx

/-- Quantizers of the table entries: widths constant along the batch axis and in the int32 range, no scaler (or 1), no affine map. -/
def Spec.ToqOk (q : ArrQuant) : Prop :=
  q.ws.head? = some 1 ∧ (q.scaler = none ∨ q.scaler = some 1) ∧ q.affine = none ∧
  ∀ j, (-2147483648 ≤ q.i j ∧ q.i j ≤ 2147483647) ∧ (-2147483648 ≤ q.f j ∧ q.f j ≤ 2147483647)

/-- What tracing demands of a table layer with input `x`: an input quantizer, supported quantizers, and ranges that hold the quantized inputs of every sample. -/
def Spec.TableOk (t : TableArr) (v : LhsArr) (x : Arr ℚ) : Prop :=
  t.enableIq = true ∧ QuantOk t.iq ∧ ToqOk t.toq ∧ (∀ q ∈ t.oq, QuantOk q) ∧
  ∀ y, run (t.iq.keras (tableBroadcast t.nOut x).norm) = some y → ∀ b idx, InShape (b :: idx) y.shape → Knows v idx (y.get (b :: idx))

/-- Layers. -/
def Spec.YLayerOk : YLayer → List (Arr ℚ) → Prop
  | .base l, xs => XLayerOk l xs
  | .denseT t v, xs => ∀ x ∈ xs, TableOk t v x
  | .convT P osp geo t v, xs => (∀ p j i, geo p j = some i → i < 2 ^ 24) ∧ ∀ x ∈ xs, ∀ y, run (kerasPatches P osp geo x) = some y → TableOk t v y

/-! ## Tables -/

theorem int32_id {z : ℤ} (h1 : -2147483648 ≤ z) (h2 : z ≤ 2147483647) : int32 z = z := by
  unfold int32
  rw [Int.emod_eq_of_lt (by omega) (by omega)]
  omega

theorem lookup_table (t : TableArr) (v : LhsArr) (idx : List ℕ) (a : ℚ) (h : Knows v idx a) :
    lookupQ v idx (t.table v idx) a = quantize t.toq.rm t.toq.om (t.toq.k (bcastIdx t.toq.ws (0 :: idx))) (int32 (t.toq.i (bcastIdx t.toq.ws (0 :: idx))))
      (int32 (t.toq.f (bcastIdx t.toq.ws (0 :: idx)))) (t.net (pairIn idx) (pairOut idx) a) := by
  obtain ⟨hs, m, p, hm, hp, ha⟩ := h
  have hsz : v.size idx = m + 1 := by
    unfold LhsArr.size
    have : (v.h idx - v.l idx) / v.s idx = ((m : ℤ) : ℚ) := by rw [hm]; field_simp; push_cast; ring
    rw [this, round_intCast]; simp
  have hpos : (⌊(a - v.l idx) / v.s idx⌋).toNat = p := by
    have : (a - v.l idx) / v.s idx = ((p : ℤ) : ℚ) := by rw [ha]; field_simp; push_cast; ring
    rw [this, Int.floor_intCast]; simp
  have hlin : linspaceQ (v.l idx) (v.h idx) (m + 1) p = a := by
    unfold linspaceQ
    split
    · have : p = 0 := by omega
      rw [ha, this]; simp
    · have h0 : (m : ℚ) ≠ 0 := by
        have : m ≠ 0 := by omega
        exact_mod_cast this
      have h1 : v.l idx + m * v.s idx - v.l idx = m * v.s idx := by ring
      rw [hm, ha, h1]; push_cast; rw [add_sub_cancel_right]; field_simp
  unfold lookupQ TableArr.table
  rw [hpos, hsz]
  simp only [List.getD_eq_getElem?_getD, List.getElem?_map, List.getElem?_range (show p < m + 1 by omega), Option.map_some, Option.getD_some]
  rw [hlin]

theorem pair_cons (b : ℕ) (idx : List ℕ) (h : 2 ≤ idx.length) : pairIn (b :: idx) = pairIn idx ∧ pairOut (b :: idx) = pairOut idx := by
  match idx, h with
  | i :: j :: r, _ => simp [pairIn, pairOut]

theorem reduce_sample {B : ℕ} (z : Arr ℚ) (s : List ℕ) (hz : z.shape = B :: s) (hs : 2 ≤ s.length) (b : ℕ) (hb : b < B) (w : Arr ℚ)
    (hw : z.sample b = w) : (tableReduce z).norm.sample b = (tableReduce w).norm := by
  subst hw
  have hl : List.replicate (z.shape.length - 2) false ++ [true, false] = false :: (List.replicate (s.length - 2) false ++ [true, false]) := by
    rw [hz, List.length_cons, show s.length + 1 - 2 = (s.length - 2) + 1 by omega, List.replicate_succ, List.cons_append]
  have e : ∀ idx, (tableReduce z).get (b :: idx) = (tableReduce (z.sample b)).get idx := by
    intro idx
    unfold tableReduce
    rw [hl, reduce_get _ _ _ _ B s hz]
    simp [npReduce, Arr.sample, hz]
  have esh : (tableReduce z).shape = B :: (tableReduce (z.sample b)).shape := by
    unfold tableReduce
    rw [hl]
    simp [npReduce, Arr.sample, hz, redShape]
  exact norm_sample (tableReduce z) ⟨_, esh⟩ b hb _ ⟨by simp [Arr.sample, esh], fun idx _ => e idx⟩

theorem broadcast_sample {B : ℕ} (n : ℕ) (x : Arr ℚ) (s : List ℕ) (hx : x.shape = B :: s) (hs : 1 ≤ s.length) (b : ℕ) (hb : b < B) :
    (tableBroadcast n x).norm.sample b = (tableBroadcast n (x.sample b)).norm := by
  refine norm_sample (tableBroadcast n x) ⟨s ++ [n], by simp [tableBroadcast, hx]⟩ b hb _ ⟨by simp [tableBroadcast, Arr.sample, hx], fun idx hidx => ?_⟩
  have hl : idx.length = s.length + 1 := by
    have := List.Forall₂.length_eq hidx
    simpa [tableBroadcast, Arr.sample, hx] using this
  cases idx with
  | nil => simp at hl
  | cons i r => simp [tableBroadcast, Arr.sample]

theorem relu_step {B : ℕ} (rl : Bool) (c : Arr ℚ) (hc : IsBatch B c) (c' : Arr ℚ) (b : ℕ) (hb : b < B) (h : c.sample b = c') :
    IsBatch B (reluKeras rl c) ∧ (reluKeras rl c).sample b = reluTraced rl c' := by
  subst h
  unfold reluKeras reluTraced
  cases rl with
  | false => exact ⟨hc, rfl⟩
  | true =>
    simp only [if_true]
    obtain ⟨s, hs⟩ := hc
    refine ⟨⟨s, hs⟩, norm_sample (c.mapQ fun x => if x > 0 then x else 0) ⟨s, hs⟩ b hb ((c.sample b).mapQ tracerRelu) ⟨rfl, fun idx _ => ?_⟩⟩
    simp only [Arr.sample, Arr.mapQ, tracerRelu]
    split
    · rename_i h; exact (max_eq_left h.le).symm
    · rename_i h; exact (max_eq_right (not_lt.1 h)).symm

theorem table_faithful {B : ℕ} (t : TableArr) (v : LhsArr) (x : Arr ℚ) (hok : TableOk t v x) (hx : IsBatch B x) (out : Arr ℚ) (h : t.keras x = some out) :
    IsBatch B out ∧ ∀ b < B, t.replay v (x.sample b) = some (out.sample b) := by
  obtain ⟨hen, hiq, ⟨tw, tsc, taf, trg⟩, hoq, hgrid⟩ := hok
  obtain ⟨s, hs⟩ := hx
  unfold TableArr.keras at h
  split at h
  swap
  · simp at h
  rename_i hc
  obtain ⟨hlen, hlast⟩ := hc
  have hsl : 1 ≤ s.length := by rw [hs] at hlen; simpa using hlen
  obtain ⟨y, hy, h⟩ := Option.bind_eq_some_iff.1 h
  obtain ⟨z, hz, h⟩ := Option.bind_eq_some_iff.1 h
  have hbc : IsBatch B (tableBroadcast t.nOut x).norm := ⟨s ++ [t.nOut], by simp [Arr.norm, tableBroadcast, hs]⟩
  obtain ⟨y1, y2⟩ := quant_opt (onlyIf t.enableIq t.iq) (onlyIf_ok hiq) _ hbc y hy
  have hys : y.shape = B :: (s ++ [t.nOut]) := by rw [quant_shape hy]; simp [Arr.norm, tableBroadcast, hs]
  have hy' : run (t.iq.keras (tableBroadcast t.nOut x).norm) = some y := by simpa [kerasOpt, onlyIf, hen] using hy
  obtain ⟨z0, hz0, rfl⟩ := Option.map_eq_some_iff.1 hz
  unfold ArrQuant.keras at hz0
  split at hz0
  swap
  · simp at hz0
  rename_i hbcast
  obtain rfl := Option.some.inj hz0
  have hws : ∃ ws, t.toq.ws = 1 :: ws := by
    cases hw : t.toq.ws with
    | nil => simp [hw] at tw
    | cons w ws => simp [hw] at tw; exact ⟨ws, by rw [tw]⟩
  obtain ⟨ws, hws⟩ := hws
  obtain ⟨zz, hzz⟩ : ∃ zz : Arr ℚ, zz = (⟨y.shape, fun idx => quantizerCall t.toq.scaler t.toq.affine none .false (quantize t.toq.rm t.toq.om (t.toq.k (bcastIdx t.toq.ws idx))
    (t.toq.i (bcastIdx t.toq.ws idx)) (t.toq.f (bcastIdx t.toq.ws idx))) (t.net (pairIn idx) (pairOut idx) (y.get idx))⟩ : Arr ℚ).norm := ⟨_, rfl⟩
  change kerasOpt t.oq (reluKeras t.relu (tableReduce (Arr.norm ⟨y.shape, _⟩)).norm) = some out at h
  rw [← hzz] at h
  have hzs : zz.shape = B :: (s ++ [t.nOut]) := by rw [hzz]; exact hys
  have hzb : ∀ b < B, zz.sample b = Arr.norm ⟨(y.sample b).shape, fun idx => lookupQ v idx (t.table v idx) ((y.sample b).get idx)⟩ := by
    intro b hb
    rw [hzz]
    apply norm_sample (B := B) (hB := ⟨s ++ [t.nOut], by exact hys⟩) (hb := hb)
    refine ⟨rfl, fun idx hidx => ?_⟩
    have hidx' : InShape idx (s ++ [t.nOut]) := by simpa [Arr.sample, hys] using hidx
    have hl : idx.length = s.length + 1 := by simpa using List.Forall₂.length_eq hidx'
    obtain ⟨p1, p2⟩ := pair_cons b idx (by omega)
    have hk := hgrid y hy' b idx (by rw [hys]; exact .cons hb hidx')
    simp only [Arr.sample]
    rw [lookup_table t v idx _ hk, p1, p2]
    have e : bcastIdx t.toq.ws (b :: idx) = bcastIdx t.toq.ws (0 :: idx) := by simp [hws, bcastIdx]
    rw [e, int32_id (trg _).1.1 (trg _).1.2, int32_id (trg _).2.1 (trg _).2.2]
    rcases tsc with hsc | hsc <;> simp [quantizerCall, taf, hsc]
  have hrB : IsBatch B (tableReduce zz).norm := by
    refine ⟨redShape false (List.replicate (s.length + 1 - 2) false ++ [true, false]) (s ++ [t.nOut]), ?_⟩
    simp only [Arr.norm, tableReduce, npReduce, hzs, List.length_cons, List.length_append, List.length_nil]
    rw [show s.length + (0 + 1) + 1 - 2 = (s.length + 1 - 2) + 1 by omega, List.replicate_succ, List.cons_append]
    rfl
  obtain ⟨o1, o2⟩ := quant_opt t.oq hoq (reluKeras t.relu (tableReduce zz).norm) (by
    unfold reluKeras
    split
    · obtain ⟨u, hu⟩ := hrB; exact ⟨u, by simpa [Arr.norm, Arr.mapQ] using hu⟩
    · exact hrB) out h
  refine ⟨o1, fun b hb => ?_⟩
  have yb := y2 b hb
  rw [broadcast_sample t.nOut x s hs hsl b hb] at yb
  simp only [mirrorOpt, onlyIf, hen, if_true] at yb
  have hlast' : (x.sample b).shape.getLastD 0 = t.nIn := by
    rw [← hlast, hs]
    simp only [Arr.sample, hs, List.tail_cons]
    cases s with
    | nil => simp at hsl
    | cons a r => simp
  have hcond : bcastOk t.toq.ws (1 :: (y.sample b).shape) = true := by
    have : bcastOk t.toq.ws y.shape = true := hbcast
    rw [hws, hys] at this
    simp only [bcastOk, Bool.and_eq_true] at this
    rw [hws]
    simp [bcastOk, Arr.sample, hys, this.2]
  unfold TableArr.replay TableArr.replayCall
  rw [if_pos ⟨hen, hlast'⟩, yb, Option.bind_some, if_pos hcond, Option.bind_some, ← reduce_sample zz (s ++ [t.nOut]) hzs (by simp; omega) b hb _ (hzb b hb),
    ← (relu_step t.relu _ hrB _ b hb rfl).2, o2 b hb]

theorem patches_faithful {B : ℕ} (P : ℕ) (osp : List ℕ) (geo : List ℕ → ℕ → Option ℕ) (hgeo : ∀ p j i, geo p j = some i → i < 2 ^ 24) (x : Arr ℚ)
    (hx : IsBatch B x) (y : Arr ℚ) (h : run (kerasPatches P osp geo x) = some y) :
    IsBatch B y ∧ ∀ b < B, run (tracePatches P osp geo (x.sample b)) = some (y.sample b) := by
  refine step_run (kerasPatches P osp geo) (tracePatches P osp geo) x hx (fun out ho => ?_) y h
  obtain ⟨s, hs⟩ := hx
  unfold kerasPatches at ho
  rw [hs] at ho
  obtain rfl := Option.some.inj ho
  refine ⟨⟨osp ++ [P], rfl⟩, fun b _ => ⟨_, rfl, rfl, fun idx hidx => ?_⟩⟩
  have hne : idx ≠ [] := by
    rintro rfl
    have h := List.Forall₂.length_eq hidx
    simp [Arr.sample] at h
  obtain ⟨i, r, rfl⟩ : ∃ i r, idx = i :: r := by
    cases idx with
    | nil => exact absurd rfl hne
    | cons i r => exact ⟨i, r, rfl⟩
  simp only [Arr.sample]
  rw [C64_patches_partial (2 ^ 24) le_rfl _ _ (hgeo _)]
  simp [hs]

/-! ## Layers and models -/

theorem single_faithful {B : ℕ} {k r : Arr ℚ → Option (Arr ℚ)} {xs : List (Arr ℚ)} (hB : ∀ x ∈ xs, IsBatch B x)
    (h : ∀ x ∈ xs, IsBatch B x → ∀ out, k x = some out → IsBatch B out ∧ ∀ b < B, r (x.sample b) = some (out.sample b)) :
    Faithful B (single k) (single r) xs := by
  intro out hout
  match xs, hB, h, hout with
  | [x], hB, h, hout => exact h x (by simp) (hB x (by simp)) out hout
  | [], _, _, hout => simp [single] at hout
  | _ :: _ :: _, _, _, hout => simp [single] at hout

/-- **C108 (partial).** Dense and convolutional table layers (and all layers of C91 and C107): whenever Keras computes the layer on a batch, tracing it on each
sample gives exactly that sample of the result.  Missing: what `TableOk` excludes, where it is false (see below and C74). -/
theorem C108_table_partial (B : ℕ) (fb : ℤ) (l : YLayer) (xs : List (Arr ℚ)) (hok : YLayerOk l xs) (hB : ∀ x ∈ xs, IsBatch B x) :
    Faithful B l.keras (l.replay fb) xs := by
  cases l with
  | base l => exact xlayer_faithful fb l xs hok hB
  | denseT t v => exact single_faithful hB fun x hx hxB out h => table_faithful t v x (hok x hx) hxB out h
  | convT P osp geo t v =>
    obtain ⟨hgeo, hok⟩ := hok
    refine single_faithful hB fun x hx hxB out h => ?_
    obtain ⟨y, hy, h⟩ := Option.bind_eq_some_iff.1 h
    obtain ⟨y1, y2⟩ := patches_faithful P osp geo hgeo x hxB y hy
    obtain ⟨o1, o2⟩ := table_faithful t v y (hok x hx y hy) y1 out h
    exact ⟨o1, fun b hb => by rw [y2 b hb, Option.bind_some, o2 b hb]⟩

/-- **C108 (partial).** For every functional model of table layers, attention layers and the layers of C91, every batch and every sample `b` of it: if Keras
computes the model on the batch, tracing it on the inputs of sample `b` succeeds and gives for every output sample `b` of what Keras computes; every node is
evaluated once, in order, with sample `b` of its value.  Missing: as above and in C91, C107. -/
theorem C108_end_to_end_partial {T : Type} [DecidableEq T] (B : ℕ) (fb : ℤ) (inputs : List (T × Arr ℚ)) (byDepth : ℕ → List (ANode T YLayer))
    (D : ℕ) (outputs : List T) (kval : T → Arr ℚ) (hin : ∀ p ∈ inputs, IsBatch B p.2)
    (hacyc : DepthOrdered inputs (evalGraph YLayer.keras byDepth) D) (hsol : Solves inputs (parseModel (evalGraph YLayer.keras byDepth) D) kval)
    (hok : ∀ d ≤ D, ∀ n ∈ byDepth d, n.isInput = false → YLayerOk n.layer (n.requires.map kval))
    (hout : ∀ t ∈ outputs, t ∈ inputs.map (·.1) ∨ ∃ d ≤ D, ∃ n ∈ byDepth d, n.isInput = false ∧ t = n.produces) (b : ℕ) (hb : b < B) :
    traceOutputs (inputs.map fun p => (p.1, p.2.sample b)) (parseModel (evalGraph (YLayer.replay fb) byDepth) D) outputs =
      some (outputs.map fun t => (kval t).sample b) ∧
    (traceModel (inputs.map fun p => (p.1, p.2.sample b)) (parseModel (evalGraph (YLayer.replay fb) byDepth) D)).map (·.log) =
      some ((((List.range (D + 1)).reverse.flatMap byDepth).filter fun n => !n.isInput).map
        fun n => (n.name, [(kval n.produces).sample b])) :=
  graph_faithful YLayer.keras (YLayer.replay fb) YLayerOk (fun l xs => C108_table_partial B fb l xs) inputs byDepth D outputs kval hin hacyc hsol hok hout b hb

/-! ## What a table layer computes -/

/-- A quantizer at an index of the batch. -/
def Spec.quantAt (q : ArrQuant) (idx : List ℕ) (x : ℚ) : ℚ :=
  quantizerCall q.scaler q.affine none .false (quantize q.rm q.om (q.k (bcastIdx q.ws idx)) (q.i (bcastIdx q.ws idx)) (q.f (bcastIdx q.ws idx))) x

theorem redIdx_pair (ps : List ℕ) (n m : ℕ) (idx : List ℕ) (h : idx.length = ps.length) (o : ℕ) :
    redIdx (List.replicate ps.length false ++ [true, false]) (ps ++ [n, m]) (dropKept false (List.replicate ps.length false ++ [true, false]) (idx ++ [o])) =
      (List.range n).map fun i => idx ++ [i, o] := by
  induction ps generalizing idx with
  | nil =>
    obtain rfl := List.length_eq_zero_iff.1 (by simpa using h)
    simp [redIdx, dropKept, ← List.map_eq_flatMap]
  | cons p ps ih =>
    cases idx with
    | nil => simp at h
    | cons a r =>
      have := ih r (by simpa using h)
      simp only [List.length_cons, List.replicate_succ, List.cons_append, dropKept, redIdx]
      rw [this, List.map_map]
      rfl

theorem redShape_pair (ps : List ℕ) (n m : ℕ) : redShape false (List.replicate ps.length false ++ [true, false]) (ps ++ [n, m]) = ps ++ [m] := by
  induction ps with
  | nil => simp [redShape]
  | cons p ps ih => simp only [List.length_cons, List.replicate_succ, List.cons_append, redShape, ih]

theorem norm_get {a : Arr ℚ} {idx : List ℕ} (h : InShape idx a.shape) : a.norm.get idx = a.get idx := by
  simp [Arr.norm, (inShapeB_iff idx a.shape).2 h]

/-- An optional quantizer at an index. -/
def Spec.optAt (q : Option ArrQuant) (idx : List ℕ) (x : ℚ) : ℚ :=
  match q with
  | some q => quantAt q idx x
  | none => x

theorem kerasOpt_get {q : Option ArrQuant} {x y : Arr ℚ} (h : kerasOpt q x = some y) {idx : List ℕ} (hi : InShape idx x.shape) :
    y.get idx = optAt q idx (x.get idx) := by
  cases q with
  | none => simp only [kerasOpt, Option.some.injEq] at h; rw [h]; rfl
  | some q =>
    obtain ⟨a, ha, rfl⟩ := Option.map_eq_some_iff.1 h
    unfold ArrQuant.keras at ha
    split at ha
    · obtain rfl := Option.some.inj ha
      rw [norm_get (by exact hi)]
      rfl
    · simp at ha

/-- **C108, values.** What a table layer without activation and output quantizer computes for an input of shape `ps ++ [n_in]` (the batch axis is part of `ps`):
at every position and for every output, the sum over all inputs of the quantized value of the pair's network at the input quantized for this pair. -/
theorem C108_values (t : TableArr) (hr : t.relu = false) (ho : t.oq = none) (x out : Arr ℚ) (ps : List ℕ) (hx : x.shape = ps ++ [t.nIn])
    (h : t.keras x = some out) :
    out.shape = ps ++ [t.nOut] ∧ ∀ idx, InShape idx ps → ∀ o < t.nOut, out.get (idx ++ [o]) =
      ((List.range t.nIn).map fun i => quantAt t.toq (idx ++ [i, o])
        (t.net i o (if t.enableIq then quantAt t.iq (idx ++ [i, o]) (x.get (idx ++ [i])) else x.get (idx ++ [i])))).sum := by
  unfold TableArr.keras at h
  split at h
  swap
  · simp at h
  obtain ⟨y, hy, h⟩ := Option.bind_eq_some_iff.1 h
  obtain ⟨z, hz, h⟩ := Option.bind_eq_some_iff.1 h
  rw [ho] at h
  simp only [kerasOpt, reluKeras, hr, Bool.false_eq_true, if_false, Option.some.injEq] at h
  have hsh : y.shape = ps ++ [t.nIn, t.nOut] := by rw [quant_shape hy]; simp [Arr.norm, tableBroadcast, hx]
  have hzs : z.shape = ps ++ [t.nIn, t.nOut] := by
    have := quant_shape (q := some t.toq) (y := z) (by exact hz)
    rw [this]; exact hsh
  have hfl : List.replicate (z.shape.length - 2) false ++ [true, false] = List.replicate ps.length false ++ [true, false] := by rw [hzs]; simp
  have hos : (tableReduce z).shape = ps ++ [t.nOut] := by
    unfold tableReduce npReduce
    rw [hfl, hzs]
    exact redShape_pair ps _ _
  subst h
  refine ⟨hos, fun idx hidx o hlt => ?_⟩
  have hin : ∀ {r : List ℕ} {n : ℕ} {i : ℕ}, i < n → InShape idx r → InShape (idx ++ [i]) (r ++ [n]) := fun h1 h2 => List.rel_append h2 (.cons h1 .nil)
  rw [norm_get (by rw [hos]; exact List.rel_append hidx (.cons hlt .nil))]
  unfold tableReduce npReduce
  simp only [hfl]
  rw [hzs, redIdx_pair ps _ _ idx (List.Forall₂.length_eq hidx) o, List.map_map]
  congr 1
  refine List.map_congr_left fun i hi => ?_
  have hi := List.mem_range.1 hi
  have hpi : InShape (idx ++ [i, o]) (ps ++ [t.nIn, t.nOut]) := List.rel_append hidx (.cons hi (.cons hlt .nil))
  have e1 := kerasOpt_get (q := some t.toq) (y := z) (by exact hz) (idx := idx ++ [i, o]) (by exact hsh ▸ hpi)
  have e2 := kerasOpt_get hy (idx := idx ++ [i, o]) (by simpa [Arr.norm, tableBroadcast, hx] using hpi)
  have e3 : (tableBroadcast t.nOut x).norm.get (idx ++ [i, o]) = x.get (idx ++ [i]) := by
    rw [norm_get (by simpa [tableBroadcast, hx] using hpi)]
    rw [show idx ++ [i, o] = (idx ++ [i]) ++ [o] from by simp]
    simp [tableBroadcast]
  have e4 : pairIn (idx ++ [i, o]) = i ∧ pairOut (idx ++ [i, o]) = o := by
    rw [show idx ++ [i, o] = (idx ++ [i]) ++ [o] by simp]
    simp [pairIn, pairOut]
  rw [e3] at e2
  simp only [Function.comp_apply]
  rw [e1]
  simp only [optAt]
  rw [e4.1, e4.2, e2]
  cases hq : t.enableIq <;> simp [onlyIf, optAt]

/-! ## Ranges -/

/-- The whole range of the format of a quantizer. -/
def Spec.fullRange (q : ArrQuant) : LhsArr where
  l := fun idx => lowTC (q.k (bcastIdx q.ws (0 :: idx))) (q.i (bcastIdx q.ws (0 :: idx)))
  h := fun idx => high (q.i (bcastIdx q.ws (0 :: idx))) (q.f (bcastIdx q.ws (0 :: idx)))
  s := fun idx => 2 ^ (-q.f (bcastIdx q.ws (0 :: idx)))

theorem fullRange_knows (rm : RoundMode) (om : OverflowMode) (k : Bool) (i f : ℤ) (hw : 0 < width k i f) (x : ℚ) :
    ∃ m p : ℕ, high i f = lowTC k i + m * 2 ^ (-f) ∧ p ≤ m ∧ quantize rm om k i f x = lowTC k i + p * 2 ^ (-f) := by
  obtain ⟨⟨⟨c, hc⟩, h1, h2⟩, h3, h4⟩ := C01_output_representable rm om k i f x hw
  rw [h3] at h1
  rw [h4] at h2
  have hs : (0 : ℚ) < 2 ^ (-f) := by positivity
  have hlow : lowTC k i ≤ low om k i f := by
    unfold low
    cases om <;> simp only [le_refl]
    unfold lowTC lowSym
    cases k <;> simp
    positivity
  have hpow : ∃ e : ℕ, (2 : ℚ) ^ i = ((2 : ℕ) ^ e : ℕ) * 2 ^ (-f) ∧ (1 ≤ e ∨ k = true) := by
    have hn : 0 ≤ i + f := by unfold width at hw; cases k <;> simp at hw <;> omega
    refine ⟨(i + f).toNat, ?_, ?_⟩
    · have : (((2 : ℕ) ^ (i + f).toNat : ℕ) : ℚ) = 2 ^ (i + f) := by
        push_cast
        rw [← zpow_natCast, Int.toNat_of_nonneg hn]
      rw [this, ← zpow_add₀ (by norm_num)]
      congr 1; ring
    · cases k with
      | true => exact Or.inr rfl
      | false => left; unfold width at hw; simp at hw; omega
  obtain ⟨e, he, -⟩ := hpow
  have h1' : lowTC k i ≤ quantize rm om k i f x := hlow.trans h1
  have hN : (1 : ℕ) ≤ 2 ^ e := Nat.one_le_two_pow
  cases k with
  | false =>
    simp only [lowTC, Bool.false_eq_true, if_false] at h1' ⊢
    have hc0 : 0 ≤ c := by
      by_contra hneg
      have : (c : ℚ) * 2 ^ (-f) < 0 := mul_neg_of_neg_of_pos (by exact_mod_cast not_le.1 hneg) hs
      rw [hc] at h1'; linarith
    obtain ⟨p, rfl⟩ := Int.eq_ofNat_of_zero_le hc0
    refine ⟨2 ^ e - 1, p, ?_, ?_, ?_⟩
    · unfold high; rw [he]; push_cast [Nat.cast_sub hN]; ring
    · unfold high at h2
      rw [he, hc] at h2
      have : ((p : ℕ) : ℚ) + 1 ≤ ((2 ^ e : ℕ) : ℚ) := by
        have h5 : (((p : ℤ) : ℚ) + 1) * 2 ^ (-f) ≤ ((2 ^ e : ℕ) : ℚ) * 2 ^ (-f) := by linarith
        have := le_of_mul_le_mul_right h5 hs
        exact_mod_cast this
      have : p + 1 ≤ 2 ^ e := by exact_mod_cast this
      omega
    · rw [hc]; push_cast; ring
  | true =>
    simp only [lowTC, if_true] at h1' ⊢
    have hc0 : 0 ≤ c + ((2 ^ e : ℕ) : ℤ) := by
      by_contra hneg
      have h6 : ((c + ((2 ^ e : ℕ) : ℤ) : ℤ) : ℚ) * 2 ^ (-f) < 0 := mul_neg_of_neg_of_pos (by exact_mod_cast not_le.1 hneg) hs
      rw [hc, he] at h1'
      push_cast at h6 h1'
      linarith
    obtain ⟨p, hp⟩ := Int.eq_ofNat_of_zero_le hc0
    have hcq : (c : ℚ) = p - ((2 ^ e : ℕ) : ℚ) := by
      have : c = (p : ℤ) - ((2 ^ e : ℕ) : ℤ) := by linarith
      rw [this]; push_cast; ring
    refine ⟨2 * 2 ^ e - 1, p, ?_, ?_, ?_⟩
    · unfold high; rw [he, Nat.cast_sub (by omega)]; push_cast; ring
    · unfold high at h2
      rw [he, hc, hcq] at h2
      have h5 : ((p : ℚ) + 1) * 2 ^ (-f) ≤ (2 * ((2 ^ e : ℕ) : ℚ)) * 2 ^ (-f) := by linarith
      have := le_of_mul_le_mul_right h5 hs
      have : p + 1 ≤ 2 * 2 ^ e := by exact_mod_cast this
      omega
    · rw [hc, hcq, he]; ring

/-- **C108, ranges.** The condition on the ranges holds for every input if the tracer knows the whole range of the input quantizer's format, for every rounding and
overflow mode and all widths with at least one bit. -/
theorem C108_ranges (t : TableArr) (hq : t.iq.ws.head? = some 1) (hs : t.iq.scaler = none) (ha : t.iq.affine = none)
    (hw : ∀ j, 0 < width (t.iq.k j) (t.iq.i j) (t.iq.f j)) (x y : Arr ℚ) (hy : run (t.iq.keras (tableBroadcast t.nOut x).norm) = some y) (b : ℕ) (idx : List ℕ)
    (hi : InShape (b :: idx) y.shape) : Knows (fullRange t.iq) idx (y.get (b :: idx)) := by
  have hsh := quant_shape (q := some t.iq) (y := y) (by exact hy)
  have e := kerasOpt_get (q := some t.iq) (y := y) (by exact hy) (idx := b :: idx) (by rw [← hsh]; exact hi)
  obtain ⟨ws, hws⟩ : ∃ ws, t.iq.ws = 1 :: ws := by
    cases hw : t.iq.ws with
    | nil => simp [hw] at hq
    | cons w ws => simp [hw] at hq; exact ⟨ws, by rw [hq]⟩
  have ej : bcastIdx t.iq.ws (b :: idx) = bcastIdx t.iq.ws (0 :: idx) := by simp [hws, bcastIdx]
  simp only [optAt, quantAt, hs, ha, quantizerCall, ej] at e
  obtain ⟨m, p, h1, h2, h3⟩ := fullRange_knows t.iq.rm t.iq.om _ _ _ (hw (bcastIdx t.iq.ws (0 :: idx))) ((tableBroadcast t.nOut x).norm.get (b :: idx))
  exact ⟨by simp only [fullRange]; positivity, m, p, h1, h2, by rw [e]; exact h3⟩

/-! ## Where it is false -/

theorem sum_affine (a c : ℚ) (g : ℕ → ℚ) (n : ℕ) : ((List.range n).map fun i => g i * a + c).sum = a * ((List.range n).map g).sum + n * c := by
  induction n with
  | zero => simp
  | succ n ih => rw [List.range_succ, List.map_append, List.sum_append, ih, List.map_append, List.sum_append]; simp; ring


/-- **C108 violated** without input quantizer: Keras computes the layer, tracing raises. -/
theorem C108_no_iq_violated (t : TableArr) (h : t.enableIq = false) (v : LhsArr) (x : Arr ℚ) : t.replay v x = none := by
  simp [TableArr.replay, TableArr.replayCall, h]

/-- **C108 violated** for a table quantizer with a scaler or an affine map: tracing ignores both; with the affine map `a * q + c` Keras computes `a` times the
output without it, plus `n_in * c`. -/
theorem C108_toq_affine_violated (t : TableArr) (hr : t.relu = false) (ho : t.oq = none) (hsc : t.toq.scaler = none) (haf : t.toq.affine = none) (a c : ℚ) :
    (∀ sc v x, ({ t with toq := { t.toq with scaler := sc, affine := some (a, c) } } : TableArr).replay v x = t.replay v x) ∧
    ∀ x out out' ps, x.shape = ps ++ [t.nIn] → t.keras x = some out →
      ({ t with toq := { t.toq with affine := some (a, c) } } : TableArr).keras x = some out' →
      ∀ idx, InShape idx ps → ∀ o < t.nOut, out'.get (idx ++ [o]) = a * out.get (idx ++ [o]) + t.nIn * c := by
  refine ⟨fun _ _ _ => rfl, fun x out out' ps hx h h' idx hidx o hlt => ?_⟩
  rw [(C108_values t hr ho x out ps hx h).2 idx hidx o hlt, (C108_values { t with toq := { t.toq with affine := some (a, c) } } hr ho x out' ps hx h').2 idx hidx o hlt]
  have e : ∀ j w, quantAt { t.toq with affine := some (a, c) } j w = quantAt t.toq j w * a + c := fun j w => by simp [quantAt, quantizerCall, hsc, haf]
  simp only [e]
  exact sum_affine _ _ _ _

/-! ## A concrete model -/

/-- Table layer with two inputs and two outputs. -/
def exTableArr : TableArr where
  nIn := 2
  nOut := 2
  enableIq := true
  iq := ⟨.RND, .SAT, none, none, [1, 2, 2], fun _ => true, fun j => if j = [0, 0, 1] then 1 else 2, fun _ => 1⟩
  net := fun i o v => if i = 0 then v * v else v / 3 + o
  toq := ⟨.TRN, .WRAP, none, none, [1, 1, 2], fun _ => true, fun _ => 4, fun j => if j = [0, 0, 1] then 3 else 2⟩
  relu := true
  oq := some (exMQ 2 1)

def exTableIn : Arr ℚ := ⟨[2, 2], fun idx => if idx = [0, 0] then 7 / 2 else if idx = [0, 1] then -3 / 2 else if idx = [1, 0] then -4 else 5 / 4⟩

/-- The hypotheses of C108 hold, with the ranges of the formats: both samples are traced to what Keras computes. -/
example : ∃ out, (YLayer.denseT exTableArr (fullRange exTableArr.iq)).keras [exTableIn] = some out ∧
    (∀ b < 2, (YLayer.denseT exTableArr (fullRange exTableArr.iq)).replay 0 [exTableIn.sample b] = some (out.sample b)) ∧
    ((List.range 2).flatMap fun b => (List.range 2).map fun o => out.get [b, o]) = [15 / 2, 3, 0, 11 / 2] := by
  have hs : ((YLayer.denseT exTableArr (fullRange exTableArr.iq)).keras [exTableIn]).isSome = true := by decide +kernel
  obtain ⟨out, hout⟩ := Option.isSome_iff_exists.1 hs
  have hrange : ∀ j : List ℕ, (1 : ℤ) ≤ (exTableArr.iq.i j) ∧ (exTableArr.iq.i j) ≤ 2 := fun j => by simp only [exTableArr]; split <;> omega
  have hok : YLayerOk (YLayer.denseT exTableArr (fullRange exTableArr.iq)) [exTableIn] := by
    intro x hx
    refine ⟨rfl, ⟨rfl, Or.inl rfl, fun j => ⟨?_, by simp [exTableArr]⟩⟩, ⟨rfl, Or.inl rfl, rfl, fun j => ⟨by simp [exTableArr], ?_⟩⟩, ?_, ?_⟩
    · have := hrange j; omega
    · simp only [exTableArr]; split <;> omega
    · intro q hq
      obtain rfl := Option.some.inj hq
      exact exMQ_ok _ _ (by constructor <;> decide)
    · intro y hy b idx hi
      refine C108_ranges exTableArr rfl rfl rfl (fun j => ?_) x y hy b idx hi
      have := hrange j
      simp only [width, exTableArr] at this ⊢
      simp; omega
  obtain ⟨-, h2⟩ := C108_table_partial 2 0 _ [exTableIn] hok (by simp [IsBatch, exTableIn]) out hout
  refine ⟨out, hout, h2, ?_⟩
  have hv : ((YLayer.denseT exTableArr (fullRange exTableArr.iq)).keras [exTableIn]).map
      (fun out => (List.range 2).flatMap fun b => (List.range 2).map fun o => out.get [b, o]) = some [15 / 2, 3, 0, 11 / 2] := by decide +kernel
  rw [hout] at hv
  exact Option.some.inj hv

end HGQ
