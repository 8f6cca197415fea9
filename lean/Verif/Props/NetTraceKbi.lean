import Verif.Props.NetTrace

/-!
# C90 for models with kbi quantizers

One pass of tracing does not calibrate a model with kbi quantizers (`C90_kbi_violated`).  Here: what does.

* every quantizer is called once (one batch): the calibrated model reproduces the traced values;
* a pass in which no kbi quantizer changed its integer bits: the calibrated model reproduces the values of that pass;
* such a pass is reached after at most as many passes as there are adapting kbi quantizers, if no quantizer is shared;
* with a shared kbi quantizer it may never be reached.
-/
namespace HGQ

namespace Spec
/-- The integer bits of a cell. -/
def intBits : SlotState → ℤ
  | .kif c => c.i
  | .kbi c => c.i

/-- Adapting kbi quantizers: no constraint on `i`, and 1 to 22 bits. -/
def KbiOk (net : Net) (st : NetState) : Prop := ∀ s, Adapts (net.slots s) → ∀ j c, st s j = .kbi c →
  (net.slots s).q.ic = none ∧ 1 ≤ c.b ∧ c.b ≤ 22

/-- What the quantizers are given during a tracing loop, in order: (slot, tensor). -/
def traceFeeds (net : Net) : NetState → List (List Tensor) → List (ℕ × Tensor)
  | _, [] => []
  | st, b :: bs => (net.call .tracing st b).log ++ traceFeeds net (net.call .tracing st b).st bs

/-- Between the two states no adapting kbi quantizer changed its integer bits. -/
def Settled (net : Net) (st st' : NetState) : Prop :=
  ∀ s, Adapts (net.slots s) → ∀ j c, st s j = .kbi c → intBits (st' s j) = c.i

/-- How often a forward pass calls the quantizer in slot `s`. -/
def callsOf (net : Net) (s : ℕ) : ℕ := net.nodes.countP fun n => match n with
  | .op _ => false
  | .quant s' _ => s' = s

/-- How often a forward pass calls one of the quantizers in `K`. -/
def callsIn (K : ℕ → Bool) (nodes : List NetNode) : ℕ := nodes.countP fun n => match n with
  | .op _ => false
  | .quant s _ => K s

/-- Some cell of the quantizer is an adapting kbi cell. -/
def HasKbi (net : Net) (st : NetState) (s : ℕ) : Prop := Adapts (net.slots s) ∧ ∃ j c, st s j = .kbi c

/-- `n` calls of `trace_minmax(model, data, reset=False)`. -/
def passes (net : Net) (batches : List (List Tensor)) : ℕ → NetState → NetState
  | 0, st => st
  | n + 1, st => passes net batches n (net.traceMinmax false st batches).1
end Spec
open Spec

/-- The cells of a slot after the feeds `l`. -/
def cellsAfter (net : Net) (s : ℕ) (l : List (ℕ × Tensor)) (cells : List ℕ → SlotState) : List ℕ → SlotState :=
  ((l.filter fun p => p.1 = s).map Prod.snd).foldl (fun c x => (net.slots s).step .tracing x c) cells

theorem cellsAfter_append (net : Net) (s : ℕ) (l l' : List (ℕ × Tensor)) (cells : List ℕ → SlotState) :
    cellsAfter net s (l ++ l') cells = cellsAfter net s l' (cellsAfter net s l cells) := by
  simp only [cellsAfter, List.filter_append, List.map_append, List.foldl_append]

theorem call_cells (net : Net) (st : NetState) (b : List Tensor) (s : ℕ) :
    (net.call .tracing st b).st s = cellsAfter net s (net.call .tracing st b).log (st s) := by
  obtain ⟨l, h1, h2⟩ := fold_st net .tracing net.nodes ⟨b, st, []⟩
  simp only [List.nil_append] at h1
  have h1' : (net.call .tracing st b).log = l := h1
  rw [h1']
  exact h2 s

theorem loop_cells (net : Net) (st : NetState) (bs : List (List Tensor)) (s : ℕ) :
    (net.traceLoop st bs).1 s = cellsAfter net s (traceFeeds net st bs) (st s) := by
  induction bs generalizing st with
  | nil => rfl
  | cons b bs ih =>
    simp only [Net.traceLoop, traceFeeds, cellsAfter_append]
    rw [ih, call_cells]

/-- The kbi counterpart of `step_fold_kif`. -/
theorem step_fold_kbi (n : QSlot) (xs : List Tensor) (cells : List ℕ → SlotState) (j : List ℕ) (c : KBIState) (h : cells j = .kbi c) :
    xs.foldl (fun c x => n.step .tracing x c) cells j =
      .kbi (kbiTrace n.q c (xs.map fun x => (fibre n.hm x.shape j).map x.val)) := by
  induction xs generalizing cells c with
  | nil => exact h
  | cons x xs ih =>
    simp only [List.foldl_cons, List.map_cons]
    rw [ih _ (kbiCall n.q c .tracing ((fibre n.hm x.shape j).map x.val)).1 (by simp only [QSlot.step, h, slotStep])]
    rfl

theorem step_fold_static (n : QSlot) (hn : ¬ Adapts n) (xs : List Tensor) (cells : List ℕ → SlotState) :
    xs.foldl (fun c x => n.step .tracing x c) cells = cells := by
  induction xs generalizing cells with
  | nil => rfl
  | cons x xs ih =>
    rw [List.foldl_cons, ih]
    funext j
    exact slotStep_static hn _ _ _

/-- What the slot `s` was given. -/
def fedTo (s : ℕ) (l : List (ℕ × Tensor)) : List Tensor := (l.filter fun p => p.1 = s).map Prod.snd

/-- The elements of the cell `j` in the tensors given to the slot. -/
def cellData (n : QSlot) (j : List ℕ) (xs : List Tensor) : List (List ℚ) := xs.map fun x => (fibre n.hm x.shape j).map x.val

theorem mem_cellData {n : QSlot} {cells : List ℕ → SlotState} {M : ℤ} {x : Tensor} (h : FedOk n cells M x) {idx : List ℕ}
    (hidx : InRange x.shape idx) : x.val idx ∈ (fibre n.hm x.shape (bcastIdx n.ws idx)).map x.val := by
  obtain ⟨m, het, hw, hr⟩ := h.shape
  exact List.mem_map_of_mem (((C16_reduction_is_fibre m x.shape n.ws het n.hm hw hr x.val _).1 idx).2 ⟨hidx, rfl⟩)

/-- One quantizer call of the loop: inference with the final state gives the value seen while tracing. -/
theorem local_match (net : Net) (st0 : NetState) (M : ℤ) (total l1 l2 : List (ℕ × Tensor)) (p : ℕ × Tensor) (ht : total = l1 ++ p :: l2)
    (hM : ∀ s, Adapts (net.slots s) → ∀ n : ℤ, n ≤ M → (n : ℚ) ≤ applyC (net.slots s).q.ic n)
    (hkbi : KbiOk net st0) (hfed : ∀ p ∈ total, Adapts (net.slots p.1) → FedOk (net.slots p.1) (st0 p.1) M p.2)
    (hlast : Adapts (net.slots p.1) → ∀ j c, st0 p.1 j = .kbi c →
      intBits (cellsAfter net p.1 (l1 ++ [p]) (st0 p.1) j) = intBits (cellsAfter net p.1 total (st0 p.1) j)) :
    (net.slots p.1).out .false p.2 (cellsAfter net p.1 total (st0 p.1)) =
      (net.slots p.1).out .tracing p.2 (cellsAfter net p.1 l1 (st0 p.1)) := by
  obtain ⟨s, x⟩ := p
  simp only at *
  by_cases ha : Adapts (net.slots s)
  · have hmem : (s, x) ∈ total := by rw [ht]; simp
    have hx := hfed _ hmem ha
    have hxs : x ∈ fedTo s total := by
      simp only [fedTo, List.mem_map, List.mem_filter, decide_eq_true_eq]
      exact ⟨_, ⟨hmem, rfl⟩, rfl⟩
    have hfedL : ∀ y ∈ fedTo s total, FedOk (net.slots s) (st0 s) M y := by
      intro y hy
      simp only [fedTo, List.mem_map, List.mem_filter, decide_eq_true_eq] at hy
      obtain ⟨q, ⟨hq, hq1⟩, rfl⟩ := hy
      have := hfed q hq (by rw [hq1]; exact ha)
      rw [hq1] at this
      exact this
    unfold QSlot.out
    congr 1
    funext idx
    split_ifs with hin
    · have hidx := (mem_indices _ _).1 hin
      set j := bcastIdx (net.slots s).ws idx with hj
      have hdata : (fibre (net.slots s).hm x.shape j).map x.val ∈ cellData (net.slots s) j (fedTo s total) :=
        List.mem_map_of_mem hxs
      have hval := mem_cellData hx hidx
      cases hc : st0 s j with
      | kif c =>
        have e1 : cellsAfter net s l1 (st0 s) j = _ := step_fold_kif (net.slots s) (fedTo s l1) (st0 s) j c hc
        have e2 : cellsAfter net s total (st0 s) j = _ := step_fold_kif (net.slots s) (fedTo s total) (st0 s) j c hc
        rw [e1, e2, slotOut_tracing ha]
        have h08 := C08_calibrated_no_overflow (net.slots s).q ha.1 ha.2 false c (cellData (net.slots s) j (fedTo s total)) M (hM s ha) (by
          intro l hl v hv
          obtain ⟨y, hy, rfl⟩ := List.mem_map.1 hl
          obtain ⟨i, hi, rfl⟩ := List.mem_map.1 hv
          obtain ⟨m, het, hw, hr⟩ := (hfedL y hy).shape
          obtain ⟨g1, g2⟩ := ((C16_reduction_is_fibre m y.shape _ het _ hw hr y.val j).1 i).1 hi
          exact (hfedL y hy).fits i g1 c (by rw [g2]; exact hc))
        have h1 := h08.2 _ hdata _ hval
        simp only [kifTraceMinmax, Bool.false_eq_true, if_false] at h1
        have hf1 : (kifTrace (net.slots s).q c ((fedTo s l1).map fun x => (fibre (net.slots s).hm x.shape j).map x.val)).f = c.f :=
          kifTrace_f ha.1 ha.2 c _
        rw [hf1]
        simp only [slotOut]
        have h1' := congrArg (fun l => l.headD 0) h1
        exact h1'
      | kbi c =>
        obtain ⟨hic, hb, hb'⟩ := hkbi s ha j c hc
        have e1 : cellsAfter net s l1 (st0 s) j = _ := step_fold_kbi (net.slots s) (fedTo s l1) (st0 s) j c hc
        have e2 : cellsAfter net s total (st0 s) j = _ := step_fold_kbi (net.slots s) (fedTo s total) (st0 s) j c hc
        have e3 : cellsAfter net s (l1 ++ [(s, x)]) (st0 s) j = _ := step_fold_kbi (net.slots s) (fedTo s (l1 ++ [(s, x)])) (st0 s) j c hc
        have hl := hlast ha j c hc
        rw [e3, e2] at hl
        have hf3 : fedTo s (l1 ++ [(s, x)]) = fedTo s l1 ++ [x] := by simp [fedTo]
        rw [hf3, List.map_append] at hl
        simp only [List.map_cons, List.map_nil, kbiTrace, List.foldl_append, List.foldl_cons, List.foldl_nil, intBits] at hl
        have h11 := C11_calibrated_no_overflow_partial (net.slots s).q ha.1 ha.2 hic false c hb hb' (cellData (net.slots s) j (fedTo s total))
        simp only [kbiTraceMinmax, Bool.false_eq_true, if_false] at h11
        have h1 := h11.2.2 _ hdata _ hval
        have hbt := h11.1
        rw [e1, e2]
        have hcond : (net.slots s).q.om = .WRAP ∧ (net.slots s).q.trainable = true ∧ (Flag.tracing.truthy || Flag.tracing.eqTracing) = true := ⟨ha.1, ha.2, rfl⟩
        have hcond' : ¬ ((net.slots s).q.om = .WRAP ∧ (net.slots s).q.trainable = true ∧ (Flag.false.truthy || Flag.false.eqTracing) = true) := by
          rintro ⟨-, -, h⟩; exact absurd h (by decide)
        simp only [slotOut, if_pos hcond, if_neg hcond']
        have hb1 : (kbiTrace (net.slots s).q c ((fedTo s l1).map fun x => (fibre (net.slots s).hm x.shape j).map x.val)).bw = c.bw :=
          (kbiTrace_props ha.1 ha.2 c (by omega) hic _).1
        have hb2 := (kbiCall_tracing_props ha.1 ha.2 (kbiTrace (net.slots s).q c ((fedTo s l1).map fun x => (fibre (net.slots s).hm x.shape j).map x.val))
          (by simp only [KBIState.b, hb1]; simp only [KBIState.b] at hb; omega) hic ((fibre (net.slots s).hm x.shape j).map x.val)).1
        have h1' := congrArg (fun l => l.headD 0) h1
        refine Eq.trans h1' ?_
        simp only [List.headD_cons]
        congr 1
        simp only [KBIState.f]
        have hbb : (kbiTrace (net.slots s).q c (cellData (net.slots s) j (fedTo s total))).b =
            ((kbiCall (net.slots s).q (kbiTrace (net.slots s).q c ((fedTo s l1).map fun x => (fibre (net.slots s).hm x.shape j).map x.val)) .tracing
              ((fibre (net.slots s).hm x.shape j).map x.val)).1).b := by
          rw [hbt]; simp only [KBIState.b, hb2, hb1]
        rw [hbb]
        congr 1
        exact hl.symm
    · rfl
  · have e : ∀ l, cellsAfter net s l (st0 s) = st0 s := fun l => step_fold_static _ ha _ _
    rw [e, e]
    unfold QSlot.out
    congr 1
    funext idx
    split_ifs
    · exact (slotOut_static ha _ _ _).symm
    · rfl

/-- If every quantizer call of the pass is reproduced, the whole pass is. -/
theorem nodes_match (net : Net) (st0 t : NetState) (total : List (ℕ × Tensor))
    (hout : ∀ l1 p l2, total = l1 ++ p :: l2 →
      (net.slots p.1).out .false p.2 (t p.1) = (net.slots p.1).out .tracing p.2 (cellsAfter net p.1 l1 (st0 p.1)))
    (nodes : List NetNode) (r r' : NetRun) (pre post : List (ℕ × Tensor)) (he : r.env = r'.env) (hst : r.st = t)
    (hr : ∀ s, r'.st s = cellsAfter net s (pre ++ r'.log) (st0 s))
    (htot : total = pre ++ (nodes.foldl (net.step .tracing) r').log ++ post) :
    (nodes.foldl (net.step .false) r).env = (nodes.foldl (net.step .tracing) r').env := by
  induction nodes generalizing r r' with
  | nil => exact he
  | cons n nodes ih =>
    rw [List.foldl_cons, List.foldl_cons] at *
    cases n with
    | op f => exact ih _ _ (by simp only [Net.step, he]) hst hr htot
    | quant s src =>
      obtain ⟨l, g1, -⟩ := fold_st net .tracing nodes (net.step .tracing r' (.quant s src))
      have hsplit : total = (pre ++ r'.log) ++ (s, r'.env.getD src ⟨[], fun _ => 0⟩) :: (l ++ post) := by
        rw [htot, g1]; simp [Net.step]
      have ho := hout _ _ _ hsplit
      refine ih _ _ ?_ ?_ ?_ htot
      · simp only [Net.step, he, hst]
        simp only at ho
        rw [ho, hr s]
      · have := infer_fold net [.quant s src] r
        simp only [List.foldl_cons, List.foldl_nil] at this
        rw [this, hst]
      · intro s'
        simp only [Net.step]
        rw [← List.append_assoc, cellsAfter_append]
        by_cases hs : s' = s
        · subst hs
          rw [Function.update_self, ← hr s']
          simp [cellsAfter]
        · rw [Function.update_of_ne hs, ← hr s']
          have hs' : s ≠ s' := fun h => hs h.symm
          simp [cellsAfter, hs']

theorem loop_match (net : Net) (st0 t : NetState) (total : List (ℕ × Tensor))
    (hout : ∀ l1 p l2, total = l1 ++ p :: l2 →
      (net.slots p.1).out .false p.2 (t p.1) = (net.slots p.1).out .tracing p.2 (cellsAfter net p.1 l1 (st0 p.1)))
    (bs : List (List Tensor)) (st : NetState) (pre : List (ℕ × Tensor)) (hr : ∀ s, st s = cellsAfter net s pre (st0 s))
    (htot : total = pre ++ traceFeeds net st bs) :
    (net.traceLoop st bs).2 = bs.map fun b => (net.call .false t b).env := by
  induction bs generalizing st pre with
  | nil => rfl
  | cons b bs ih =>
    simp only [Net.traceLoop, List.map_cons]
    congr 1
    · refine (nodes_match net st0 t total hout net.nodes ⟨b, t, []⟩ ⟨b, st, []⟩ pre (traceFeeds net (net.call .tracing st b).st bs) rfl rfl
        (by simpa using hr) ?_).symm
      rw [htot]; simp only [traceFeeds, Net.call, List.append_assoc]
    · refine ih _ (pre ++ (net.call .tracing st b).log) (fun s => ?_) ?_
      · rw [cellsAfter_append, ← hr s, call_cells]
      · rw [htot]; simp only [traceFeeds, List.append_assoc]

/-- The pass is reproduced if every kbi call already used the final integer bits. -/
theorem pass_core (net : Net) (st : NetState) (batches : List (List Tensor)) (M : ℤ)
    (hM : ∀ s, Adapts (net.slots s) → ∀ n : ℤ, n ≤ M → (n : ℚ) ≤ applyC (net.slots s).q.ic n)
    (hkbi : KbiOk net st) (hfed : ∀ p ∈ traceFeeds net st batches, Adapts (net.slots p.1) → FedOk (net.slots p.1) (st p.1) M p.2)
    (hlast : ∀ l1 p l2, traceFeeds net st batches = l1 ++ p :: l2 → Adapts (net.slots p.1) → ∀ j c, st p.1 j = .kbi c →
      intBits (cellsAfter net p.1 (l1 ++ [p]) (st p.1) j) = intBits (cellsAfter net p.1 (traceFeeds net st batches) (st p.1) j)) :
    (net.traceLoop st batches).2 = batches.map fun b => (net.call .false (net.traceLoop st batches).1 b).env := by
  refine loop_match net st _ (traceFeeds net st batches) ?_ batches st [] (fun s => rfl) rfl
  intro l1 p l2 h
  rw [loop_cells]
  exact local_match net st M _ l1 l2 p h hM hkbi hfed (hlast l1 p l2 h)

/-! ## Integer bits of a kbi cell: the running maximum -/

theorem kbiTrace_bits {q : QOpts} (hom : q.om = .WRAP) (htr : q.trainable = true) (hic : q.ic = none) (c : KBIState) (hb : 0 < c.b)
    (bs : List (List ℚ)) (n : ℤ) : (kbiTrace q c bs).i ≤ n ↔ c.i ≤ n ∧ ∀ b ∈ bs, needB c.b (absmax b) ≤ n := by
  induction bs generalizing c with
  | nil => simp [kbiTrace]
  | cons b bs ih =>
    have hbw := (kbiCall_tracing_props hom htr c hb hic b).1
    have hb1 : (kbiCall q c .tracing b).1.b = c.b := by simp only [KBIState.b, hbw]
    have hi : (kbiCall q c .tracing b).1.i = max c.i (needB c.b (absmax b)) := by
      rw [kbiCall_tracing hom htr c hb hic]; simp only [KBIState.i, roundHalfEven_int]
    have := ih (kbiCall q c .tracing b).1 (by omega)
    rw [hb1, hi] at this
    simp only [kbiTrace, List.foldl_cons] at *
    rw [this]
    simp only [max_le_iff, List.mem_cons, forall_eq_or_imp, and_assoc]

theorem kbiTrace_mono {q : QOpts} (hom : q.om = .WRAP) (htr : q.trainable = true) (hic : q.ic = none) (c : KBIState) (hb : 0 < c.b)
    (bs bs' : List (List ℚ)) : (kbiTrace q c bs).i ≤ (kbiTrace q c (bs ++ bs')).i := by
  rw [kbiTrace_bits hom htr hic c hb]
  have := (kbiTrace_bits hom htr hic c hb (bs ++ bs') _).1 le_rfl
  exact ⟨this.1, fun b hb => this.2 b (List.mem_append_left _ hb)⟩

/-! ## A settled pass -/

theorem settled_core (net : Net) (st : NetState) (batches : List (List Tensor)) (M : ℤ)
    (hM : ∀ s, Adapts (net.slots s) → ∀ n : ℤ, n ≤ M → (n : ℚ) ≤ applyC (net.slots s).q.ic n)
    (hkbi : KbiOk net st) (hfed : ∀ p ∈ traceFeeds net st batches, Adapts (net.slots p.1) → FedOk (net.slots p.1) (st p.1) M p.2)
    (hset : Settled net st (net.traceLoop st batches).1) :
    (net.traceLoop st batches).2 = batches.map fun b => (net.call .false (net.traceLoop st batches).1 b).env := by
  refine pass_core net st batches M hM hkbi hfed fun l1 p l2 h ha j c hc => ?_
  obtain ⟨hic, hb, hb'⟩ := hkbi p.1 ha j c hc
  have hs := hset p.1 ha j c hc
  rw [loop_cells] at hs
  have e2 : cellsAfter net p.1 (traceFeeds net st batches) (st p.1) j = _ := step_fold_kbi (net.slots p.1) (fedTo p.1 (traceFeeds net st batches)) (st p.1) j c hc
  have e3 : cellsAfter net p.1 (l1 ++ [p]) (st p.1) j = _ := step_fold_kbi (net.slots p.1) (fedTo p.1 (l1 ++ [p])) (st p.1) j c hc
  rw [e2] at hs ⊢
  rw [e3]
  simp only [intBits] at hs ⊢
  rw [hs]
  have hsplit : fedTo p.1 (traceFeeds net st batches) = fedTo p.1 (l1 ++ [p]) ++ fedTo p.1 l2 := by
    rw [h]; simp [fedTo, List.filter_append]
  rw [hsplit, List.map_append] at hs
  have hm := kbiTrace_mono ha.1 ha.2 hic c (by omega) ((fedTo p.1 (l1 ++ [p])).map fun x => (fibre (net.slots p.1).hm x.shape j).map x.val)
    ((fedTo p.1 l2).map fun x => (fibre (net.slots p.1).hm x.shape j).map x.val)
  have h0 := ((kbiTrace_bits ha.1 ha.2 hic c (by omega) ((fedTo p.1 (l1 ++ [p])).map fun x => (fibre (net.slots p.1).hm x.shape j).map x.val) _).1 le_rfl).1
  rw [hs] at hm
  omega

/-- **C90, settled calibration**: if a call of `trace_minmax(reset=False)` leaves the integer bits of the kbi quantizers as they were, the
model now computes on every batch, at every node, exactly the values of that call: nothing overflows on the calibration data.  Any graph,
shared quantizers, kif and kbi mixed. -/
theorem C90_settled (net : Net) (st : NetState) (batches : List (List Tensor)) (M : ℤ)
    (hM : ∀ s, Adapts (net.slots s) → ∀ n : ℤ, n ≤ M → (n : ℚ) ≤ applyC (net.slots s).q.ic n)
    (hkbi : KbiOk net st) (hfed : ∀ p ∈ traceFeeds net st batches, Adapts (net.slots p.1) → FedOk (net.slots p.1) (st p.1) M p.2)
    (hset : Settled net st (net.traceMinmax false st batches).1) :
    (net.traceMinmax false st batches).2 = batches.map fun b => (net.call .false (net.traceMinmax false st batches).1 b).env := by
  simp only [Net.traceMinmax, Bool.false_eq_true, if_false] at *
  exact settled_core net st batches M hM hkbi hfed hset

/-! ## Every kbi quantizer called once -/

theorem log_slots (net : Net) (fl : Flag) (nodes : List NetNode) (r : NetRun) (s : ℕ) :
    ((nodes.foldl (net.step fl) r).log.countP fun p => p.1 = s) = (r.log.countP fun p => p.1 = s) +
      nodes.countP fun n => match n with
        | .op _ => false
        | .quant s' _ => s' = s := by
  induction nodes generalizing r with
  | nil => simp
  | cons n nodes ih =>
    rw [List.foldl_cons, ih]
    cases n with
    | op f => simp [Net.step]
    | quant s' src =>
      simp only [Net.step, List.countP_append, List.countP_cons, List.countP_nil]
      omega

/-- **C90, one batch**: after `trace_minmax` on a single batch (e.g. all data at once), with or without reset, the model computes on that
batch at every node exactly the traced values, if no kbi quantizer is called twice in a forward pass. -/
theorem C90_one_batch (net : Net) (st : NetState) (reset : Bool) (batch : List Tensor) (M : ℤ)
    (hM : ∀ s, Adapts (net.slots s) → ∀ n : ℤ, n ≤ M → (n : ℚ) ≤ applyC (net.slots s).q.ic n)
    (hkbi : KbiOk net st) (honce : ∀ s, HasKbi net st s → callsOf net s ≤ 1)
    (hfed : ∀ p ∈ (net.call .tracing (if reset then net.reset st else st) batch).log, Adapts (net.slots p.1) →
      FedOk (net.slots p.1) (st p.1) M p.2) :
    let t := net.traceMinmax reset st [batch]
    t.2 = [(net.call .false t.1 batch).env] := by
  intro t
  set st0 := if reset then net.reset st else st with hst0
  have hres : ∀ s j c, st0 s j = .kbi c → ∃ c0, st s j = .kbi c0 ∧ (Adapts (net.slots s) → c.bw = c0.bw) := by
    intro s j c h
    rw [hst0] at h
    cases reset with
    | false => exact ⟨c, h, fun _ => rfl⟩
    | true =>
      simp only [Net.reset, if_true] at h
      cases hc : st s j with
      | kif c' => rw [hc] at h; simp at h
      | kbi c' =>
        rw [hc] at h
        simp only [SlotState.kbi.injEq] at h
        refine ⟨c', rfl, fun ha => ?_⟩
        rw [← h, kbiReset, if_pos ⟨ha.1, ha.2⟩]
  have hresf : ∀ s j c, st0 s j = .kif c → ∃ c0, st s j = .kif c0 ∧ (Adapts (net.slots s) → c.fw = c0.fw) := by
    intro s j c h
    rw [hst0] at h
    cases reset with
    | false => exact ⟨c, h, fun _ => rfl⟩
    | true =>
      simp only [Net.reset, if_true] at h
      cases hc : st s j with
      | kbi c' => rw [hc] at h; simp at h
      | kif c' =>
        rw [hc] at h
        simp only [SlotState.kif.injEq] at h
        refine ⟨c', rfl, fun ha => ?_⟩
        rw [← h, kifReset, if_pos ⟨ha.1, ha.2⟩]
  have hfeeds : traceFeeds net st0 [batch] = (net.call .tracing st0 batch).log := by simp [traceFeeds]
  have := pass_core net st0 [batch] M hM (fun s ha j c h => ?_) (fun p hp ha => ?_) (fun l1 p l2 h ha j c hc => ?_)
  · exact this
  · obtain ⟨c0, h1, h2⟩ := hres s j c h
    have := hkbi s ha j c0 h1
    simpa only [KBIState.b, h2 ha] using this
  · have h := hfed p (by rw [← hfeeds]; exact hp) ha
    refine ⟨h.shape, fun idx hidx c hc => ?_⟩
    obtain ⟨c0, h1, h2⟩ := hresf p.1 _ c hc
    have := h.fits idx hidx c0 h1
    simpa only [KIFState.f, h2 ha] using this
  · obtain ⟨c0, h1, -⟩ := hres p.1 j c hc
    have h3 := honce p.1 ⟨ha, j, c0, h1⟩
    have hcount := log_slots net .tracing net.nodes ⟨batch, st0, []⟩ p.1
    simp only [List.countP_nil, Nat.zero_add] at hcount
    have hcount' : ((traceFeeds net st0 [batch]).countP fun q => q.1 = p.1) ≤ 1 := by
      rw [hfeeds]; exact le_of_eq_of_le hcount h3
    have hl2 : (l2.filter fun q => q.1 = p.1) = [] := by
      rw [h] at hcount'
      simp only [List.countP_append, List.countP_cons, decide_true, if_true] at hcount'
      rw [← List.length_eq_zero_iff, ← List.countP_eq_length_filter]
      omega
    rw [h, show l1 ++ p :: l2 = (l1 ++ [p]) ++ l2 by simp, cellsAfter_append net p.1 (l1 ++ [p]) l2]
    simp only [cellsAfter, hl2, List.map_nil, List.foldl_nil]

/-! ## Repeating the pass settles the model -/

/-- Cells that behave alike while tracing: everything but the sign, and the integer bits of kif. -/
def ObsEq (n : QSlot) (a b : SlotState) : Prop :=
  (Adapts n → match a, b with
    | .kif c, .kif c' => c.fw = c'.fw
    | .kbi c, .kbi c' => c.bw = c'.bw ∧ c.i = c'.i
    | _, _ => False) ∧ (¬ Adapts n → a = b)

theorem ObsEq.rfl' (n : QSlot) (a : SlotState) : ObsEq n a a := by
  refine ⟨fun _ => ?_, fun _ => rfl⟩
  cases a <;> simp

theorem ObsEq.out {n : QSlot} {st st' : List ℕ → SlotState} (hic : Adapts n → n.q.ic = none ∨ ∀ j c, st j ≠ .kbi c)
    (h : ∀ j, ObsEq n (st j) (st' j)) (x : Tensor) : n.out .tracing x st = n.out .tracing x st' := by
  unfold QSlot.out
  congr 1
  funext idx
  split_ifs
  · set j := bcastIdx n.ws idx
    by_cases ha : Adapts n
    · have hj := (h j).1 ha
      cases hc : st j with
      | kif c =>
        cases hc' : st' j with
        | kif c' =>
          rw [hc, hc'] at hj
          rw [slotOut_tracing ha, slotOut_tracing ha]
          simp only at hj
          simp only [KIFState.f, hj]
        | kbi c' => rw [hc, hc'] at hj; exact hj.elim
      | kbi c =>
        cases hc' : st' j with
        | kif c' => rw [hc, hc'] at hj; exact hj.elim
        | kbi c' =>
          rw [hc, hc'] at hj
          simp only at hj
          have hcond : n.q.om = .WRAP ∧ n.q.trainable = true ∧ (Flag.tracing.truthy || Flag.tracing.eqTracing) = true := ⟨ha.1, ha.2, rfl⟩
          have e : c.b = c'.b := by simp only [KBIState.b, hj.1]
          simp only [slotOut, if_pos hcond]
          congr 1
          simp only [kbiCall, ha.1, ha.2, and_self, if_true, Flag.truthy, Flag.eqTracing, Bool.false_or, Bool.false_eq_true, if_false, KBIState.f,
            KBIState.i, KBIState.b] at *
          simp only [hj.1, hj.2]
    · rw [(h j).2 ha]
  · rfl

/-- The sequence of tracing calls with the batches `B 0, B 1, …`. -/
def tau (net : Net) (B : ℕ → List Tensor) (st : NetState) : ℕ → NetState
  | 0 => st
  | c + 1 => (net.call .tracing (tau net B st c) (B c)).st

theorem tau_loop (net : Net) (B : ℕ → List Tensor) (st : NetState) (bs : List (List Tensor)) (c : ℕ)
    (h : ∀ k (hk : k < bs.length), B (c + k) = bs[k]) : (net.traceLoop (tau net B st c) bs).1 = tau net B st (c + bs.length) := by
  induction bs generalizing c with
  | nil => rfl
  | cons b bs ih =>
    have h0 := h 0 (by simp)
    simp only [Nat.add_zero, List.getElem_cons_zero] at h0
    simp only [Net.traceLoop, List.length_cons]
    rw [← h0, show (net.call .tracing (tau net B st c) (B c)).st = tau net B st (c + 1) from rfl, ih (c + 1) (fun k hk => ?_)]
    · congr 1; omega
    · have := h (k + 1) (by simpa using hk)
      rw [show c + 1 + k = c + (k + 1) by omega, this]
      simp

theorem passes_tau (net : Net) (bs : List (List Tensor)) (hbs : bs ≠ []) (st : NetState) (n m : ℕ) :
    passes net bs n (tau net (fun c => bs.getD (c % bs.length) []) st (m * bs.length)) =
      tau net (fun c => bs.getD (c % bs.length) []) st ((m + n) * bs.length) := by
  have hpos : 0 < bs.length := List.length_pos_iff.2 hbs
  induction n generalizing m with
  | zero => simp [passes]
  | succ n ih =>
    simp only [passes, Net.traceMinmax, Bool.false_eq_true, if_false]
    rw [tau_loop net _ st bs (m * bs.length) (fun k hk => ?_)]
    · rw [show m * bs.length + bs.length = (m + 1) * bs.length by ring, ih (m + 1)]
      congr 2; omega
    · have : (m * bs.length + k) % bs.length = k := by
        rw [Nat.add_comm, Nat.add_mul_mod_self_right, Nat.mod_eq_of_lt hk]
      simp only [this]
      rw [List.getD_eq_getElem?_getD, List.getElem?_eq_getElem hk]
      rfl

/-- The node calls slot `s`. -/
def nodeCalls (s : ℕ) : NetNode → Bool
  | .op _ => false
  | .quant s' _ => s' = s

theorem callsOf_eq (net : Net) (s : ℕ) : callsOf net s = net.nodes.countP (nodeCalls s) := by
  unfold callsOf
  congr 1

theorem untouched (net : Net) (fl : Flag) (nodes : List NetNode) (r : NetRun) (s : ℕ) (h : nodes.countP (nodeCalls s) = 0) :
    (nodes.foldl (net.step fl) r).st s = r.st s := by
  induction nodes generalizing r with
  | nil => rfl
  | cons n nodes ih =>
    rw [List.countP_cons] at h
    rw [List.foldl_cons, ih _ (by omega)]
    cases n with
    | op f => rfl
    | quant s' src =>
      simp only [Net.step]
      rw [Function.update_of_ne]
      rintro rfl
      simp [nodeCalls] at h

/-- One tracing step changes a cell by `kifCall`/`kbiCall`; its type, `f` (kif) and `b` (kbi) stay, `i` of kbi grows. -/
theorem step_obs (n : QSlot) (x : Tensor) (st : List ℕ → SlotState) (j : List ℕ) :
    (¬ Adapts n → n.step .tracing x st j = st j) ∧
    (Adapts n → ∀ c, st j = .kif c → ∃ c', n.step .tracing x st j = .kif c' ∧ c'.fw = c.fw) ∧
    (Adapts n → n.q.ic = none → ∀ c, st j = .kbi c → 0 < c.b → ∃ c', n.step .tracing x st j = .kbi c' ∧ c'.bw = c.bw ∧
      c'.i = max c.i (needB c.b (absmax ((fibre n.hm x.shape j).map x.val)))) := by
  refine ⟨fun h => slotStep_static h _ _ _, fun ha c hc => ?_, fun ha hic c hc hb => ?_⟩
  · exact ⟨_, by rw [QSlot.step, hc]; rfl, (kifCall_tracing' ha c _).2⟩
  · refine ⟨_, by rw [QSlot.step, hc]; rfl, (kbiCall_tracing_props ha.1 ha.2 c hb hic _).1, ?_⟩
    rw [kbiCall_tracing ha.1 ha.2 c hb hic]
    simp only [KBIState.i, roundHalfEven_int]

theorem ObsEq.symm {n : QSlot} {a b : SlotState} (h : ObsEq n a b) : ObsEq n b a := by
  refine ⟨fun ha => ?_, fun ha => (h.2 ha).symm⟩
  have := h.1 ha
  cases a <;> cases b <;> simp_all

theorem ObsEq.trans {n : QSlot} {a b c : SlotState} (h : ObsEq n a b) (h' : ObsEq n b c) : ObsEq n a c := by
  refine ⟨fun ha => ?_, fun ha => (h.2 ha).trans (h'.2 ha)⟩
  have h1 := h.1 ha
  have h2 := h'.1 ha
  cases a <;> cases b <;> cases c <;> simp_all

/-- What tracing never changes: type of the cell, `f` of kif and `b` of kbi. -/
def KindEq (n : QSlot) (a b : SlotState) : Prop :=
  (Adapts n → match a, b with
    | .kif c, .kif c' => c.fw = c'.fw
    | .kbi c, .kbi c' => c.bw = c'.bw
    | _, _ => False) ∧ (¬ Adapts n → a = b)

theorem KindEq.rfl' (n : QSlot) (a : SlotState) : KindEq n a a := by
  refine ⟨fun _ => ?_, fun _ => rfl⟩
  cases a <;> simp

theorem KindEq.trans {n : QSlot} {a b c : SlotState} (h : KindEq n a b) (h' : KindEq n b c) : KindEq n a c := by
  refine ⟨fun ha => ?_, fun ha => (h.2 ha).trans (h'.2 ha)⟩
  have h1 := h.1 ha
  have h2 := h'.1 ha
  cases a <;> cases b <;> cases c <;> simp_all

theorem KindEq.step (n : QSlot) (x : Tensor) (st : List ℕ → SlotState) (j : List ℕ) : KindEq n (st j) (n.step .tracing x st j) := by
  refine ⟨fun ha => ?_, fun ha => ((step_obs n x st j).1 ha).symm⟩
  simp only [QSlot.step]
  cases hc : st j with
  | kif c => exact (kifCall_tracing' ha c _).2.symm
  | kbi c => simp [slotStep, kbiCall, ha.1, ha.2, Flag.truthy, Flag.eqTracing]

theorem KindEq.fold (net : Net) (nodes : List NetNode) (r : NetRun) (s : ℕ) (j : List ℕ) :
    KindEq (net.slots s) (r.st s j) ((nodes.foldl (net.step .tracing) r).st s j) := by
  induction nodes generalizing r with
  | nil => exact KindEq.rfl' _ _
  | cons n nodes ih =>
    rw [List.foldl_cons]
    refine KindEq.trans ?_ (ih _)
    cases n with
    | op f => exact KindEq.rfl' _ _
    | quant s' src =>
      simp only [Net.step]
      by_cases hs : s = s'
      · subst hs; rw [Function.update_self]; exact KindEq.step _ _ _ _
      · rw [Function.update_of_ne hs]; exact KindEq.rfl' _ _

theorem KindEq.tau (net : Net) (B : ℕ → List Tensor) (st : NetState) (c s : ℕ) (j : List ℕ) :
    KindEq (net.slots s) (st s j) (tau net B st c s j) := by
  induction c with
  | zero => exact KindEq.rfl' _ _
  | succ c ih => exact ih.trans (KindEq.fold net net.nodes ⟨B c, HGQ.tau net B st c, []⟩ s j)

theorem KindEq.obs {n : QSlot} {a b : SlotState} (h : KindEq n a b) (hk : Adapts n → ∀ c, a ≠ .kbi c) : ObsEq n a b := by
  refine ⟨fun ha => ?_, h.2⟩
  have h1 := h.1 ha
  have h2 := hk ha
  cases a <;> cases b <;> simp_all

/-- The settling argument: after `m` passes the first `m` kbi quantizers, and everything computed up to there, no longer change. -/
theorem settle (net : Net) (st : NetState) (bs : List (List Tensor)) (hbs : bs ≠ []) (K : ℕ → Bool)
    (hK : ∀ s, K s = false → ¬ HasKbi net st s) (honce : ∀ s, K s = true → callsOf net s ≤ 1) (hkbi : KbiOk net st)
    (pre post : List NetNode) (hnodes : net.nodes = pre ++ post) :
    let B := fun c => bs.getD (c % bs.length) []
    (∃ E : List Tensor → List Tensor, ∀ c, callsIn K pre * bs.length ≤ c →
      (pre.foldl (net.step .tracing) ⟨B c, tau net B st c, []⟩).env = E (B c)) ∧
    ∀ s, pre.countP (nodeCalls s) ≠ 0 → ∀ c, callsIn K pre * bs.length ≤ c → ∀ j,
      ObsEq (net.slots s) (tau net B st (callsIn K pre * bs.length) s j) (tau net B st c s j) := by
  intro B
  have hpos : 0 < bs.length := List.length_pos_iff.2 hbs
  induction pre using List.reverseRecOn generalizing post with
  | nil => exact ⟨⟨fun b => b, fun c _ => rfl⟩, fun s h => absurd rfl h⟩
  | append_singleton pre n ih =>
    obtain ⟨⟨E, hE⟩, hO⟩ := ih (n :: post) (by simpa using hnodes)
    have hcalls : callsIn K (pre ++ [n]) = callsIn K pre + callsIn K [n] := by simp only [callsIn, List.countP_append]
    cases n with
    | op f =>
      have h0 : callsIn K (pre ++ [.op f]) = callsIn K pre := by rw [hcalls]; simp [callsIn]
      rw [h0]
      refine ⟨⟨fun b => E b ++ [f (E b)], fun c hc => ?_⟩, fun s hs => hO s (by simpa [List.countP_append, nodeCalls] using hs)⟩
      rw [List.foldl_append]
      simp only [List.foldl_cons, List.foldl_nil, Net.step, hE c hc]
    | quant s src =>
      by_cases hKs : K s = true
      · -- a kbi quantizer, called only here
        have h0 : callsIn K (pre ++ [.quant s src]) = callsIn K pre + 1 := by rw [hcalls]; simp [callsIn, hKs]
        rw [h0]
        set m := callsIn K pre with hm
        have hone := honce s hKs
        rw [callsOf_eq, hnodes] at hone
        simp only [List.countP_append, List.countP_cons, List.countP_nil, nodeCalls, decide_true, if_true] at hone
        have hpre0 : pre.countP (nodeCalls s) = 0 := by omega
        have hpost0 : post.countP (nodeCalls s) = 0 := by omega
        have hle : ∀ c, (m + 1) * bs.length ≤ c → m * bs.length ≤ c := fun c h =>
          le_trans (Nat.mul_le_mul_right _ (Nat.le_succ _)) h
        have hstep : ∀ c, m * bs.length ≤ c → tau net B st (c + 1) s =
            (net.slots s).step .tracing ((E (B c)).getD src ⟨[], fun _ => 0⟩) (tau net B st c s) := by
          intro c hc
          have h1 : tau net B st (c + 1) s = ((net.nodes.foldl (net.step .tracing) ⟨B c, tau net B st c, []⟩).st) s := rfl
          rw [h1, hnodes, List.foldl_append, untouched _ _ _ _ _ hpost0, List.foldl_append]
          simp only [List.foldl_cons, List.foldl_nil, Net.step, Function.update_self]
          rw [hE c hc, untouched _ _ _ _ _ hpre0]
        have hcell : ∀ c, (m + 1) * bs.length ≤ c → ∀ j, ObsEq (net.slots s) (tau net B st ((m + 1) * bs.length) s j) (tau net B st c s j) := by
          intro c hc j
          by_cases ha : Adapts (net.slots s)
          · cases hs0 : st s j with
            | kif c0 =>
              have k1 := KindEq.tau net B st ((m + 1) * bs.length) s j
              have k2 := KindEq.tau net B st c s j
              have ne : Adapts (net.slots s) → ∀ c, st s j ≠ .kbi c := by intro _ c; rw [hs0]; simp
              exact (k1.obs ne).symm.trans (k2.obs ne)
            | kbi c0 =>
              obtain ⟨hic, hb, -⟩ := hkbi s ha j c0 hs0
              -- the bits as a sequence
              have hcell : ∀ c, ∃ c', tau net B st c s j = .kbi c' ∧ c'.bw = c0.bw := by
                intro c
                have := (KindEq.tau net B st c s j).1 ha
                rw [hs0] at this
                cases h' : tau net B st c s j with
                | kif c' => rw [h'] at this; exact this.elim
                | kbi c' => rw [h'] at this; exact ⟨c', rfl, this.symm⟩
              set need : ℕ → ℤ := fun c => needB c0.b (absmax ((fibre (net.slots s).hm ((E (B c)).getD src ⟨[], fun _ => 0⟩).shape j).map
                ((E (B c)).getD src ⟨[], fun _ => 0⟩).val)) with hneed
              have hnext : ∀ c, m * bs.length ≤ c → intBits (tau net B st (c + 1) s j) = max (intBits (tau net B st c s j)) (need c) := by
                intro c hc
                obtain ⟨c', h1, h2⟩ := hcell c
                have hb' : c'.b = c0.b := by simp only [KBIState.b, h2]
                obtain ⟨c'', h3, h4, h5⟩ := (step_obs (net.slots s) ((E (B c)).getD src ⟨[], fun _ => 0⟩) (tau net B st c s) j).2.2 ha hic c' h1
                  (by omega)
                rw [hstep c hc, h3, h1]
                simp only [intBits, h5, hneed, hb']
              have hmono : ∀ c d, m * bs.length ≤ c → c ≤ d → intBits (tau net B st c s j) ≤ intBits (tau net B st d s j) := by
                intro c d hc hd
                induction d, hd using Nat.le_induction with
                | base => exact le_rfl
                | succ d hd ih => rw [hnext d (hc.trans hd)]; exact ih.trans (le_max_left _ _)
              have hcover : ∀ c, need c ≤ intBits (tau net B st ((m + 1) * bs.length) s j) := by
                intro c
                have hlt := Nat.mod_lt c hpos
                have hB : B (m * bs.length + c % bs.length) = B c := by
                  simp only [B]
                  rw [Nat.add_comm, Nat.add_mul_mod_self_right, Nat.mod_mod]
                have h1 := hnext (m * bs.length + c % bs.length) (Nat.le_add_right _ _)
                have h2 := hmono (m * bs.length + c % bs.length + 1) ((m + 1) * bs.length) (by omega) (by rw [Nat.succ_mul]; omega)
                have h3 : need (m * bs.length + c % bs.length) = need c := by simp only [hneed, hB]
                rw [h1, h3] at h2
                exact (le_max_right _ _).trans h2
              have hconst : intBits (tau net B st c s j) = intBits (tau net B st ((m + 1) * bs.length) s j) := by
                induction c, hc using Nat.le_induction with
                | base => rfl
                | succ d hd ih => rw [hnext d (hle d hd), ih, max_eq_left (hcover d)]
              obtain ⟨c1, h1, h2⟩ := hcell ((m + 1) * bs.length)
              obtain ⟨c2, h3, h4⟩ := hcell c
              rw [h1, h3] at hconst ⊢
              refine ⟨fun _ => ⟨h2.trans h4.symm, ?_⟩, fun hn => absurd ha hn⟩
              exact hconst.symm
          · have k1 := (KindEq.tau net B st ((m + 1) * bs.length) s j).2 ha
            have k2 := (KindEq.tau net B st c s j).2 ha
            rw [← k1, ← k2]; exact ObsEq.rfl' _ _
        refine ⟨⟨fun b => E b ++ [(net.slots s).out .tracing ((E b).getD src ⟨[], fun _ => 0⟩) (tau net B st ((m + 1) * bs.length) s)], fun c hc => ?_⟩, ?_⟩
        · rw [List.foldl_append]
          simp only [List.foldl_cons, List.foldl_nil, Net.step]
          rw [hE c (hle c hc), untouched _ _ _ _ _ hpre0]
          congr 2
          refine (ObsEq.out (fun ha => ?_) (hcell c hc) _).symm
          by_cases hex : ∃ j c, tau net B st ((m + 1) * bs.length) s j = .kbi c
          · obtain ⟨j, c1, h1⟩ := hex
            have := (KindEq.tau net B st ((m + 1) * bs.length) s j).1 ha
            rw [h1] at this
            cases hs0 : st s j with
            | kif c0 => rw [hs0] at this; exact this.elim
            | kbi c0 => exact Or.inl (hkbi s ha j c0 hs0).1
          · push Not at hex
            exact Or.inr hex
        · intro s' hs' c hc j
          by_cases hss : s' = s
          · subst hss; exact hcell c hc j
          · have hss' : s ≠ s' := fun h => hss h.symm
            have hp : pre.countP (nodeCalls s') ≠ 0 := by
              simpa [List.countP_append, List.countP_cons, nodeCalls, hss'] using hs'
            exact (hO s' hp _ (hle _ le_rfl) j).symm.trans (hO s' hp c (hle c hc) j)
      · -- not an adapting kbi quantizer: alike in every state
        have hKs' : K s = false := by simpa using hKs
        have h0 : callsIn K (pre ++ [.quant s src]) = callsIn K pre := by rw [hcalls]; simp [callsIn, hKs']
        rw [h0]
        have hno : ∀ j, Adapts (net.slots s) → ∀ c, st s j ≠ .kbi c := fun j ha c h => hK s hKs' ⟨ha, j, c, h⟩
        refine ⟨⟨fun b => E b ++ [(net.slots s).out .tracing ((E b).getD src ⟨[], fun _ => 0⟩) (st s)], fun c hc => ?_⟩, ?_⟩
        · rw [List.foldl_append]
          simp only [List.foldl_cons, List.foldl_nil, Net.step]
          rw [hE c hc]
          congr 2
          refine (ObsEq.out (fun ha => Or.inr fun j c => hno j ha c) (fun j => ?_) _).symm
          exact ((KindEq.tau net B st c s j).trans (KindEq.fold net pre ⟨B c, tau net B st c, []⟩ s j)).obs (hno j)
        · intro s' hs' c hc j
          by_cases hss : s' = s
          · subst hss
            exact ((KindEq.tau net B st _ s' j).obs (hno j)).symm.trans ((KindEq.tau net B st c s' j).obs (hno j))
          · have hss' : s ≠ s' := fun h => hss h.symm
            have hp : pre.countP (nodeCalls s') ≠ 0 := by
              simpa [List.countP_append, List.countP_cons, nodeCalls, hss'] using hs'
            exact hO s' hp c hc j

theorem tau_untouched (net : Net) (B : ℕ → List Tensor) (st : NetState) (s : ℕ) (h : net.nodes.countP (nodeCalls s) = 0) (c : ℕ) :
    tau net B st c s = st s := by
  induction c with
  | zero => rfl
  | succ c ih => exact (untouched net .tracing net.nodes ⟨B c, tau net B st c, []⟩ s h).trans ih

/-- **C90, termination**: repeating `trace_minmax(reset=False)` settles every model in which no adapting kbi quantizer is shared: from the
`n`-th repetition on, `n` the number of calls of kbi quantizers in the model, integer bits of kbi quantizers do not change any more —
whatever the operations in between do. -/
theorem C90_passes_settle (net : Net) (st : NetState) (batches : List (List Tensor)) (K : ℕ → Bool)
    (hK : ∀ s, HasKbi net st s → K s = true) (honce : ∀ s, K s = true → callsOf net s ≤ 1) (hkbi : KbiOk net st)
    (n : ℕ) (hn : callsIn K net.nodes ≤ n) :
    Settled net (passes net batches n st) (net.traceMinmax false (passes net batches n st) batches).1 := by
  by_cases hbs : batches = []
  · subst hbs
    intro s _ j c hc
    simp only [Net.traceMinmax, Net.traceLoop, Bool.false_eq_true, if_false, hc, intBits]
  · set B := fun c => batches.getD (c % batches.length) [] with hB
    have hp : ∀ k, passes net batches k st = tau net B st (k * batches.length) := by
      intro k
      have := passes_tau net batches hbs st k 0
      simp only [Nat.zero_mul, Nat.zero_add] at this
      exact this
    have hnext : (net.traceMinmax false (passes net batches n st) batches).1 = tau net B st ((n + 1) * batches.length) := by
      rw [← hp (n + 1)]
      have h : ∀ k st, passes net batches (k + 1) st = (net.traceMinmax false (passes net batches k st) batches).1 := by
        intro k
        induction k with
        | zero => intro st; rfl
        | succ k ih => intro st; rw [passes, ih]; rfl
      rw [h]
    rw [hnext, hp n]
    intro s ha j c hc
    by_cases h0 : net.nodes.countP (nodeCalls s) = 0
    · rw [tau_untouched net B st s h0] at *
      rw [hc]; rfl
    · have hs := (settle net st batches hbs K (fun s h h' => by rw [hK s h'] at h; simp at h) honce hkbi net.nodes [] (by simp)).2 s h0
      have h1 := hs (n * batches.length) (Nat.mul_le_mul_right _ hn) j
      have h2 := hs ((n + 1) * batches.length) (Nat.mul_le_mul_right _ (by omega)) j
      have h3 := (h1.symm.trans h2).1 ha
      change match tau net B st (n * batches.length) s j, tau net B st ((n + 1) * batches.length) s j with
        | .kif c, .kif c' => c.fw = c'.fw
        | .kbi c, .kbi c' => c.bw = c'.bw ∧ c.i = c'.i
        | _, _ => False at h3
      rw [hc] at h3
      cases h' : tau net B st ((n + 1) * batches.length) s j with
      | kif c' => rw [h'] at h3; exact h3.elim
      | kbi c' => rw [h'] at h3; exact h3.2.symm

theorem kbiOk_of_kind {net : Net} {st st' : NetState} (h : KbiOk net st) (hk : ∀ s j, KindEq (net.slots s) (st s j) (st' s j)) :
    KbiOk net st' := by
  intro s ha j c hc
  have := (hk s j).1 ha
  rw [hc] at this
  cases h0 : st s j with
  | kif c0 => rw [h0] at this; exact this.elim
  | kbi c0 =>
    rw [h0] at this
    have := h s ha j c0 h0
    simp_all [KBIState.b]

/-- **C90 for kbi and mixed models**: after any tracing followed by as many further `trace_minmax(reset=False)` as the model has calls of
adapting kbi quantizers, one more call returns exactly what the calibrated model computes on the calibration data — no quantizer
overflows on it. -/
theorem C90_calibrated_by_passes (net : Net) (st : NetState) (batches : List (List Tensor)) (K : ℕ → Bool) (M : ℤ)
    (hM : ∀ s, Adapts (net.slots s) → ∀ n : ℤ, n ≤ M → (n : ℚ) ≤ applyC (net.slots s).q.ic n)
    (hK : ∀ s, HasKbi net st s → K s = true) (honce : ∀ s, K s = true → callsOf net s ≤ 1) (hkbi : KbiOk net st)
    (n : ℕ) (hn : callsIn K net.nodes ≤ n)
    (hfed : ∀ p ∈ traceFeeds net (passes net batches n st) batches, Adapts (net.slots p.1) →
      FedOk (net.slots p.1) (passes net batches n st p.1) M p.2) :
    let t := net.traceMinmax false (passes net batches n st) batches
    t.2 = batches.map fun b => (net.call .false t.1 b).env := by
  refine C90_settled net _ batches M hM ?_ hfed (C90_passes_settle net st batches K hK honce hkbi n hn)
  by_cases hbs : batches = []
  · have : ∀ n st, passes net batches n st = st := by
      intro n
      induction n with
      | zero => intro st; rfl
      | succ n ih => intro st; rw [passes, ih, hbs]; rfl
    rw [this]; exact hkbi
  · have := passes_tau net batches hbs st n 0
    simp only [Nat.zero_mul, Nat.zero_add] at this
    rw [show passes net batches n st = _ from this]
    exact kbiOk_of_kind hkbi fun s j => KindEq.tau net _ st _ s j

/-! ## The hypotheses can be met, and are needed -/

/-- The model of `C90_kbi_violated`: one kbi call, so one repetition settles it; the calibrated model then no longer wraps. -/
example : (∀ s, Adapts (twoNet.slots s) → ∀ n : ℤ, n ≤ 8 → (n : ℚ) ≤ applyC (twoNet.slots s).q.ic n) ∧
    (∀ s, HasKbi twoNet kbiState s → decide (s = 0) = true) ∧ (∀ s, decide (s = 0) = true → callsOf twoNet s ≤ 1) ∧
    KbiOk twoNet kbiState ∧ callsIn (fun s => decide (s = 0)) twoNet.nodes = 1 := by
  refine ⟨fun s _ n _ => ?_, fun s h => ?_, fun s h => ?_, fun s _ j c h => ?_, rfl⟩
  · have : (twoNet.slots s).q.ic = none := by simp [twoNet, adaptQ]
    rw [this]; exact le_refl _
  · obtain ⟨-, j, c, h⟩ := h
    by_contra hs
    simp only [decide_eq_true_eq] at hs
    simp [kbiState, hs] at h
  · simp only [decide_eq_true_eq] at h
    subst h; decide
  · have hic : (twoNet.slots s).q.ic = none := by simp [twoNet, adaptQ]
    refine ⟨hic, ?_⟩
    by_cases hs : s = 0
    · simp only [kbiState, hs, if_true, SlotState.kbi.injEq] at h
      subst h
      decide +kernel
    · simp [kbiState, hs] at h

example : let st := passes twoNet [[pairT (4/5) 0], [pairT 0 7]] 1 (twoNet.traceMinmax true kbiState [[pairT (4/5) 0], [pairT 0 7]]).1
    let t := twoNet.traceMinmax false st [[pairT (4/5) 0], [pairT 0 7]]
    (∀ p ∈ traceFeeds twoNet st [[pairT (4/5) 0], [pairT 0 7]], ∀ idx ∈ indices p.2.shape, |roundAt .RND 3 (p.2.val idx)| ≤ high 8 3) ∧
    valAt (t.2.headD []) 3 = 1 ∧ valAt (twoNet.call .false t.1 [pairT (4/5) 0]).env 3 = 1 := by
  decide +kernel

/-- One batch suffices for the same model. -/
example : (∀ s, HasKbi twoNet kbiState s → callsOf twoNet s ≤ 1) ∧
    let t := twoNet.traceMinmax true kbiState [[pairT (4/5) 7]]
    valAt (t.2.headD []) 2 = 1 ∧ valAt (twoNet.call .false t.1 [pairT (4/5) 7]).env 2 = 1 := by
  refine ⟨fun s _ => ?_, by decide +kernel⟩
  simp only [callsOf, twoNet, List.countP_cons, List.countP_nil]
  by_cases h0 : s = 0
  · subst h0; decide
  · by_cases h1 : s = 1
    · subst h1; decide
    · simp [Ne.symm h0, Ne.symm h1]

/-- A kbi quantizer used twice, with a gain of 16 in between. -/
def loopNet : Net :=
  ⟨fun _ => ⟨⟨.TRN, .WRAP, true, false, none, none⟩, [1], [0]⟩,
   [.quant 0 0, .op fun e => ⟨[1], fun _ => 16 * (e.getD 1 ⟨[], fun _ => 0⟩).val [0]⟩, .quant 0 2]⟩

/-- Its state: three bits. -/
def loopState : NetState := fun _ _ => .kbi ⟨true, 3, 0⟩

/-- The calibration data: the single value `-1`. -/
def minusOne : Tensor := ⟨[1], fun _ => -1⟩

theorem trn_minus_one (f : ℤ) : roundAt .TRN f (-1) ≤ -(2 : ℚ) ^ (-f) := by
  have h : ⌊(-1 : ℚ) * 2 ^ f⌋ ≤ -1 := by
    have : ⌊(-1 : ℚ) * 2 ^ f⌋ < 0 := by rw [Int.floor_lt]; have : (0 : ℚ) < 2 ^ f := by positivity
                                        push_cast; linarith
    omega
  have h' : ((⌊(-1 : ℚ) * 2 ^ f⌋ : ℤ) : ℚ) ≤ -1 := by exact_mod_cast h
  have hp : (0 : ℚ) < 2 ^ (-f) := by positivity
  have e : roundAt .TRN f (-1) = (⌊(-1 : ℚ) * 2 ^ f⌋ : ℤ) * 2 ^ (-f) := by
    simp only [roundAt, roundMant]
  rw [e]
  nlinarith

theorem loop_call (st : NetState) (c : KBIState) (hc : st 0 [0] = .kbi c) (hb : c.bw = 3) :
    ∃ c', (loopNet.call .tracing st [minusOne]).st 0 [0] = .kbi c' ∧ c'.bw = 3 ∧ c.i + 1 ≤ c'.i := by
  have ha : Adapts (loopNet.slots 0) := ⟨rfl, rfl⟩
  have hbb : ∀ c : KBIState, c.bw = 3 → c.b = 3 := by
    intro c h; simp only [KBIState.b, h]; decide +kernel
  set x1 := minusOne with hx1
  set o1 := (loopNet.slots 0).out .tracing x1 (st 0) with ho1
  set x2 : Tensor := ⟨[1], fun _ => 16 * o1.val [0]⟩ with hx2
  set s1 := (loopNet.slots 0).step .tracing x1 (st 0) with hs1
  have hcall : (loopNet.call .tracing st [minusOne]).st 0 = (loopNet.slots 0).step .tracing x2 s1 := by
    simp only [Net.call, loopNet, List.foldl_cons, List.foldl_nil, Net.step, Function.update_self]
    rfl
  obtain ⟨c1, h1, h2, h3⟩ := (step_obs (loopNet.slots 0) x1 (st 0) [0]).2.2 ha rfl c hc (by rw [hbb c hb]; norm_num)
  obtain ⟨c2, h4, h5, h6⟩ := (step_obs (loopNet.slots 0) x2 s1 [0]).2.2 ha rfl c1 h1 (by rw [hbb c1 (h2.trans hb)]; norm_num)
  have hb1 := hbb c1 (h2.trans hb)
  refine ⟨c2, by rw [hcall]; exact h4, h5.trans (h2.trans hb), ?_⟩
  have hfib : fibre (loopNet.slots 0).hm [1] [0] = [[0]] := by decide
  -- the output of the first call
  have hout : o1.val [0] = roundAt .TRN (3 - c1.i) (-1) := by
    have hin : [0] ∈ indices x1.shape := by decide
    have hbc : bcastIdx (loopNet.slots 0).ws [0] = [0] := by decide
    have hcond : (loopNet.slots 0).q.om = .WRAP ∧ (loopNet.slots 0).q.trainable = true ∧ (Flag.tracing.truthy || Flag.tracing.eqTracing) = true := ⟨rfl, rfl, rfl⟩
    have hcell : s1 [0] = .kbi (kbiCall (loopNet.slots 0).q c .tracing ((fibre (loopNet.slots 0).hm x1.shape [0]).map x1.val)).1 := by
      rw [hs1, QSlot.step, hc]; rfl
    rw [show s1 [0] = .kbi c1 from h1] at hcell
    have hc1 := SlotState.kbi.inj hcell
    rw [ho1]
    simp only [QSlot.out, hin, if_true, hbc, hc, slotOut]
    rw [if_pos hcond, ← hc1]
    simp only [KBIState.f, hb1]
    rfl
  have hneg := trn_minus_one (3 - c1.i)
  rw [← hout] at hneg
  have hfib2 : (fibre (loopNet.slots 0).hm x2.shape [0]).map x2.val = [16 * o1.val [0]] := by
    rw [show x2.shape = [1] from rfl, hfib]; rfl
  rw [hfib2, hb1] at h6
  have hn : needB 3 (absmax [16 * o1.val [0]]) ≤ c2.i := by rw [h6]; exact le_max_right _ _
  rw [needB_le_iff (by norm_num) (absmax_nonneg _)] at hn
  have habs : (2 : ℚ) ^ (c1.i + 1) ≤ absmax [16 * o1.val [0]] := by
    have h7 := le_absmax (xs := [16 * o1.val [0]]) (x := 16 * o1.val [0]) (by simp)
    have h8 : (2 : ℚ) ^ (c1.i + 1) = 16 * 2 ^ (-(3 - c1.i)) := by
      rw [show c1.i + 1 = 4 + (-(3 - c1.i)) by ring, zpow_add₀ (by norm_num)]; norm_num
    have h9 : 16 * (2 : ℚ) ^ (-(3 - c1.i)) ≤ |16 * o1.val [0]| := by
      rw [abs_of_neg (by have : (0 : ℚ) < 2 ^ (-(3 - c1.i)) := by positivity
                         linarith)]
      linarith
    rw [h8]; exact h9.trans h7
  have hlt : (2 : ℚ) ^ (c1.i + 1) < 2 ^ c2.i := by
    have he : (0 : ℚ) < kerasEps := by norm_num [kerasEps]
    have hp : (0 : ℚ) < 2 ^ c2.i := by positivity
    have h1 : (1 : ℚ) - 2 ^ (-3 : ℤ) + kerasEps < 1 := by norm_num [kerasEps]
    nlinarith
  have hlt' := (zpow_lt_zpow_iff_right₀ (by norm_num : (1 : ℚ) < 2)).1 hlt
  have : c.i ≤ c1.i := by rw [h3]; exact le_max_left _ _
  omega

/-- **A shared kbi quantizer need not settle**: for the model `q(16·q(x))` with one kbi quantizer `q` of three bits, rounding down, and the
single calibration value `-1`, every repetition of `trace_minmax(reset=False)` raises the integer bits: after `n` repetitions there are at
least `n` of them. -/
theorem C90_shared_kbi_violated (n : ℕ) :
    (n : ℤ) ≤ intBits (passes loopNet [[minusOne]] n loopState 0 [0]) ∧
    ¬ Settled loopNet (passes loopNet [[minusOne]] n loopState)
      (loopNet.traceMinmax false (passes loopNet [[minusOne]] n loopState) [[minusOne]]).1 := by
  have key : ∀ n st (c : KBIState), st 0 [0] = .kbi c → c.bw = 3 →
      ∃ c', passes loopNet [[minusOne]] n st 0 [0] = .kbi c' ∧ c'.bw = 3 ∧ c.i + n ≤ c'.i := by
    intro n
    induction n with
    | zero => intro st c h hb; exact ⟨c, h, hb, by simp⟩
    | succ n ih =>
      intro st c h hb
      obtain ⟨c1, h1, h2, h3⟩ := loop_call st c h hb
      obtain ⟨c2, h4, h5, h6⟩ := ih (loopNet.traceMinmax false st [[minusOne]]).1 c1 h1 h2
      exact ⟨c2, h4, h5, by push_cast; omega⟩
  obtain ⟨c, h1, h2, h3⟩ := key n loopState ⟨true, 3, 0⟩ rfl rfl
  have h0 : (⟨true, 3, 0⟩ : KBIState).i = 0 := by decide +kernel
  rw [h0] at h3
  refine ⟨by rw [h1]; simp only [intBits]; omega, fun hs => ?_⟩
  obtain ⟨c1, g1, g2, g3⟩ := loop_call _ c h1 h2
  have := hs 0 ⟨rfl, rfl⟩ [0] c h1
  rw [show (loopNet.traceMinmax false (passes loopNet [[minusOne]] n loopState) [[minusOne]]).1 0 [0] = .kbi c1 from g1] at this
  simp only [intBits] at this
  omega

end HGQ
