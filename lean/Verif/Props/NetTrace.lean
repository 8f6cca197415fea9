import Verif.Model.NetTrace
import Verif.Props.Mapper
import Mathlib.Tactic

/-! # C90: calibration of a whole model -/
namespace HGQ

namespace Spec
/-- The quantizer adapts while tracing. -/
def Adapts (n : QSlot) : Prop := n.q.om = .WRAP ∧ n.q.trainable = true

/-- All adapting quantizers are of type kif. -/
def AllKif (net : Net) (st : NetState) : Prop := ∀ s, Adapts (net.slots s) → ∀ j, ∃ c, st s j = .kif c

/-- A tensor given to a quantizer has a shape the quantizer was built for, and its rounded entries fit into `M` integer bits. -/
structure FedOk (n : QSlot) (cells : List ℕ → SlotState) (M : ℤ) (x : Tensor) : Prop where
  shape : ∃ m het, Mapper.weightShape m (x.shape.map some) = some n.ws ∧ m.resolve x.shape.length = some (het, n.hm)
  fits : ∀ idx, InRange x.shape idx → ∀ c, cells (bcastIdx n.ws idx) = .kif c → |roundAt n.q.rm c.f (x.val idx)| ≤ high M c.f
end Spec
open Spec

/-- Two states that differ only in what tracing adapts. -/
def SameF (net : Net) (st st' : NetState) : Prop := ∀ s j,
  (Adapts (net.slots s) → ∃ c c', st s j = .kif c ∧ st' s j = .kif c' ∧ c.fw = c'.fw) ∧
  (¬ Adapts (net.slots s) → st s j = st' s j)

theorem kifCall_tracing' {q : QOpts} (h : q.om = .WRAP ∧ q.trainable = true) (c : KIFState) (xs : List ℚ) :
    (kifCall q c .tracing xs).2 = xs.map (roundAt q.rm c.f) ∧ (kifCall q c .tracing xs).1.fw = c.fw := by
  constructor <;> simp [kifCall, h.1, h.2, Flag.truthy, Flag.eqTracing]

theorem kifCall_static {q : QOpts} (h : ¬ (q.om = .WRAP ∧ q.trainable = true)) (c : KIFState) (fl : Flag) (xs : List ℚ) :
    (kifCall q c fl xs).1 = c := by
  simp only [kifCall, h, if_false]

theorem kbiCall_static {q : QOpts} (h : ¬ (q.om = .WRAP ∧ q.trainable = true)) (c : KBIState) (fl : Flag) (xs : List ℚ) :
    (kbiCall q c fl xs).1 = c := by
  simp only [kbiCall, h, if_false]

theorem slotStep_static {q : QOpts} (h : ¬ (q.om = .WRAP ∧ q.trainable = true)) (c : SlotState) (fl : Flag) (xs : List ℚ) :
    slotStep q fl xs c = c := by
  cases c with
  | kif c => simp only [slotStep, kifCall_static h]
  | kbi c => simp only [slotStep, kbiCall_static h]

/-- Without adaptation, tracing and inference give the same output. -/
theorem slotOut_static {q : QOpts} (h : ¬ (q.om = .WRAP ∧ q.trainable = true)) (c : SlotState) (xs : List ℚ) (x : ℚ) :
    slotOut q .tracing xs x c = slotOut q .false xs x c := by
  cases c with
  | kif c => simp only [slotOut, kifCall, h, if_false, Flag.isTrue]
  | kbi c =>
    have h' : ∀ p : Prop, ¬ (q.om = .WRAP ∧ q.trainable = true ∧ p) := fun p hp => h ⟨hp.1, hp.2.1⟩
    simp only [slotOut, kbiCall, h, h', if_false, Flag.isTrue]

theorem slotOut_tracing {q : QOpts} (h : q.om = .WRAP ∧ q.trainable = true) (c : KIFState) (xs : List ℚ) (x : ℚ) :
    slotOut q .tracing xs x (.kif c) = roundAt q.rm c.f x := by
  simp only [slotOut, (kifCall_tracing' h c [x]).1, List.map_cons, List.headD_cons]

theorem SameF.symm {net : Net} {st st' : NetState} (h : SameF net st st') : SameF net st' st := fun s j =>
  ⟨fun ha => let ⟨c, c', h1, h2, h3⟩ := (h s j).1 ha; ⟨c', c, h2, h1, h3.symm⟩, fun ha => ((h s j).2 ha).symm⟩

theorem SameF.trans {net : Net} {a b c : NetState} (h : SameF net a b) (h' : SameF net b c) : SameF net a c := fun s j =>
  ⟨fun ha => by
    obtain ⟨x, y, h1, h2, h3⟩ := (h s j).1 ha
    obtain ⟨y', z, h4, h5, h6⟩ := (h' s j).1 ha
    rw [h2] at h4
    obtain rfl : y = y' := by simpa using h4
    exact ⟨x, z, h1, h5, h3.trans h6⟩, fun ha => ((h s j).2 ha).trans ((h' s j).2 ha)⟩

theorem out_sameF {net : Net} {st st' : NetState} (h : SameF net st st') (s : ℕ) (x : Tensor) :
    (net.slots s).out .tracing x (st s) = (net.slots s).out .tracing x (st' s) := by
  unfold QSlot.out
  congr 1
  funext idx
  split_ifs
  · by_cases ha : Adapts (net.slots s)
    · obtain ⟨c, c', h1, h2, h3⟩ := (h s (bcastIdx (net.slots s).ws idx)).1 ha
      rw [h1, h2, slotOut_tracing ha, slotOut_tracing ha]
      simp only [KIFState.f, h3]
    · rw [(h s (bcastIdx (net.slots s).ws idx)).2 ha]
  · rfl

theorem step_sameF {net : Net} {st : NetState} (hk : AllKif net st) (s : ℕ) (x : Tensor) :
    SameF net st (Function.update st s ((net.slots s).step .tracing x (st s))) := by
  intro s' j
  by_cases hs : s' = s
  · subst hs
    simp only [Function.update_self, QSlot.step]
    refine ⟨fun ha => ?_, fun ha => (slotStep_static ha _ _ _).symm⟩
    obtain ⟨c, hc⟩ := hk s' ha j
    exact ⟨c, _, hc, by rw [hc]; rfl, (kifCall_tracing' ha c _).2.symm⟩
  · rw [Function.update_of_ne hs]
    exact ⟨fun ha => let ⟨c, hc⟩ := hk s' ha j; ⟨c, c, hc, hc, rfl⟩, fun _ => rfl⟩

theorem AllKif.of_sameF {net : Net} {st st' : NetState} (h : SameF net st st') : AllKif net st' := fun s ha j =>
  let ⟨_, c', _, h2, _⟩ := (h s j).1 ha; ⟨c', h2⟩

theorem SameF.rfl' {net : Net} {st : NetState} (hk : AllKif net st) : SameF net st st := fun s j =>
  ⟨fun ha => let ⟨c, hc⟩ := hk s ha j; ⟨c, c, hc, hc, rfl⟩, fun _ => rfl⟩

/-- Tracing: values and feeds depend only on what is not adapted, and that does not change. -/
theorem trace_fold_sameF (net : Net) (nodes : List NetNode) (r r' : NetRun) (he : r.env = r'.env) (hl : r.log = r'.log)
    (hs : SameF net r.st r'.st) :
    let a := nodes.foldl (net.step .tracing) r
    let b := nodes.foldl (net.step .tracing) r'
    a.env = b.env ∧ a.log = b.log ∧ SameF net a.st b.st ∧ SameF net r.st a.st := by
  induction nodes generalizing r r' with
  | nil => exact ⟨he, hl, hs, SameF.rfl' (AllKif.of_sameF hs.symm)⟩
  | cons n nodes ih =>
    cases n with
    | op f => exact ih (net.step .tracing r (.op f)) (net.step .tracing r' (.op f)) (by simp only [Net.step, he]) hl hs
    | quant s src =>
      have h1 := step_sameF (AllKif.of_sameF hs.symm) s (r.env.getD src ⟨[], fun _ => 0⟩)
      have h2 := step_sameF (AllKif.of_sameF hs) s (r'.env.getD src ⟨[], fun _ => 0⟩)
      have := ih (net.step .tracing r (.quant s src)) (net.step .tracing r' (.quant s src))
        (by simp only [Net.step, he, out_sameF hs]) (by simp only [Net.step, he, hl]) (h1.symm.trans (hs.trans h2))
      exact ⟨this.1, this.2.1, this.2.2.1, h1.trans this.2.2.2⟩

/-- The cells of a slot after a call: one step per tensor fed to it. -/
theorem fold_st (net : Net) (fl : Flag) (nodes : List NetNode) (r : NetRun) :
    ∃ l, (nodes.foldl (net.step fl) r).log = r.log ++ l ∧
      ∀ s, (nodes.foldl (net.step fl) r).st s =
        ((l.filter fun p => p.1 = s).map Prod.snd).foldl (fun c x => (net.slots s).step fl x c) (r.st s) := by
  induction nodes generalizing r with
  | nil => exact ⟨[], by simp, fun s => rfl⟩
  | cons n nodes ih =>
    obtain ⟨l, h1, h2⟩ := ih (net.step fl r n)
    cases n with
    | op f => exact ⟨l, h1, h2⟩
    | quant s src =>
      refine ⟨(s, r.env.getD src ⟨[], fun _ => 0⟩) :: l, ?_, fun s' => ?_⟩
      · rw [List.foldl_cons, h1]; simp [Net.step]
      · rw [List.foldl_cons, h2 s']
        by_cases hs : s' = s
        · subst hs; simp [Net.step]
        · have hs' : s ≠ s' := fun h => hs h.symm
          simp [Net.step, hs', Function.update_of_ne hs]

/-- All tensors fed to the quantizers while tracing a list of batches. -/
def feeds (net : Net) (st : NetState) (batches : List (List Tensor)) : List (ℕ × Tensor) :=
  batches.flatMap fun b => (net.call .tracing st b).log

theorem traceLoop_props (net : Net) (st : NetState) (hk : AllKif net st) (batches : List (List Tensor)) :
    ∀ st', SameF net st st' →
    (net.traceLoop st' batches).2 = batches.map (fun b => (net.call .tracing st b).env) ∧
    SameF net st (net.traceLoop st' batches).1 ∧
    ∀ s, (net.traceLoop st' batches).1 s =
      (((feeds net st batches).filter fun p => p.1 = s).map Prod.snd).foldl (fun c x => (net.slots s).step .tracing x c) (st' s) := by
  induction batches with
  | nil => intro st' h; exact ⟨rfl, h, fun s => rfl⟩
  | cons b bs ih =>
    intro st' h
    have hcall := trace_fold_sameF net net.nodes ⟨b, st, []⟩ ⟨b, st', []⟩ rfl rfl h
    simp only at hcall
    obtain ⟨he, hl, hs, hr⟩ := hcall
    have hst : SameF net st (net.call .tracing st' b).st := hr.trans hs
    obtain ⟨h1, h2, h3⟩ := ih _ hst
    refine ⟨?_, h2, fun s => ?_⟩
    · simp only [Net.traceLoop, List.map_cons, h1]
      exact congrArg (· :: _) he.symm
    · obtain ⟨l, g1, g2⟩ := fold_st net .tracing net.nodes ⟨b, st', []⟩
      simp only [List.nil_append] at g1
      have e1 : (net.call .tracing st b).log = l := by rw [← g1]; exact hl
      simp only [Net.traceLoop]
      rw [h3 s]
      change _ = (((feeds net st (b :: bs)).filter fun p => p.1 = s).map Prod.snd).foldl _ (st' s)
      rw [show feeds net st (b :: bs) = l ++ feeds net st bs by simp [feeds, e1]]
      rw [List.filter_append, List.map_append, List.foldl_append]
      congr 1
      exact g2 s

/-- A kif slot that is stepped along a list of tensors: each cell is traced on its fibres. -/
theorem step_fold_kif (n : QSlot) (xs : List Tensor) (cells : List ℕ → SlotState) (j : List ℕ) (c : KIFState) (h : cells j = .kif c) :
    xs.foldl (fun c x => n.step .tracing x c) cells j =
      .kif (kifTrace n.q c (xs.map fun x => (fibre n.hm x.shape j).map x.val)) := by
  induction xs generalizing cells c with
  | nil => exact h
  | cons x xs ih =>
    simp only [List.foldl_cons, List.map_cons]
    rw [ih _ (kifCall n.q c .tracing ((fibre n.hm x.shape j).map x.val)).1 (by simp only [QSlot.step, h, slotStep])]
    rfl

/-- Inference does not change the states. -/
theorem infer_fold (net : Net) (nodes : List NetNode) (r : NetRun) : (nodes.foldl (net.step .false) r).st = r.st := by
  induction nodes generalizing r with
  | nil => rfl
  | cons n nodes ih =>
    rw [List.foldl_cons, ih]
    cases n with
    | op f => rfl
    | quant s src =>
      simp only [Net.step]
      funext s'
      by_cases hs : s' = s
      · subst hs
        simp only [Function.update_self]
        funext j
        simp only [QSlot.step]
        cases hc : r.st s' j with
        | kif c => simp only [slotStep, (C14_no_state_change _ .false _ (by simp)).1]
        | kbi c => simp only [slotStep, (C14_no_state_change _ .false _ (by simp)).2]
      · rw [Function.update_of_ne hs]

theorem out_calibrated (net : Net) (st t : NetState) (s : ℕ) (x : Tensor) (hs : SameF net st t)
    (h : Adapts (net.slots s) → ∀ idx, InRange x.shape idx → ∀ c c', st s (bcastIdx (net.slots s).ws idx) = .kif c →
      t s (bcastIdx (net.slots s).ws idx) = .kif c' →
      (kifCall (net.slots s).q c' .false [x.val idx]).2 = [roundAt (net.slots s).q.rm c.f (x.val idx)]) :
    (net.slots s).out .false x (t s) = (net.slots s).out .tracing x (st s) := by
  unfold QSlot.out
  congr 1
  funext idx
  split_ifs with hin
  · by_cases ha : Adapts (net.slots s)
    · obtain ⟨c, c', h1, h2, h3⟩ := (hs s (bcastIdx (net.slots s).ws idx)).1 ha
      rw [h1, h2, slotOut_tracing ha]
      simp only [slotOut, h ha idx ((mem_indices _ _).1 hin) c c' h1 h2, List.headD_cons]
    · rw [← (hs s (bcastIdx (net.slots s).ws idx)).2 ha, slotOut_static ha]
  · rfl

theorem infer_eq_trace (net : Net) (st t : NetState) (nodes : List NetNode) (r r' : NetRun) (he : r.env = r'.env) (hst : r.st = t)
    (hs : SameF net st t) (hs' : SameF net st r'.st)
    (h : ∀ p ∈ (nodes.foldl (net.step .tracing) r').log, (net.slots p.1).out .false p.2 (t p.1) = (net.slots p.1).out .tracing p.2 (st p.1)) :
    (nodes.foldl (net.step .false) r).env = (nodes.foldl (net.step .tracing) r').env := by
  induction nodes generalizing r r' with
  | nil => exact he
  | cons n nodes ih =>
    rw [List.foldl_cons, List.foldl_cons] at *
    cases n with
    | op f =>
      exact ih _ _ (by simp only [Net.step, he]) hst hs' h
    | quant s src =>
      have hlog : (s, r'.env.getD src ⟨[], fun _ => 0⟩) ∈ (nodes.foldl (net.step .tracing) (net.step .tracing r' (.quant s src))).log := by
        obtain ⟨l, h1, -⟩ := fold_st net .tracing nodes (net.step .tracing r' (.quant s src))
        rw [h1]; simp [Net.step]
      have hout := h _ hlog
      refine ih _ _ ?_ ?_ ?_ h
      · simp only [Net.step, he, hst]
        rw [hout, out_sameF hs']
      · have := infer_fold net [.quant s src] r
        simp only [List.foldl_cons, List.foldl_nil] at this
        rw [this, hst]
      · exact hs'.trans (step_sameF (AllKif.of_sameF hs') s _)

theorem reset_sameF (net : Net) (st : NetState) (hk : AllKif net st) (reset : Bool) :
    SameF net st (if reset then net.reset st else st) := by
  cases reset
  · exact SameF.rfl' hk
  · intro s j
    refine ⟨fun ha => ?_, fun ha => ?_⟩
    · obtain ⟨c, hc⟩ := hk s ha j
      exact ⟨c, kifReset (net.slots s).q c, hc, by simp [Net.reset, hc], by simp [kifReset, ha.1, ha.2]⟩
    · simp only [Net.reset, if_true]
      cases hc : st s j with
      | kif c => simp only [kifReset, if_neg (show ¬((net.slots s).q.om = .WRAP ∧ (net.slots s).q.trainable = true) from ha)]
      | kbi c => simp only [kbiReset, if_neg (show ¬((net.slots s).q.om = .WRAP ∧ (net.slots s).q.trainable = true) from ha)]

/-- **C90 (partial)**: after `trace_minmax` on a model whose adapting quantizers are all of type kif, running the model on any batch of the
calibration data gives in every place exactly the values it had while tracing — so the values returned by `return_results=True` are those
of the calibrated model, and no quantizer overflows on calibration data.  This holds for any number of layers, shared quantizers, any
batching, with or without reset, as long as constraints on `i` leave room (`M`).  Missing: kbi, for which it is false. -/
theorem C90_calibrated_partial (net : Net) (st : NetState) (hk : AllKif net st) (reset : Bool) (batches : List (List Tensor)) (M : ℤ)
    (hM : ∀ s, Adapts (net.slots s) → ∀ n : ℤ, n ≤ M → (n : ℚ) ≤ applyC (net.slots s).q.ic n)
    (hfed : ∀ b ∈ batches, ∀ p ∈ (net.call .tracing st b).log, Adapts (net.slots p.1) → FedOk (net.slots p.1) (st p.1) M p.2) :
    let t := net.traceMinmax reset st batches
    t.2 = batches.map (fun b => (net.call .false t.1 b).env) ∧
    ∀ b ∈ batches, (net.call .false t.1 b).env = (net.call .tracing st b).env := by
  intro t
  have hs0 := reset_sameF net st hk reset
  obtain ⟨h1, h2, h3⟩ := traceLoop_props net st hk batches _ hs0
  have key : ∀ b ∈ batches, (net.call .false t.1 b).env = (net.call .tracing st b).env := by
    intro b hb
    refine infer_eq_trace net st t.1 net.nodes ⟨b, t.1, []⟩ ⟨b, st, []⟩ rfl rfl h2 (SameF.rfl' hk) fun p hp => ?_
    refine out_calibrated net st t.1 p.1 p.2 h2 fun ha idx hidx c c' hc hc' => ?_
    set n := net.slots p.1 with hn
    set j := bcastIdx n.ws idx with hj
    have hfedL : ∀ x ∈ ((feeds net st batches).filter fun q => q.1 = p.1).map Prod.snd, FedOk n (st p.1) M x := by
      intro x hx
      simp only [List.mem_map, List.mem_filter, feeds, List.mem_flatMap, decide_eq_true_eq] at hx
      obtain ⟨q, ⟨⟨b', hb', hq⟩, hq1⟩, rfl⟩ := hx
      have := hfed b' hb' q hq (by rw [hq1]; exact ha)
      rw [hq1] at this
      exact this
    set xs := ((feeds net st batches).filter fun q => q.1 = p.1).map Prod.snd with hxs
    have hmem : p.2 ∈ xs := by
      simp only [hxs, List.mem_map, List.mem_filter, feeds, List.mem_flatMap, decide_eq_true_eq]
      exact ⟨p, ⟨⟨b, hb, hp⟩, rfl⟩, rfl⟩
    have hcell : (if reset then net.reset st else st) p.1 j = .kif (if reset then kifReset n.q c else c) := by
      cases reset <;> simp [Net.reset, hc, hn]
    have hfin := h3 p.1
    have hfin' := congrFun hfin j
    rw [step_fold_kif _ _ _ _ _ hcell] at hfin'
    have hc'' : t.1 p.1 j = .kif c' := hc'
    rw [show t.1 = (net.traceLoop (if reset then net.reset st else st) batches).1 from rfl, hfin'] at hc''
    obtain rfl : kifTraceMinmax n.q reset c (xs.map fun x => (fibre n.hm x.shape j).map x.val) = c' := by
      unfold kifTraceMinmax; exact SlotState.kif.inj hc''
    have hfibre : ∀ x ∈ xs, ∀ i ∈ fibre n.hm x.shape j, InRange x.shape i ∧ bcastIdx n.ws i = j := by
      intro x hx i hi
      obtain ⟨m, het, hw, hr⟩ := (hfedL x hx).shape
      exact ((C16_reduction_is_fibre m x.shape n.ws het n.hm hw hr x.val j).1 i).1 hi
    refine (C08_calibrated_no_overflow n.q ha.1 ha.2 reset c (xs.map fun x => (fibre n.hm x.shape j).map x.val) M (hM p.1 ha) ?_).2
      ((fibre n.hm p.2.shape j).map p.2.val) (List.mem_map_of_mem hmem) (p.2.val idx) (List.mem_map_of_mem ?_)
    · intro l hl v hv
      obtain ⟨y, hy, rfl⟩ := List.mem_map.1 hl
      obtain ⟨i, hi, rfl⟩ := List.mem_map.1 hv
      obtain ⟨g1, g2⟩ := hfibre y hy i hi
      exact (hfedL y hy).fits i g1 c (by rw [g2]; exact hc)
    · obtain ⟨m, het, hw, hr⟩ := (hfedL p.2 hmem).shape
      exact ((C16_reduction_is_fibre m p.2.shape n.ws het n.hm hw hr p.2.val j).1 idx).2 ⟨hidx, rfl⟩
  refine ⟨?_, key⟩
  have : t.2 = batches.map (fun b => (net.call .tracing st b).env) := h1
  rw [this]
  exact (List.map_congr_left key).symm

/-! ## The hypotheses can be met; kbi breaks the property -/

/-- Options of an adapting quantizer without constraint. -/
def adaptQ : QOpts := ⟨.RND, .WRAP, true, false, none, none⟩

/-- Two channels share the bit widths of the first quantizer; the second sees the first channel only. -/
def twoNet : Net :=
  ⟨fun s => if s = 0 then ⟨adaptQ, [1], [0]⟩ else ⟨adaptQ, [1], [0]⟩,
   [.quant 0 0, .op fun e => ⟨[1], fun _ => (e.getD 1 ⟨[], fun _ => 0⟩).val [0]⟩, .quant 1 2]⟩

/-- A batch with two channels. -/
def pairT (a b : ℚ) : Tensor := ⟨[2], fun idx => if idx = [0] then a else if idx = [1] then b else 0⟩

/-- Both quantizers kif. -/
def kifState : NetState := fun _ _ => .kif ⟨false, 0, 3⟩
/-- The first quantizer kbi with three bits. -/
def kbiState : NetState := fun s _ => if s = 0 then .kbi ⟨false, 3, 0⟩ else .kif ⟨false, 0, 3⟩

/-- The value of node `n` at the first channel. -/
def valAt (env : List Tensor) (n : ℕ) : ℚ := (env.getD n ⟨[], fun _ => 0⟩).val [0]

/-- The hypotheses of `C90_calibrated_partial` hold for the kif model on two batches. -/
example : AllKif twoNet kifState ∧
    (∀ s, Adapts (twoNet.slots s) → ∀ n : ℤ, n ≤ 8 → (n : ℚ) ≤ applyC (twoNet.slots s).q.ic n) ∧
    (∀ b ∈ [[pairT (4/5) 0], [pairT 0 7]], ∀ p ∈ (twoNet.call .tracing kifState b).log, Adapts (twoNet.slots p.1) →
      FedOk (twoNet.slots p.1) (kifState p.1) 8 p.2) := by
  refine ⟨fun s _ j => ⟨_, rfl⟩, fun s _ n _ => ?_, ?_⟩
  · have : (twoNet.slots s).q.ic = none := by simp [twoNet, adaptQ]
    rw [this]; exact le_refl _
  · have key : ∀ s (x : Tensor) (n : ℕ), x.shape = [n] → 0 < n → (∀ i < n, |roundAt .RND 3 (x.val [i])| ≤ high 8 3) →
        FedOk (twoNet.slots s) (kifState s) 8 x := by
      intro s x n hx hn h
      have hsl : twoNet.slots s = ⟨adaptQ, [1], [0]⟩ := by simp [twoNet]
      refine ⟨⟨⟨none, some [0]⟩, [], ?_, ?_⟩, ?_⟩
      · rw [hsl, hx]; rfl
      · rw [hsl, hx]; rfl
      · intro idx hidx c hc
        rw [hx] at hidx
        rw [hsl]
        obtain rfl : (⟨false, 0, 3⟩ : KIFState) = c := SlotState.kif.inj hc
        have hf : (⟨false, 0, 3⟩ : KIFState).f = 3 := by decide +kernel
        rw [hf]
        match idx, hidx with
        | [i], hidx => exact h i (by simpa [InRange] using hidx)
    intro b hb p hp _
    simp only [List.mem_cons, List.not_mem_nil, or_false] at hb
    rcases hb with rfl | rfl
    · simp only [Net.call, twoNet, List.foldl_cons, List.foldl_nil, Net.step, List.nil_append, List.singleton_append,
        List.mem_cons, List.not_mem_nil, or_false] at hp
      rcases hp with rfl | rfl
      · exact key _ _ 2 rfl (by norm_num) (by decide +kernel)
      · exact key _ _ 1 rfl (by norm_num) (by decide +kernel)
    · simp only [Net.call, twoNet, List.foldl_cons, List.foldl_nil, Net.step, List.nil_append, List.singleton_append,
        List.mem_cons, List.not_mem_nil, or_false] at hp
      rcases hp with rfl | rfl
      · exact key _ _ 2 rfl (by norm_num) (by decide +kernel)
      · exact key _ _ 1 rfl (by norm_num) (by decide +kernel)

/-- **C90 is false for kbi**: the second batch raises the integer bits of the first quantizer and thereby coarsens it; the second quantizer
was calibrated on the finer values of the first batch.  On the first batch of the calibration data the calibrated model then wraps `1` to
`0`, although tracing returned `3/4`. -/
theorem C90_kbi_violated :
    let t := twoNet.traceMinmax true kbiState [[pairT (4/5) 0], [pairT 0 7]]
    valAt (t.2.headD []) 3 = 3/4 ∧ valAt (twoNet.call .false t.1 [pairT (4/5) 0]).env 2 = 1 ∧
      valAt (twoNet.call .false t.1 [pairT (4/5) 0]).env 3 = 0 := by
  decide +kernel

/-- The output of a node is what the quantizer's `call` returns on the elements of the cell. -/
theorem slotOut_eq (q : QOpts) (fl : Flag) (xs : List ℚ) (c : SlotState) :
    xs.map (fun x => slotOut q fl xs x c) = match c with
      | .kif c => (kifCall q c fl xs).2
      | .kbi c => (kbiCall q c fl xs).2 := by
  cases c with
  | kif c =>
    simp only [slotOut, kifCall]
    split_ifs <;> simp
  | kbi c =>
    by_cases h : q.om = .WRAP ∧ q.trainable = true
    · by_cases h' : (fl.truthy || fl.eqTracing) = true
      · have : q.om = .WRAP ∧ q.trainable = true ∧ (fl.truthy || fl.eqTracing) = true := ⟨h.1, h.2, h'⟩
        simp only [slotOut, this, if_true, kbiCall, h, h', and_self]
        split_ifs <;> simp [KBIState.f, KBIState.i, KBIState.b]
      · have : ¬ (q.om = .WRAP ∧ q.trainable = true ∧ (fl.truthy || fl.eqTracing) = true) := fun p => h' p.2.2
        simp only [slotOut, if_neg this, kbiCall, if_pos h, if_neg h']
        split_ifs <;> simp
    · have : ¬ (q.om = .WRAP ∧ q.trainable = true ∧ (fl.truthy || fl.eqTracing) = true) := fun p => h ⟨p.1, p.2.1⟩
      simp only [slotOut, if_neg this, kbiCall, if_neg h]
      simp

end HGQ
