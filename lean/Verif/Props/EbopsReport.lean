import Verif.Model.EbopsReport
import Mathlib.Tactic

/-!
# C120: the reported EBOPs are those of the model
-/
namespace HGQ
variable {W B : Type}

namespace Spec
/-- The cost of each call site does not depend on the widths of layers called later in the pass. -/
def CostsReadBack (uses : List UseSite) (cost : UseSite → (ℕ → W) → ℚ) : Prop :=
  ∀ pre u post, uses = pre ++ u :: post → ∀ w w' : ℕ → W, (∀ l, (∀ v ∈ post, v.layer ≠ l) → w l = w' l) → cost u w = cost u w'

/-- Cost of the model at given widths: every call site once. -/
def modelCost (uses : List UseSite) (cost : UseSite → (ℕ → W) → ℚ) (w : ℕ → W) : ℚ := (uses.map fun u => cost u w).sum
end Spec
open Spec

theorem foldl_callUse_w (M : EbopsNet W B) (b : B) (us : List UseSite) (st : EbopsState W) (l : ℕ) (h : ∀ u ∈ us, u.layer ≠ l) :
    (us.foldl (M.callUse b) st).w l = st.w l ∧ (us.foldl (M.callUse b) st).eb l = st.eb l := by
  induction us generalizing st with
  | nil => exact ⟨rfl, rfl⟩
  | cons u us ih =>
    have := ih (M.callUse b st u) fun v hv => h v (by simp [hv])
    have hl : l ≠ u.layer := fun e => h u (by simp) e.symm
    rw [List.foldl_cons, this.1, this.2]
    simp [EbopsNet.callUse, Function.update_of_ne hl]

theorem foldl_callUse_losses (M : EbopsNet W B) (b : B) (us : List UseSite) (st : EbopsState W) :
    (us.foldl (M.callUse b) st).losses.length = st.losses.length + us.length := by
  induction us generalizing st with
  | nil => simp
  | cons u us ih => rw [List.foldl_cons, ih]; simp [EbopsNet.callUse]; omega

/-- After a forward pass the variable of a layer holds the rounded-down cost of its last call site at the widths the pass left behind. -/
theorem forward_last (M : EbopsNet W B) (st : EbopsState W) (b : B) (h : CostsReadBack M.uses M.cost) (pre post : List UseSite) (u : UseSite)
    (hu : M.uses = pre ++ u :: post) (hl : ∀ v ∈ post, v.layer ≠ u.layer) :
    (M.forward st b).eb u.layer = ⌊M.cost u (M.forward st b).w⌋₊ := by
  unfold EbopsNet.forward
  rw [hu, List.foldl_append, List.foldl_cons]
  set s1 := pre.foldl (M.callUse b) { st with losses := [] }
  rw [(foldl_callUse_w M b post (M.callUse b s1 u) u.layer hl).2]
  have hc := h pre u post hu (M.callUse b s1 u).w (post.foldl (M.callUse b) (M.callUse b s1 u)).w
    fun l hl' => ((foldl_callUse_w M b post _ l hl').1).symm
  rw [← hc]
  simp [EbopsNet.callUse]

theorem exists_last (us : List UseSite) (l : ℕ) (h : l ∈ us.map (·.layer)) : ∃ pre u post, us = pre ++ u :: post ∧ u.layer = l ∧ ∀ v ∈ post, v.layer ≠ l := by
  induction us with
  | nil => simp at h
  | cons a us ih =>
    by_cases hm : l ∈ us.map (·.layer)
    · obtain ⟨pre, u, post, rfl, h1, h2⟩ := ih hm
      exact ⟨a :: pre, u, post, rfl, h1, h2⟩
    · have ha : a.layer = l := by
        rw [List.map_cons] at h
        rcases List.mem_cons.1 h with h | h
        · exact h.symm
        · exact absurd h hm
      exact ⟨[], a, us, rfl, ha, fun v hv e => hm (List.mem_map.2 ⟨v, hv, e⟩)⟩

theorem trace_forward (M : EbopsNet W B) (st : EbopsState W) (bs : List B) (h : bs ≠ []) : ∃ st' b, M.trace st bs = M.forward st' b := by
  obtain ⟨l, b, rfl⟩ := List.eq_nil_or_concat bs |>.resolve_left h
  exact ⟨l.foldl M.forward st, b, by simp [EbopsNet.trace]⟩

theorem forward_report (M : EbopsNet W B) (st : EbopsState W) (b : B) (h : CostsReadBack M.uses M.cost) (hd : (M.uses.map (·.layer)).Nodup) :
    M.report (M.forward st b) = (M.uses.map fun u => ⌊M.cost u (M.forward st b).w⌋₊).sum := by
  unfold EbopsNet.report
  rw [List.Nodup.dedup hd, List.map_map]
  congr 1
  refine List.map_congr_left fun u hu => ?_
  obtain ⟨pre, post, hs⟩ := List.append_of_mem hu
  refine forward_last M st b h pre post u hs fun v hv e => ?_
  rw [hs, List.map_append, List.map_cons, List.nodup_append, List.nodup_cons] at hd
  exact hd.2.1.1 (List.mem_map.2 ⟨v, hv, e⟩)

theorem sum_floor_bounds (l : List ℚ) (h : ∀ c ∈ l, 0 ≤ c) (hne : l ≠ []) :
    (((l.map fun c => ⌊c⌋₊).sum : ℕ) : ℚ) ≤ l.sum ∧ l.sum < ((l.map fun c => ⌊c⌋₊).sum : ℕ) + l.length := by
  induction l with
  | nil => exact absurd rfl hne
  | cons a l ih =>
    have ha := Nat.floor_le (h a (by simp))
    have hb := Nat.lt_floor_add_one a
    simp only [List.map_cons, List.sum_cons, List.length_cons]
    push_cast
    cases l with
    | nil => simp; exact ⟨ha, hb⟩
    | cons c l =>
      obtain ⟨h1, h2⟩ := ih (fun c hc => h c (by simp [hc])) (by simp)
      push_cast at h1 h2
      constructor <;> linarith

/-- **C120 (partial).**  For every model whose layer objects are called at one place each, every number of batches and every effect of the data on the widths: the
total reported after tracing is, layer by layer, the cost at the widths tracing left behind, rounded down; so it is at most the cost of the model and less than one per
layer below it. -/
theorem C120_trace_partial (M : EbopsNet W B) (st : EbopsState W) (bs : List B) (hb : bs ≠ []) (h : CostsReadBack M.uses M.cost)
    (hd : (M.uses.map (·.layer)).Nodup) :
    M.report (M.trace st bs) = (M.uses.map fun u => ⌊M.cost u (M.trace st bs).w⌋₊).sum ∧
    ((∀ u w, 0 ≤ M.cost u w) → M.uses ≠ [] → (M.report (M.trace st bs) : ℚ) ≤ modelCost M.uses M.cost (M.trace st bs).w ∧
      modelCost M.uses M.cost (M.trace st bs).w < M.report (M.trace st bs) + M.uses.length) := by
  obtain ⟨st', b, e⟩ := trace_forward M st bs hb
  rw [e]
  have hr := forward_report M st' b h hd
  refine ⟨hr, fun h0 hne => ?_⟩
  have := sum_floor_bounds (M.uses.map fun u => M.cost u (M.forward st' b).w) (by simp [h0]) (by simpa using hne)
  rw [List.map_map, List.length_map] at this
  rw [hr]
  exact this

/-- **C120 (every model), exactly:** whatever is shared, after tracing each layer reports its last call site only. -/
theorem C120_last_use (M : EbopsNet W B) (st : EbopsState W) (bs : List B) (hb : bs ≠ []) (h : CostsReadBack M.uses M.cost) (pre post : List UseSite)
    (u : UseSite) (hu : M.uses = pre ++ u :: post) (hl : ∀ v ∈ post, v.layer ≠ u.layer) :
    (M.trace st bs).eb u.layer = ⌊M.cost u (M.trace st bs).w⌋₊ := by
  obtain ⟨st', b, e⟩ := trace_forward M st bs hb
  rw [e]
  exact forward_last M st' b h pre post u hu hl

/-- **C120 (loss).**  Every call site adds its cost to the loss of the pass; with one call site per layer the terms are the costs at the widths after the pass. -/
theorem C120_losses (M : EbopsNet W B) (st : EbopsState W) (b : B) (h : CostsReadBack M.uses M.cost) (hd : (M.uses.map (·.layer)).Nodup) :
    (M.forward st b).losses = M.uses.map fun u => M.cost u (M.forward st b).w := by
  have key : ∀ (us pre : List UseSite) (s : EbopsState W), M.uses = pre ++ us →
      (us.foldl (M.callUse b) s).losses = s.losses ++ us.map fun u => M.cost u (us.foldl (M.callUse b) s).w := by
    intro us
    induction us with
    | nil => intro pre s _; simp
    | cons u us ih =>
      intro pre s hs
      rw [List.foldl_cons, ih (pre ++ [u]) _ (by simpa using hs)]
      have hc := h pre u us hs (M.callUse b s u).w (us.foldl (M.callUse b) (M.callUse b s u)).w fun l hl' => ((foldl_callUse_w M b us _ l hl').1).symm
      rw [List.map_cons, ← hc]
      simp [EbopsNet.callUse]
  have := key M.uses [] { st with losses := [] } rfl
  simpa [EbopsNet.forward] using this

/-- **C120 violated (shared layers):** a layer called at `n + 1` places, each of cost `c`, is reported once although the loss charges it `n + 1` times. -/
theorem C120_shared_violated (n : ℕ) (l : ℕ) (sh : List ℕ) (c : ℕ) (st : EbopsState W) (b : B) (adapt : UseSite → B → (ℕ → W) → W) :
    let M : EbopsNet W B := ⟨List.replicate (n + 1) ⟨l, sh⟩, adapt, fun _ _ => c⟩
    M.report (M.trace st [b]) = c ∧ (M.trace st [b]).losses.sum = (n + 1) * c ∧ modelCost M.uses M.cost (M.trace st [b]).w = (n + 1) * c := by
  intro M
  have hsplit : M.uses = List.replicate n ⟨l, sh⟩ ++ ⟨l, sh⟩ :: [] := List.replicate_succ'
  have h1 := C120_last_use M st [b] (by simp) (fun _ _ _ _ _ _ _ => rfl) _ [] ⟨l, sh⟩ hsplit (by simp)
  have hloss : ∀ (k : ℕ) (s : EbopsState W), ((List.replicate k (⟨l, sh⟩ : UseSite)).foldl (M.callUse b) s).losses.sum = s.losses.sum + k * c := by
    intro k
    induction k with
    | zero => intro s; simp
    | succ k ih =>
      intro s
      rw [List.replicate_succ, List.foldl_cons, ih]
      simp [EbopsNet.callUse, M]; ring
  refine ⟨?_, ?_, ?_⟩
  · unfold EbopsNet.report
    have : (M.uses.map (·.layer)).dedup = [l] := by
      simp only [M, List.map_replicate]
      exact List.replicate_dedup (Nat.succ_ne_zero n)
    rw [this, List.map_singleton, List.sum_singleton, h1]
    simp [M]
  · have := hloss (n + 1) { st with losses := [] }
    simpa [EbopsNet.trace, EbopsNet.forward, M] using this
  · simp [modelCost, M]

/-- **C120 violated (after `fit`):** what is reported after training belongs to the widths before the last optimizer step, whatever the step did. -/
theorem C120_fit_violated (M : EbopsNet W B) (st : EbopsState W) (es : List (B × ((ℕ → W) → ℕ → W))) (b : B) (upd : (ℕ → W) → ℕ → W)
    (h : CostsReadBack M.uses M.cost) (hd : (M.uses.map (·.layer)).Nodup) :
    ∃ before, (M.fit st (es ++ [(b, upd)])).w = upd before ∧ M.report (M.fit st (es ++ [(b, upd)])) = (M.uses.map fun u => ⌊M.cost u before⌋₊).sum := by
  refine ⟨(M.forward (M.fit st es) b).w, ?_, ?_⟩
  · simp [EbopsNet.fit, EbopsNet.fitStep]
  · have := forward_report M (M.fit st es) b h hd
    rw [← this]
    simp [EbopsNet.fit, EbopsNet.fitStep, EbopsNet.report]

/-- ... so it is right exactly if the rounded costs did not change in total. -/
theorem C120_fit_iff (M : EbopsNet W B) (st : EbopsState W) (es : List (B × ((ℕ → W) → ℕ → W))) (b : B) (upd : (ℕ → W) → ℕ → W)
    (h : CostsReadBack M.uses M.cost) (hd : (M.uses.map (·.layer)).Nodup) :
    M.report (M.fit st (es ++ [(b, upd)])) = (M.uses.map fun u => ⌊M.cost u (M.fit st (es ++ [(b, upd)])).w⌋₊).sum ↔
      (M.uses.map fun u => ⌊M.cost u (M.forward (M.fit st es) b).w⌋₊).sum = (M.uses.map fun u => ⌊M.cost u (upd (M.forward (M.fit st es) b).w)⌋₊).sum := by
  have hw : (M.fit st (es ++ [(b, upd)])).w = upd (M.forward (M.fit st es) b).w := by simp [EbopsNet.fit, EbopsNet.fitStep]
  have hr : M.report (M.fit st (es ++ [(b, upd)])) = (M.uses.map fun u => ⌊M.cost u (M.forward (M.fit st es) b).w⌋₊).sum := by
    rw [← forward_report M (M.fit st es) b h hd]
    simp [EbopsNet.fit, EbopsNet.fitStep, EbopsNet.report]
  rw [hr, hw]

/-- **C120 violated (rounding):** a sum of two one-bit numbers costs 0.65; a model of `n` such layers costs `0.65 n` and reports 0. -/
theorem C120_truncated_violated (n : ℕ) (st : EbopsState Unit) (b : B) :
    let M : EbopsNet Unit B := ⟨(List.range n).map fun l => ⟨l, [1, 2]⟩, fun _ _ _ => (), fun _ _ => sumEbops (G := 1) (n := 1) fun _ _ => 1⟩
    M.report (M.trace st [b]) = 0 ∧ modelCost M.uses M.cost (M.trace st [b]).w = n * (65 / 100) := by
  intro M
  have hc : sumEbops (G := 1) (n := 1) (fun _ _ => 1) = 65 / 100 := by simp [sumEbops, mergeEbops]; norm_num
  have hd : (M.uses.map (·.layer)).Nodup := by
    simp only [M, List.map_map]
    rw [show ((fun u : UseSite => u.layer) ∘ fun l => (⟨l, [1, 2]⟩ : UseSite)) = id from rfl, List.map_id]
    exact List.nodup_range
  refine ⟨?_, ?_⟩
  · rw [(C120_trace_partial M st [b] (by simp) (fun _ _ _ _ _ _ _ => rfl) hd).1]
    have : ⌊(65 / 100 : ℚ)⌋₊ = 0 := by rw [Nat.floor_eq_zero]; norm_num
    simp [M, hc, this, Function.comp_def]
  · simp [modelCost, M, hc, Function.comp_def]

/-- The cast gives the number rounded down if this fits into 32 bits; nothing is said about larger costs. -/
def Spec.TruncatesBelow (cast : ℚ → Fin (2 ^ 32)) : Prop := ∀ c : ℚ, 0 ≤ c → c < 4294967296 → ((cast c : ℕ) : ℚ) ≤ c ∧ c < (cast c : ℕ) + 1

/-- **C120 (32 bits, partial).**  If no call in the passes costs `2^32` or more, for all widths `P` the passes can reach, nothing changes because the variables have 32 bits: what is reported is
as above. -/
theorem C120_cast_partial (M : EbopsNet W B) (cast : ℚ → Fin (2 ^ 32)) (hcast : TruncatesBelow cast) (P : (ℕ → W) → Prop)
    (hP : ∀ u ∈ M.uses, ∀ b w, P w → P (Function.update w u.layer (M.adapt u b w))) (hc : ∀ u ∈ M.uses, ∀ w, P w → 0 ≤ M.cost u w ∧ M.cost u w < 4294967296)
    (st : EbopsState W) (bs : List B) (h0 : P st.w) : M.traceC cast st bs = M.trace st bs := by
  have hcall : ∀ u ∈ M.uses, ∀ b (s : EbopsState W), P s.w → M.callUseC cast b s u = M.callUse b s u ∧ P (M.callUse b s u).w := by
    intro u hu b s hs
    have hw := hP u hu b s.w hs
    obtain ⟨c1, c2⟩ := hcast _ (hc u hu _ hw).1 (hc u hu _ hw).2
    have : (cast (M.cost u (Function.update s.w u.layer (M.adapt u b s.w))) : ℕ) = ⌊M.cost u (Function.update s.w u.layer (M.adapt u b s.w))⌋₊ :=
      ((Nat.floor_eq_iff (hc u hu _ hw).1).2 ⟨c1, c2⟩).symm
    exact ⟨by simp only [EbopsNet.callUseC, EbopsNet.callUse, this], hw⟩
  have hpass : ∀ (us : List UseSite), (∀ u ∈ us, u ∈ M.uses) → ∀ b (s : EbopsState W), P s.w →
      us.foldl (M.callUseC cast b) s = us.foldl (M.callUse b) s ∧ P (us.foldl (M.callUse b) s).w := by
    intro us
    induction us with
    | nil => intro _ b s hs; exact ⟨rfl, hs⟩
    | cons u us ih =>
      intro hu b s hs
      obtain ⟨e1, e2⟩ := hcall u (hu u (by simp)) b s hs
      rw [List.foldl_cons, List.foldl_cons, e1]
      exact ih (fun v hv => hu v (by simp [hv])) b _ e2
  unfold EbopsNet.traceC EbopsNet.trace
  induction bs generalizing st with
  | nil => rfl
  | cons b bs ih =>
    obtain ⟨e1, e2⟩ := hpass M.uses (fun _ h => h) b { st with losses := [] } h0
    rw [List.foldl_cons, List.foldl_cons, e1]
    exact ih _ e2

theorem traceC_le (M : EbopsNet W B) (cast : ℚ → Fin (2 ^ 32)) (st : EbopsState W) (bs : List B) (hb : bs ≠ []) (l : ℕ) (hl : l ∈ M.uses.map (·.layer)) :
    (M.traceC cast st bs).eb l < 4294967296 := by
  obtain ⟨bs, b, rfl⟩ := List.eq_nil_or_concat bs |>.resolve_left hb
  obtain ⟨pre, u, post, hu, rfl, -⟩ := exists_last M.uses l hl
  unfold EbopsNet.traceC
  rw [List.concat_eq_append, List.foldl_append, List.foldl_cons, List.foldl_nil, hu, List.foldl_append, List.foldl_cons]
  have key : ∀ (us : List UseSite) (s : EbopsState W), s.eb u.layer < 4294967296 → (us.foldl (M.callUseC cast b) s).eb u.layer < 4294967296 := by
    intro us
    induction us with
    | nil => exact fun s h => h
    | cons v us ih =>
      intro s h
      refine ih _ ?_
      simp only [EbopsNet.callUseC, Function.update_apply]
      split
      · exact (cast _).isLt
      · exact h
  refine key post _ ?_
  simp only [EbopsNet.callUseC, Function.update_self]
  exact (cast _).isLt

/-- **C120 violated (32 bits):** however the backend casts, a layer that costs `2^32` or more is reported too low, in every model and after any batches. -/
theorem C120_overflow_violated (M : EbopsNet W B) (cast : ℚ → Fin (2 ^ 32)) (st : EbopsState W) (bs : List B) (hb : bs ≠ []) (u : UseSite) (hu : u ∈ M.uses)
    (hc : 4294967296 ≤ M.cost u (M.traceC cast st bs).w) : ((M.traceC cast st bs).eb u.layer : ℚ) < M.cost u (M.traceC cast st bs).w :=
  lt_of_lt_of_le (by exact_mod_cast traceC_le M cast st bs hb u.layer (List.mem_map.2 ⟨u, hu, rfl⟩)) hc

/-- The usual cast, modulo `2^32`: the model of the next example with at most 100 bits, and one layer that costs exactly `2^32` and reports 0. -/
def exCast (c : ℚ) : Fin (2 ^ 32) := ⟨⌊c⌋₊ % 2 ^ 32, Nat.mod_lt _ (by decide)⟩

theorem exCast_ok : TruncatesBelow exCast := by
  intro c h0 h
  have hlt : ⌊c⌋₊ < 2 ^ 32 := (Nat.floor_lt h0).2 (by push_cast; linarith)
  simp only [exCast, Nat.mod_eq_of_lt hlt]
  exact ⟨Nat.floor_le h0, Nat.lt_floor_add_one c⟩

example :
    let M : EbopsNet ℕ ℕ := ⟨[⟨0, [1, 4]⟩, ⟨1, [1, 4]⟩], fun u b w => min 100 (max b (w u.layer)), fun u w => if u.layer = 0 then w 0 * (3 / 2) else w 0 * w 1⟩
    M.traceC exCast ⟨fun _ => 0, fun _ => 0, []⟩ [2, 500, 3] = M.trace ⟨fun _ => 0, fun _ => 0, []⟩ [2, 500, 3] := by
  intro M
  refine C120_cast_partial M exCast exCast_ok (fun w => ∀ l, w l ≤ 100) (fun u _ b w hw l => ?_) (fun u _ w hw => ?_) _ _ (fun _ => by simp)
  · rw [Function.update_apply]
    split
    · exact min_le_left _ _
    · exact hw l
  · have h0 : (w 0 : ℚ) ≤ 100 := by exact_mod_cast hw 0
    have h1 : (w 1 : ℚ) ≤ 100 := by exact_mod_cast hw 1
    have p0 : (0 : ℚ) ≤ w 0 := Nat.cast_nonneg _
    have p1 : (0 : ℚ) ≤ w 1 := Nat.cast_nonneg _
    simp only [M]
    split
    · constructor <;> linarith
    · have : (w 0 : ℚ) * w 1 ≤ 100 * 100 := mul_le_mul h0 h1 p1 (by norm_num)
      exact ⟨mul_nonneg p0 p1, by linarith⟩

example :
    let M : EbopsNet ℕ ℕ := ⟨[⟨0, [1, 65536]⟩], fun _ b _ => b, fun u w => (u.shape.getD 1 0 : ℚ) * w 0⟩
    (M.traceC exCast ⟨fun _ => 0, fun _ => 0, []⟩ [65536]).eb 0 = 0 ∧ M.cost ⟨0, [1, 65536]⟩ (M.traceC exCast ⟨fun _ => 0, fun _ => 0, []⟩ [65536]).w = 4294967296 := by
  decide +kernel

/-- Two layers, the second reading the widths of the first; each batch widens the layer it meets; three batches. -/
example :
    let M : EbopsNet ℕ ℕ := ⟨[⟨0, [1, 4]⟩, ⟨1, [1, 4]⟩], fun u b w => max b (w u.layer), fun u w => if u.layer = 0 then w 0 * (3 / 2) else w 0 * w 1⟩
    CostsReadBack M.uses M.cost ∧ M.report (M.trace ⟨fun _ => 0, fun _ => 0, []⟩ [2, 5, 3]) = 7 + 25 := by
  refine ⟨?_, ?_⟩
  · intro pre u post hu w w' hw
    rcases pre with _ | ⟨a, _ | ⟨c, pre⟩⟩
    · simp at hu
      obtain ⟨rfl, rfl⟩ := hu
      simp [hw 0 (by simp)]
    · simp at hu
      obtain ⟨rfl, rfl, rfl⟩ := hu
      simp [hw 0 (by simp), hw 1 (by simp)]
    · simp at hu
  · decide +kernel

end HGQ
