import Verif.Model.LayerMeta
import Mathlib.Tactic

/-!
# C52 (flags) and C67 (the EBOPs term of the loss does not depend on what was created before)
-/
namespace HGQ

/-! ## C67 -/

theorem after_append (C : Classes) (h : List ℕ) (c : ℕ) : C.after (h ++ [c]) = C.instantiate (C.after h) c := by
  simp [Classes.after]

theorem wrapped_after (C : Classes) (h : List ℕ) (c : ℕ) : (C.after h).wrapped c = true ↔ c ∈ h := by
  induction h using List.reverseRecOn with
  | nil => simp [Classes.after, Classes.init]
  | append_singleton h d ih =>
    rw [after_append, Classes.instantiate]
    split
    · rename_i hw
      rw [ih]
      constructor
      · intro h; simp [h]
      · intro hc
        simp only [List.mem_append, List.mem_singleton] at hc
        rcases hc with hc | rfl
        · exact hc
        · exact ih.1 hw
    · simp only [List.mem_append, List.mem_singleton]
      by_cases hcd : c = d
      · simp [hcd]
      · simp [hcd, ih]

/-- A class that was never instantiated keeps the `call` of its body. -/
theorem own_after_not_mem (C : Classes) (h : List ℕ) (c : ℕ) (hc : c ∉ h) : (C.after h).own c = C.init.own c := by
  induction h using List.reverseRecOn with
  | nil => rfl
  | append_singleton h d ih =>
    simp only [List.mem_append, List.mem_singleton, not_or] at hc
    rw [after_append, Classes.instantiate]
    split
    · exact ih hc.1
    · rw [← ih hc.1]
      simp only
      split <;> simp [hc.2]

/-- Further instantiations do not change the `call` stored on an already instantiated class. -/
theorem own_after_mem (C : Classes) (h : List ℕ) (d c : ℕ) (hc : c ∈ h) :
    (C.after (h ++ [d])).own c = (C.after h).own c := by
  rw [after_append, Classes.instantiate]
  split
  · rfl
  · rename_i hw
    have hne : c ≠ d := by
      rintro rfl
      exact hw ((wrapped_after C h c).2 hc)
    simp only
    split <;> simp [hne]

/-- At its first instantiation the current `call` of a class gets one more wrapper. -/
theorem own_after_first (C : Classes) (h : List ℕ) (c : ℕ) (hc : c ∉ h) (f : CallFn)
    (hf : (C.after h).lookup (C.mro c) = some f) : (C.after (h ++ [c])).own c = some ⟨f.wraps + 1, f.body⟩ := by
  rw [after_append, Classes.instantiate, if_neg (by rw [wrapped_after]; exact hc)]
  simp [hf]

/-- The stored `call` of a class is decided at its first occurrence in the history. -/
theorem own_after_split (C : Classes) (pre post : List ℕ) (c : ℕ) (hc : c ∉ pre) (f : CallFn)
    (hf : (C.after pre).lookup (C.mro c) = some f) :
    (C.after (pre ++ c :: post)).own c = some ⟨f.wraps + 1, f.body⟩ := by
  induction post using List.reverseRecOn with
  | nil => exact own_after_first C pre c hc f hf
  | append_singleton post d ih =>
    have : pre ++ c :: (post ++ [d]) = (pre ++ c :: post) ++ [d] := by simp
    rw [this, own_after_mem C _ d c (by simp), ih]

theorem exists_first {h : List ℕ} {d : ℕ} (hd : d ∈ h) : ∃ pre post, h = pre ++ d :: post ∧ d ∉ pre ∧ pre = h.takeWhile (· ≠ d) := by
  induction h with
  | nil => simp at hd
  | cons a h ih =>
    by_cases ha : a = d
    · exact ⟨[], h, by simp [ha], by simp, by simp [ha]⟩
    · rcases List.mem_cons.1 hd with rfl | hd
      · exact absurd rfl ha
      · obtain ⟨pre, post, h1, h2, h3⟩ := ih hd
        exact ⟨a :: pre, post, by simp [h1], by simp [h2, Ne.symm ha], by rw [List.takeWhile_cons, if_pos (by simpa using ha), ← h3]⟩

theorem superOf_sub (b : ℕ) (l : List ℕ) : ∀ c ∈ superOf b l, c ∈ l := by
  induction l with
  | nil => simp [superOf]
  | cons a l ih =>
    intro c hc
    simp only [superOf] at hc
    split at hc
    · exact List.mem_cons_of_mem _ hc
    · exact List.mem_cons_of_mem _ (ih c hc)

theorem lossCount_zero (C : Classes) (st : MetaState) (n : ℕ) (l : List ℕ) (hn : l.length ≤ n)
    (h : ∀ c ∈ l, ∀ f, st.own c = some f → f.wraps = 0) : C.lossCount st l = 0 := by
  induction n generalizing l with
  | zero => have : l = [] := by simpa using hn
            subst this; rw [Classes.lossCount]
  | succ n ih =>
    cases l with
    | nil => rw [Classes.lossCount]
    | cons c r =>
      rw [Classes.lossCount]
      have hr : r.length ≤ n := by simpa using hn
      cases ho : st.own c with
      | none => exact ih r hr fun d hd => h d (List.mem_cons_of_mem _ hd)
      | some f =>
        simp only
        rw [h c (List.mem_cons_self ..) f ho]
        split
        · rw [Nat.zero_add]
          refine ih _ ?_ ?_
          · split
            · exact hr
            · exact (superOf_length ..).trans hr
          · intro d hd
            split at hd
            · exact h d (List.mem_cons_of_mem _ hd)
            · exact h d (List.mem_cons_of_mem _ (superOf_sub _ _ d hd))
        · rfl

theorem init_own_wraps (C : Classes) (c : ℕ) (f : CallFn) (h : C.init.own c = some f) : f = ⟨0, c⟩ := by
  simp only [Classes.init] at h
  split at h
  · injection h with h; exact h.symm
  · simp at h

theorem findSome_congr {st st' : MetaState} (l : List ℕ) (h : ∀ c ∈ l, st.own c = st'.own c) : st.lookup l = st'.lookup l := by
  unfold MetaState.lookup
  induction l with
  | nil => rfl
  | cons a l ih =>
    rw [List.findSome?_cons, List.findSome?_cons, h a (List.mem_cons_self ..), ih fun c hc => h c (List.mem_cons_of_mem _ hc)]

/-- **C67 (partial).** For every class hierarchy, every history of layer creations and every class `d` that occurs in it: if no
proper base class of `d` was ever instantiated, then a training call of a `d` layer adds the EBOPs term exactly once.
Missing: histories with instances of a base class, where it is false (`C67_inherited_violated`, `C67_super_violated`). -/
theorem C67_once_partial (C : Classes) (d : ℕ) (l : List ℕ) (hmro : C.mro d = d :: l)
    (hcall : ∃ c ∈ d :: l, C.defines c = true) (history : List ℕ) (hd : d ∈ history) (hl : ∀ c ∈ l, c ∉ history) :
    C.lossTerms history d = 1 := by
  obtain ⟨pre, post, rfl, hpre, _⟩ := exists_first hd
  have hinit : ∀ c ∈ d :: l, (C.after pre).own c = C.init.own c := by
    intro c hc
    apply own_after_not_mem
    rcases List.mem_cons.1 hc with rfl | hc
    · exact hpre
    · exact fun h => hl c hc (by simp [h])
  obtain ⟨f, hf⟩ : ∃ f, (C.after pre).lookup (C.mro d) = some f := by
    rw [hmro, findSome_congr _ hinit]
    obtain ⟨c, hc, hdef⟩ := hcall
    cases hn : C.init.lookup (d :: l) with
    | some f => exact ⟨f, rfl⟩
    | none =>
      rw [MetaState.lookup, List.findSome?_eq_none_iff] at hn
      have := hn c hc
      simp [Classes.init, hdef] at this
  have hf0 : f.wraps = 0 := by
    rw [hmro, findSome_congr _ hinit] at hf
    obtain ⟨c, _, hc⟩ := List.exists_of_findSome?_eq_some hf
    rw [init_own_wraps C c f hc]
  have hown := own_after_split C pre post d hpre f hf
  unfold Classes.lossTerms
  rw [hmro, Classes.lossCount, hown]
  simp only [hf0]
  have hz : ∀ l' : List ℕ, (∀ c ∈ l', c ∈ l) → C.lossCount (C.after (pre ++ d :: post)) l' = 0 := by
    intro l' hl'
    refine lossCount_zero C _ l'.length l' le_rfl fun c hc g hg => ?_
    rw [own_after_not_mem C _ c (hl c (hl' c hc))] at hg
    rw [init_own_wraps C c g hg]
  split
  · rw [hz]
    intro c hc
    split at hc
    · exact hc
    · exact superOf_sub _ _ c hc
  · rfl

/-- `QMeanPow2` and `QLinformerAttention` without their base classes, among others: once. -/
example : hgqClasses.lossTerms [1, 9, 6, 1, 3] 1 = 1 ∧ hgqClasses.lossTerms [1, 9, 6, 1, 3] 6 = 1 := by decide +kernel

theorem findSome_two (st : MetaState) (a b : ℕ) : st.lookup [a, b] = (st.own a).orElse fun _ => st.own b := by
  simp only [MetaState.lookup, List.findSome?_cons, List.findSome?_nil]
  cases st.own a <;> simp [Option.orElse] <;> cases st.own b <;> rfl

theorem own_base (C : Classes) (p : ℕ) (hp : C.mro p = [p]) (hdp : C.defines p = true) (h : List ℕ) :
    (C.after h).own p = some ⟨if p ∈ h then 1 else 0, p⟩ := by
  by_cases hm : p ∈ h
  · obtain ⟨pre, post, rfl, hpre, _⟩ := exists_first hm
    rw [own_after_split C pre post p hpre ⟨0, p⟩]
    · simp
    · rw [hp]
      simp [MetaState.lookup, own_after_not_mem C pre p hpre, Classes.init, hdp]
  · rw [own_after_not_mem C h p hm]
    simp [Classes.init, hdp, hm]

/-- **C67 violated** for a class that inherits `call` (QMeanPow2 from QSum, QAveragePow2 from QAdd, QMultiHeadAttentionT from
QMultiHeadAttention): for every history, the term is added twice exactly if a base layer was created before the first layer of the
class. -/
theorem C67_inherited_violated (C : Classes) (d p : ℕ) (hdp : d ≠ p) (hd : C.mro d = [d, p]) (hp : C.mro p = [p])
    (h1 : C.defines d = false) (h2 : C.defines p = true) (h3 : C.superCall p = false) (history : List ℕ) (hmem : d ∈ history) :
    C.lossTerms history d = if p ∈ history.takeWhile (· ≠ d) then 2 else 1 := by
  obtain ⟨pre, post, hh, hpre, hpre'⟩ := exists_first hmem
  rw [← hpre']
  have hown : (C.after history).own d = some ⟨(if p ∈ pre then 1 else 0) + 1, p⟩ := by
    rw [hh]
    refine own_after_split C pre post d hpre ⟨if p ∈ pre then 1 else 0, p⟩ ?_
    rw [hd, findSome_two, own_after_not_mem C pre d hpre, own_base C p hp h2 pre]
    simp [Classes.init, h1, Option.orElse]
  unfold Classes.lossTerms
  rw [hd, Classes.lossCount, hown]
  simp only [h3]
  split <;> simp

/-- **C67 violated** for a class whose `call` calls `super().call` (QLinformerAttention and QSALTAttention of QMultiHeadAttention,
QConvT1D/2D of QDenseT): for every history, the term is added twice exactly if a base layer exists at all — creating one later
changes layers that already exist. -/
theorem C67_super_violated (C : Classes) (d p : ℕ) (hdp : d ≠ p) (hd : C.mro d = [d, p]) (hp : C.mro p = [p])
    (h1 : C.defines d = true) (h2 : C.defines p = true) (h3 : C.superCall p = false) (h4 : C.superCall d = true)
    (history : List ℕ) (hmem : d ∈ history) :
    C.lossTerms history d = if p ∈ history then 2 else 1 := by
  obtain ⟨pre, post, hh, hpre, hpre'⟩ := exists_first hmem
  have hown : (C.after history).own d = some ⟨1, d⟩ := by
    rw [hh]
    refine own_after_split C pre post d hpre ⟨0, d⟩ ?_
    rw [hd, findSome_two, own_after_not_mem C pre d hpre]
    simp [Classes.init, h1, Option.orElse]
  unfold Classes.lossTerms
  rw [hd, Classes.lossCount, hown]
  simp only [h4, if_true]
  rw [Classes.lossCount, own_base C p hp h2 history]
  simp only [h3]
  split <;> simp

/-- The hypotheses are met by the classes of HGQ2, and the factor reaches 4 for QLinformerAttentionT. -/
example : hgqClasses.lossTerms [0, 1] 1 = 2 ∧ hgqClasses.lossTerms [1, 0] 1 = 1 ∧ hgqClasses.lossTerms [6] 6 = 1 ∧
    hgqClasses.lossTerms [6, 4] 6 = 2 ∧ hgqClasses.lossTerms [4, 5, 6, 7] 7 = 4 := by decide +kernel

/-! ## C52 -/

/-- Spec: a flag not passed takes the default of the layer type: the global configuration for plain layers; enabled quantizers for table
layers. -/
def Spec.flagOr (passed : Option Bool) (default : Bool) : Bool :=
  match passed with
  | some b => b
  | none => default

open Spec in
/-- **C52 (partial), EBOPs.** Whatever the arguments and the global configuration: a plain or table layer for which the call succeeds
computes EBOPs exactly if it is a training (or tracing) call and EBOPs are enabled — explicitly, or by the global configuration
together with an enabled input quantizer — and then its input quantizer is enabled; the output is quantized exactly if the output
quantizer is enabled. A softmax may compute EBOPs without an input quantizer. -/
theorem C52_ebops_partial (g : FlagGlobals) (a : FlagArgs) (training : Bool) (k : LayerKind) (hk : k = .plain ∨ k = .lut)
    (e : CallEffect) (h : runLayer g k a training = .ok e) :
    let iq := flagOr a.iq (if k = .plain then g.iq else true)
    let oq := flagOr a.oq (if k = .plain then g.oq else true)
    (e.ebops = true ↔ training = true ∧ (a.ebops = some true ∨ a.ebops = none ∧ g.ebops = true ∧ iq = true)) ∧
    (e.ebops = true → iq = true) ∧ e.oq = oq := by
  obtain ⟨gi, go, ge⟩ := g
  obtain ⟨ai, ao, ae⟩ := a
  rcases hk with rfl | rfl
  · cases gi <;> cases go <;> cases ge <;> rcases ai with _ | _ | _ <;> rcases ao with _ | _ | _ <;> rcases ae with _ | _ | _ <;>
      cases training <;> first | (injection h with h; subst h; decide) | injection h
  · cases gi <;> cases go <;> cases ge <;> rcases ai with _ | _ | _ <;> rcases ao with _ | _ | _ <;> rcases ae with _ | _ | _ <;>
      cases training <;> first | (injection h with h; subst h; decide) | injection h

/-- **C52 (partial), no failure.** A plain layer works for every combination of flags except `enable_ebops=True` with the input
quantizer disabled, in training; if `enable_ebops` is not passed, it always works.  QSoftmax always works. -/
theorem C52_no_failure_partial (g : FlagGlobals) (a : FlagArgs) (training : Bool) :
    ((∃ e, runLayer g .plain a training = .ok e) ↔ ¬ (training = true ∧ a.ebops = some true ∧ a.iq.getD g.iq = false)) ∧
    (∃ e, runLayer g .softmax a training = .ok e) := by
  obtain ⟨gi, go, ge⟩ := g
  obtain ⟨ai, ao, ae⟩ := a
  constructor
  · rcases ai with _ | ai <;> rcases ae with _ | ae <;> simp only [runLayer, layerFlags, resolveFlags, Option.getD] <;>
      cases gi <;> cases ge <;> cases training <;> try cases ai
    all_goals try cases ae
    all_goals simp [readIq, bind, Except.bind, pure, Except.pure]
  · cases training <;> cases he : (layerFlags ⟨gi, go, ge⟩ .softmax ⟨ai, ao, ae⟩).ebops <;>
      simp [runLayer, he, bind, Except.bind, pure, Except.pure]

example : runLayer ⟨true, false, true⟩ .plain ⟨some false, some true, none⟩ true = .ok ⟨false, true⟩ ∧
    runLayer ⟨true, false, true⟩ .plain ⟨none, none, none⟩ true = .ok ⟨true, false⟩ := ⟨rfl, rfl⟩

/-- **C52 violated.** Explicit EBOPs without input quantizer fail in training; a table with `enable_oq=False` fails in training with
the default configuration, and its input quantizer off does not help when EBOPs are explicit; a QSimpleRNNCell without input
quantizer fails even at inference; a recurrent cell with `enable_oq=True` always fails; a QGRUCell without input quantizer cannot be
built. -/
theorem C52_flags_violated (g : FlagGlobals) (oq ebops : Option Bool) (training : Bool) :
    runLayer g .plain ⟨some false, oq, some true⟩ true = .error .iqDisabled ∧
    (g.ebops = true → runLayer g .lut ⟨none, some false, none⟩ true = .error .oqDisabled) ∧
    runLayer g .rnnCell ⟨some false, oq, ebops⟩ training = .error .iqDisabled ∧
    runLayer g .rnnCell ⟨some true, some true, ebops⟩ training = .error .tupleOutput ∧
    runLayer g .gruCell ⟨some true, some true, ebops⟩ training = .error .tupleOutput ∧
    runLayer g .gruCell ⟨some false, oq, ebops⟩ training = .error .notBuilt := by
  obtain ⟨gi, go, ge⟩ := g
  refine ⟨rfl, ?_, rfl, ?_, ?_, rfl⟩
  · rintro rfl; rfl
  · rcases ebops with _ | ebops
    · cases ge <;> cases training <;> rfl
    · cases ebops <;> cases training <;> rfl
  · rcases ebops with _ | ebops
    · cases ge <;> cases training <;> rfl
    · cases ebops <;> cases training <;> rfl

end HGQ
