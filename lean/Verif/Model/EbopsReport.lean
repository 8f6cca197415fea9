import Mathlib.Algebra.Order.Floor.Semiring
import Mathlib.Data.Rat.Floor
import Mathlib.Data.List.Dedup
import Verif.Model.Ebops

/-!
# The stored EBOPs over calls, tracing and optimizer steps

Wrapper of `call`, `layers/core/base.py` L94-105, `trace_minmax`, `utils/minmax_trace.py` L70-94, `FreeEBOPs.on_epoch_end`, `utils/sugar/ebops.py` L8-15.  Values are exact
rationals.
-/
namespace HGQ

/-- One place of the model where a layer object is called: the layer and the shape of its input there. -/
structure UseSite where
  layer : ℕ
  shape : List ℕ
  deriving DecidableEq, Repr

/-- A model: its call sites in execution order (a sub-layer comes before the layer that contains it finishes); what a training or tracing call does to the widths of
the layer; the cost `_compute_ebops(shape) * ebops_factor`, which may read the widths of other layers (attention reads those of its projections). -/
structure EbopsNet (W B : Type) where
  uses : List UseSite
  adapt : UseSite → B → (ℕ → W) → W
  cost : UseSite → (ℕ → W) → ℚ

/-- Widths, the variables `_ebops`, and the loss terms (without `beta`) added since the last forward pass began. -/
structure EbopsState (W : Type) where
  w : ℕ → W
  eb : ℕ → ℕ
  losses : List ℚ

variable {W B : Type}

/-- The wrapped call, base.py L94-105: first the call itself adapts the widths, then the cost is computed, cast to `uint32` (truncated; costs are non-negative and
assumed below `2^32`) and assigned, and added to the losses. -/
def EbopsNet.callUse (M : EbopsNet W B) (b : B) (st : EbopsState W) (u : UseSite) : EbopsState W :=
  let w := Function.update st.w u.layer (M.adapt u b st.w)
  let c := M.cost u w
  { w := w, eb := Function.update st.eb u.layer ⌊c⌋₊, losses := st.losses ++ [c] }

/-- A forward pass with `training` true or tracing; Keras clears the losses before it. -/
def EbopsNet.forward (M : EbopsNet W B) (st : EbopsState W) (b : B) : EbopsState W :=
  M.uses.foldl (M.callUse b) { st with losses := [] }

/-- `trace_minmax`, L79-84: one pass per batch (`_reset_minmax` only changes widths beforehand). -/
def EbopsNet.trace (M : EbopsNet W B) (st : EbopsState W) (batches : List B) : EbopsState W := batches.foldl M.forward st

/-- A training step: forward pass, then the optimizer changes the widths. -/
def EbopsNet.fitStep (M : EbopsNet W B) (st : EbopsState W) (e : B × ((ℕ → W) → ℕ → W)) : EbopsState W :=
  let st := M.forward st e.1
  { st with w := e.2 st.w }

/-- `fit` on a list of batches with the updates the optimizer makes after them. -/
def EbopsNet.fit (M : EbopsNet W B) (st : EbopsState W) (es : List (B × ((ℕ → W) → ℕ → W))) : EbopsState W := es.foldl M.fitStep st

/-- The wrapped call with the cast to `uint32` as the backend makes it, base.py L94-105, L198-205: some number below `2^32`, whatever the cost. -/
def EbopsNet.callUseC (M : EbopsNet W B) (cast : ℚ → Fin (2 ^ 32)) (b : B) (st : EbopsState W) (u : UseSite) : EbopsState W :=
  let w := Function.update st.w u.layer (M.adapt u b st.w)
  let c := M.cost u w
  { w := w, eb := Function.update st.eb u.layer (cast c), losses := st.losses ++ [c] }

/-- `EbopsNet.trace` (minmax_trace.py L79-84) with such a cast. -/
def EbopsNet.traceC (M : EbopsNet W B) (cast : ℚ → Fin (2 ^ 32)) (st : EbopsState W) (batches : List B) : EbopsState W :=
  batches.foldl (fun st b => M.uses.foldl (M.callUseC cast b) { st with losses := [] }) st

/-- Total over the layer objects, minmax_trace.py L87-94, sugar/ebops.py L12-15. -/
def EbopsNet.report (M : EbopsNet W B) (st : EbopsState W) : ℕ := ((M.uses.map (·.layer)).dedup.map st.eb).sum

end HGQ
