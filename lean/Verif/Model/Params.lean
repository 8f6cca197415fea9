import Verif.Model.Trace

/-!
# Parameters behind a quantizer, over the life of a model

A kernel or bias is a Keras variable that is read through its quantizer on every call of the layer
(`qkernel`, `qbias`: `src/hgq/layers/core/dense.py` L93-102, used at L63-65; `src/hgq/layers/core/base.py`).
Between the calls the optimizer changes the variable and the trained width variable of the quantizer, and
`trace_minmax` may reset the quantizer (`src/hgq/utils/minmax_trace.py` L13-21).  One bit-width cell and the parameters
that share it are modelled.
-/
namespace HGQ

/-- What can happen to a parameter and its quantizer.
* `step ps w`: an optimizer step: new values of the parameters and of the trained width variable
  (`_f` of kif, `_b` of kbi: fixed_point_quantizer.py L218-241, L374-398; `_i` of a WRAP quantizer is not trained, L233-240,
  L381-389);
* `call fl`: the layer is called with `training = fl`, which reads the parameters through the quantizer
  (core/dense.py L60-68, L93-102; the flag reaches the quantizer through the call context of Keras);
* `reset`: `trace_minmax(..., reset=True)` starts (minmax_trace.py L67-68). -/
inductive PEvent
  | step (ps : List ℚ) (w : ℚ)
  | call (fl : Flag)
  | reset

/-- One event for parameters behind a kif quantizer (see `PEvent`; `kifCall`, `kifReset`). -/
def kifParam (q : QOpts) (st : List ℚ × KIFState) : PEvent → List ℚ × KIFState
  | .step ps w => (ps, { st.2 with fw := w })
  | .call fl => (st.1, (kifCall q st.2 fl st.1).1)
  | .reset => (st.1, kifReset q st.2)

/-- A history (see `kifParam`). -/
def kifParams (q : QOpts) (st : List ℚ × KIFState) (evs : List PEvent) : List ℚ × KIFState :=
  evs.foldl (kifParam q) st

/-- The quantized parameters at inference: `layer.qbias` / `layer.qkernel`, core/dense.py L93-102. -/
def kifRead (q : QOpts) (st : List ℚ × KIFState) : List ℚ := (kifCall q st.2 .false st.1).2

/-- One event for parameters behind a kbi quantizer (see `PEvent`; `kbiCall`, `kbiReset`). -/
def kbiParam (q : QOpts) (st : List ℚ × KBIState) : PEvent → List ℚ × KBIState
  | .step ps w => (ps, { st.2 with bw := w })
  | .call fl => (st.1, (kbiCall q st.2 fl st.1).1)
  | .reset => (st.1, kbiReset q st.2)

/-- A history (see `kbiParam`). -/
def kbiParams (q : QOpts) (st : List ℚ × KBIState) (evs : List PEvent) : List ℚ × KBIState :=
  evs.foldl (kbiParam q) st

/-- The quantized parameters at inference, core/dense.py L93-102. -/
def kbiRead (q : QOpts) (st : List ℚ × KBIState) : List ℚ := (kbiCall q st.2 .false st.1).2

end HGQ
