import Verif.Model.Arr
import Verif.Model.Dataset

/-!
# What `trace_minmax(..., return_results=True)` returns

Models `src/hgq/utils/minmax_trace.py` L62-99 (collection and packaging of the outputs).  An exception is `none`.
-/
namespace HGQ

/-- What calling a functional model returns: a tensor if the model was built with a bare output tensor, else a list
(Keras returns the outputs in the structure given to `keras.Model(inputs, outputs)`). -/
inductive ModelOut (V : Type)
  | tensor (a : Arr V)
  | list (as : List (Arr V))

variable {V : Type}

/-- `np.array([a, b, ...])` of arrays: stacked along a new first axis; arrays of different shapes raise
(`ValueError: ... inhomogeneous shape`). -/
def npStack : List (Arr V) → Option (Arr V)
  | [] => none
  | a :: r => if ∀ b ∈ r, b.shape = a.shape then
      some ⟨(a :: r).length :: a.shape, fun idx => ((a :: r).getD (idx.headD 0) a).get idx.tail⟩ else none

/-- `ops.convert_to_numpy(r)`, minmax_trace.py L80: a list is turned into one array. -/
def convertToNumpy : ModelOut V → Option (Arr V)
  | .tensor a => some a
  | .list as => npStack as

/-- `r[i]` on an array. -/
def npIndex (i : ℕ) (a : Arr V) : Option (Arr V) :=
  match a.shape with
  | [] => none
  | n :: _ => if i < n then some (a.sample i) else none

/-- The loop and the packaging for `return_results=True`, minmax_trace.py L76-81, L94-97; `n` is `len(model.outputs)` (L74), `rs` what
the model returned for each batch. -/
def traceResults (n : ℕ) (rs : List (ModelOut V)) : Option (List (Arr V)) :=
  (rs.mapM convertToNumpy).bind fun results =>
    if n = 1 then (npConcat 0 results).map fun a => [a]
    else (List.range n).mapM fun i => (results.mapM (npIndex i)).bind (npConcat 0)

end HGQ
