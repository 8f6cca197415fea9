import Verif.Model.Trace

/-!
# Bit-width mapper (`src/hgq/quantizer/internal/base.py`) and the tensor level of the KIF quantizer

A shape is a list of dimensions (`none` = unknown), a multi-index is a list of naturals, a tensor a function on
multi-indices (only in-range indices are ever used).  A failed assertion is `none`.
-/
namespace HGQ

/-- `check_axis`, base.py L51-68. -/
def checkAxis (axis : List ℤ) (ndim : ℕ) : Option (List ℕ) :=
  let ax : List ℤ := axis.map (fun a => if a ≥ 0 then a else a + (ndim : ℤ))
  if ax.all (fun a => decide (0 ≤ a ∧ a < ndim)) then some (ax.map Int.toNat) else none

/-- `np.setdiff1d(np.arange(N), l)`, base.py L168, L171. -/
def setdiffRange (n : ℕ) (l : List ℕ) : List ℕ := (List.range n).filter (fun a => !(l.contains a))

/-- `DefaultBitwidthMapper` attributes `heterogeneous_axis`, `homogeneous_axis` (L152-161). -/
structure Mapper where
  het : Option (List ℤ)
  hom : Option (List ℤ)

/-- Constructor assertion, L154-157: exactly one of the two is given (fresh objects, `_shape_inferenced=False`). -/
def Mapper.valid (m : Mapper) : Bool := m.het.isNone ^^ m.hom.isNone

/-- Axis part of `inference_weight_shape`, L163-171: the resolved (heterogeneous, homogeneous) axes.
With both `None` the code fails later at L174; the model returns `none`. -/
def Mapper.resolve (m : Mapper) (n : ℕ) : Option (List ℕ × List ℕ) :=
  match m.het with
  | some h => (checkAxis h n).map (fun h => (h, setdiffRange n h))
  | none =>
    match m.hom with
    | some h => (checkAxis h n).map (fun h => (setdiffRange n h, h))
    | none => none

/-- The loop L173-178 filling `weight_shape`; fails on an unknown dimension. -/
def fillShape (shape : List (Option ℕ)) (het : List ℕ) (ws : List ℕ) : Option (List ℕ) :=
  match het with
  | [] => some ws
  | a :: het =>
    match shape[a]? with
    | some (some d) => fillShape shape het (ws.set a d)
    | _ => none

/-- `inference_weight_shape`, L163-180. -/
def Mapper.weightShape (m : Mapper) (shape : List (Option ℕ)) : Option (List ℕ) :=
  match m.resolve shape.length with
  | none => none
  | some (het, _) => fillShape shape het (List.replicate shape.length 1)

/-- All multi-indices of a shape in row-major order. -/
def indices : List ℕ → List (List ℕ)
  | [] => [[]]
  | n :: ns => (List.range n).flatMap (fun i => (indices ns).map (i :: ·))

/-- `bw_to_x` = `broadcast_to` (L182-183) of a tensor of shape `ws` to the same rank: element `idx` of the result reads
this element of the bit-width tensor. -/
def bcastIdx (ws : List ℕ) (idx : List ℕ) : List ℕ := List.zipWith (fun w i => if w = 1 then 0 else i) ws idx

/-- Position of the result of a `keepdims=True` reduction over `hom` to which element `idx` contributes (L185-189). -/
def keepIdx (hom : List ℕ) (idx : List ℕ) : List ℕ := idx.mapIdx (fun a i => if hom.contains a then 0 else i)

/-- Elements reduced into position `j` by a `keepdims=True` reduction over `hom` of a tensor of shape `shape`. -/
def fibre (hom : List ℕ) (shape : List ℕ) (j : List ℕ) : List (List ℕ) :=
  (indices shape).filter (fun idx => keepIdx hom idx = j)

/-- `x_to_bw_absmax`, L185-186. -/
def xToBwAbsmax (hom : List ℕ) (shape : List ℕ) (x : List ℕ → ℚ) (j : List ℕ) : ℚ :=
  absmax ((fibre hom shape j).map x)

/-- `x_to_bw_sign`, L188-189. -/
def xToBwSign (hom : List ℕ) (shape : List ℕ) (x : List ℕ → ℚ) (j : List ℕ) : Bool :=
  anyNeg ((fibre hom shape j).map x)

/-- One input tensor. -/
structure Tensor where
  shape : List ℕ
  val : List ℕ → ℚ

/-- Tensor-level state update of `FixedPointQuantizerKIF.call` (fixed_point_quantizer.py L401-429): every cell is updated
from the reduction over its fibre. -/
def kifTensorState (q : QOpts) (hom : List ℕ) (st : List ℕ → KIFState) (fl : Flag) (x : Tensor) : List ℕ → KIFState :=
  fun j => (kifCall q (st j) fl ((fibre hom x.shape j).map x.val)).1

/-- Tensor-level output of the same call: element `idx` is processed with the broadcast `k, i, f` (the old ones,
L141-147, L402-405); elementwise, so it is the output of the cell on that single element. -/
def kifTensorOut (q : QOpts) (ws : List ℕ) (st : List ℕ → KIFState) (fl : Flag) (x : Tensor) (idx : List ℕ) : Option ℚ :=
  (kifCall q (st (bcastIdx ws idx)) fl [x.val idx]).2.head?

/-- `trace_minmax` on a whole tensor quantizer (minmax_trace.py L69-81). -/
def kifTensorTrace (q : QOpts) (hom : List ℕ) (reset : Bool) (st : List ℕ → KIFState) (xs : List Tensor) :
    List ℕ → KIFState :=
  xs.foldl (fun st x => kifTensorState q hom st .tracing x) (if reset then fun j => kifReset q (st j) else st)

end HGQ
