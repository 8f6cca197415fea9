import Verif.Model.MhaArr

/-!
# Table layers inside a traced model

`layers/table/dense.py`, `layers/table/conv.py` on batches, `_dais_tracer/layers/table.py` on one sample, with arrays.  The small network of a pair
(input `i`, output `o`), with its batch normalization, is a function (C74 for how the tracer gathers its weights, normalization and activations).
-/
namespace HGQ

/-- A built `QDenseT`. -/
structure TableArr where
  nIn : ℕ
  nOut : ℕ
  enableIq : Bool
  iq : ArrQuant
  /-- Network of the pair and batch normalization. -/
  net : ℕ → ℕ → ℚ → ℚ
  toq : ArrQuant
  relu : Bool
  oq : Option ArrQuant

/-- `broadcast_to(x[..., None], x.shape + (n_out,))`, table/dense.py L121, _dais_tracer/layers/table.py L83. -/
def tableBroadcast (nOut : ℕ) (x : Arr ℚ) : Arr ℚ := ⟨x.shape ++ [nOut], fun idx => x.get idx.dropLast⟩

/-- Input of the pair an entry belongs to. -/
def pairIn (idx : List ℕ) : ℕ := idx.dropLast.getLastD 0
/-- Output of the pair. -/
def pairOut (idx : List ℕ) : ℕ := idx.getLastD 0

/-- `sum(x, axis=-2)`, table/dense.py L130, _dais_tracer/layers/table.py L155. -/
def tableReduce (x : Arr ℚ) : Arr ℚ := npReduce List.sum false (List.replicate (x.shape.length - 2) false ++ [true, false]) x

/-- `QDenseT.call` at inference, table/dense.py L119-130, and the output quantizer (core/base.py L88-110). -/
def TableArr.keras (t : TableArr) (x : Arr ℚ) : Option (Arr ℚ) :=
  if 2 ≤ x.shape.length ∧ x.shape.getLastD 0 = t.nIn then
    (kerasOpt (onlyIf t.enableIq t.iq) (tableBroadcast t.nOut x).norm).bind fun y =>
      (run (t.toq.keras ⟨y.shape, fun idx => t.net (pairIn idx) (pairOut idx) (y.get idx)⟩)).bind fun z =>
        kerasOpt t.oq (reluKeras t.relu (tableReduce z).norm)
  else none

/-- Range and step the tracer knows for the variable at an index of the sample (`out.lhs`, _dais_tracer/layers/table.py L86). -/
structure LhsArr where
  l : List ℕ → ℚ
  h : List ℕ → ℚ
  s : List ℕ → ℚ

/-- `np.round((h - l) / s).astype(np.uint32) + 1`, table.py L88 (numpy rounds halves to even: no difference at integers). -/
def LhsArr.size (v : LhsArr) (idx : List ℕ) : ℕ := (round ((v.h idx - v.l idx) / v.s idx)).toNat + 1

/-- `np.linspace(l, h, n)[t]`, L101. -/
def linspaceQ (l h : ℚ) (n t : ℕ) : ℚ := if n ≤ 1 then l else l + t * ((h - l) / ((n : ℚ) - 1))

/-- `astype(np.int32)`. -/
def int32 (z : ℤ) : ℤ := (z + 2147483648) % 4294967296 - 2147483648

/-- The table at an index of the sample, L98-149: the network at the grid points, quantized with the widths of `toq` (broadcast to `(1,) + shape`); its scaler and
affine map are not applied. -/
def TableArr.table (t : TableArr) (v : LhsArr) (idx : List ℕ) : List ℚ :=
  let j := bcastIdx t.toq.ws (0 :: idx)
  (List.range (v.size idx)).map fun p =>
    quantize t.toq.rm t.toq.om (t.toq.k j) (int32 (t.toq.i j)) (int32 (t.toq.f j))
      (t.net (pairIn idx) (pairOut idx) (linspaceQ (v.l idx) (v.h idx) (v.size idx) p))

/-- `FixedVariable.lookup(table)`: the entry at the number of steps above the lower bound. -/
def lookupQ (v : LhsArr) (idx : List ℕ) (table : List ℚ) (x : ℚ) : ℚ := table.getD (⌊(x - v.l idx) / v.s idx⌋).toNat 0

/-- `ReplayDenseTable.call`, table.py L80-156; `op.iq` raises if the input quantizer is disabled (core/base.py L264-268). -/
def TableArr.replayCall (t : TableArr) (v : LhsArr) (x : Arr ℚ) : Option (Arr ℚ) :=
  if t.enableIq = true ∧ x.shape.getLastD 0 = t.nIn then
    (run (t.iq.mirror (tableBroadcast t.nOut x).norm)).bind fun y =>
      if bcastOk t.toq.ws (1 :: y.shape) then
        some (tableReduce (Arr.norm ⟨y.shape, fun idx => lookupQ v idx (t.table v idx) (y.get idx)⟩)).norm
      else none
  else none

/-- The rest of `ReplayOperationBase.__call__`, _base.py L120-139: activation and output quantizer. -/
def TableArr.replay (t : TableArr) (v : LhsArr) (x : Arr ℚ) : Option (Arr ℚ) :=
  (t.replayCall v x).bind fun r => mirrorOpt t.oq (reluTraced t.relu r)

/-! ## Convolutions -/

/-- `ops.image.extract_patches(x, **im2col_params)`, table/conv.py L73-79: `osp` output positions, patches of `P` entries, `geo p j` the flat index in the sample of
entry `j` of the patch at `p`, `none` for padding.  Channels last; in one dimension the axis of size 1 is added and removed. -/
def kerasPatches (P : ℕ) (osp : List ℕ) (geo : List ℕ → ℕ → Option ℕ) (x : Arr ℚ) : Option (Arr ℚ) :=
  match x.shape with
  | B :: s => some ⟨B :: osp ++ [P], fun idx => extractPatches 0 (geo idx.tail.dropLast) (fun i => x.get (idx.headD 0 :: unflat s i)) (idx.getLastD 0)⟩
  | [] => none

/-- `ReplayConvTable.call`, table.py L162-173. -/
def tracePatches (P : ℕ) (osp : List ℕ) (geo : List ℕ → ℕ → Option ℕ) (x : Arr ℚ) : Option (Arr ℚ) :=
  some ⟨osp ++ [P], fun idx => symbolicExtract f32Int 0 (geo idx.dropLast) (fun i => x.get (unflat x.shape i)) (idx.getLastD 0)⟩

/-! ## Layers of a model with tables -/

inductive YLayer
  | base (l : XLayer)
  /-- `QDenseT`, with the ranges known when it is traced. -/
  | denseT (t : TableArr) (v : LhsArr)
  /-- `QConvT1D`, `QConvT2D`. -/
  | convT (P : ℕ) (osp : List ℕ) (geo : List ℕ → ℕ → Option ℕ) (t : TableArr) (v : LhsArr)

def YLayer.keras : YLayer → List (Arr ℚ) → Option (Arr ℚ)
  | .base l => l.keras
  | .denseT t _ => single t.keras
  | .convT P osp geo t _ => single fun x => (run (kerasPatches P osp geo x)).bind t.keras

def YLayer.replay (fb : ℤ) : YLayer → List (Arr ℚ) → Option (Arr ℚ)
  | .base l => l.replay fb
  | .denseT t v => single (t.replay v)
  | .convT P osp geo t v => single fun x => (run (tracePatches P osp geo x)).bind (t.replay v)

end HGQ
