import Verif.Model.EndToEnd

/-!
# The Alkaid plugin on a whole model

Alkaid traces arrays with a batch axis of size 1.  What the handlers of `src/hgq/_alkaid_keras_plugin` compute themselves is modelled from the
code; what they inherit from the external converter (`ReplayDense`, `ReplayConv`, `ReplayPool`, `ReplayBatchNormalization`, `ReplayMerge`, the
handlers of plain Keras layers, the walk over the graph) is taken to be what Keras computes on a batch of one: trusted base.
-/
namespace HGQ

/-- `mirror_quantizer`, _alkaid_keras_plugin/_base.py L15-28: `v` already has a batch axis, one more is put in front (L20), bit widths are
broadcast from the right to this shape (L21-23), entry 0 is taken (L24). -/
def ArrQuant.alkaid (q : ArrQuant) (v : Arr ℚ) : Option (Arr ℚ) :=
  let pad := 1 + v.shape.length - q.ws.length
  let ws := List.replicate pad 1 ++ q.ws
  if bcastOk ws (1 :: v.shape) then
    some ⟨v.shape, fun idx => let j := (bcastIdx ws (0 :: idx)).drop pad
      mirrorQuantizer q.scaler q.affine q.rm q.om (q.k j) (q.i j) (q.f j) (v.get idx)⟩
  else none

/-- `_QSoftmax.call` without mask, activation.py L31-52.  Differences and products broadcast; the tables (`_QFunctionLUT` with its quantizers)
act at an index of the sample. -/
def alkaidSoftmax (stable : Bool) (fl : List Bool) (expT invT : List ℕ → ℚ → ℚ) (x : Arr ℚ) : Option (Arr ℚ) :=
  let inputs := if stable then npBin (· - ·) (npReduce (poolMax 0) true (false :: fl) x) x else some x
  inputs.bind fun y =>
    let e : Arr ℚ := ⟨y.shape, fun idx => expT idx.tail (y.get idx)⟩
    let sums := npReduce List.sum true (false :: fl) e
    let divisor : Arr ℚ := ⟨sums.shape, fun idx => invT (dropKept true fl idx.tail) (sums.get idx)⟩
    npBin (· * ·) e divisor

/-- Handlers of the quantized layers on arrays with batch axis 1: `_QReduction.call` (ops.py L64-66), `_QAveragePow2.call` (L30-32),
`_QEinsum.call` for `QEinsum` (L38-46), `_QFunctionLUT.call` (activation.py L15-24), `_QSoftmax.call`; the others are inherited from the external
converter. -/
def Core.alkaid : Core → List (Arr ℚ) → Option (Arr ℚ)
  | .sum keep fl scale => single fun x => let r := npReduce List.sum keep (false :: fl) x
      some ⟨r.shape, fun idx => r.get idx * scale⟩
  | .avgPow2 scale => fun xs => (daMerge List.sum xs).map fun a => ⟨a.shape, fun idx => a.get idx * scale⟩
  | .einsum aL bL outL => fun xs => match xs with
      | [x, y] => npEinsum aL bL outL x y
      | _ => none
  | .lut f => single fun x => some (npFirst (Arr.mapQ f (npExpand x)))
  | .softmax stable fl expT invT => single (alkaidSoftmax stable fl expT invT)
  | core => core.keras

/-- The input quantizers, _base.py L56-66 (`zip` stops at the shorter list). -/
def alkaidIq (iq : Option (List ArrQuant)) (xs : List (Arr ℚ)) : Option (List (Arr ℚ)) :=
  match iq with
  | none => some xs
  | some qs => (List.zipWith (fun q x => run (ArrQuant.alkaid q x)) qs xs).mapM id

/-- The trace of a layer: `post_iq` if the input quantizers are enabled, `final`. -/
structure AStages where
  postIq : Option (List (Arr ℚ))
  final : Arr ℚ

/-- `QLayerMixin.__call__`, _base.py L50-78: input quantizers, the inherited call (core, then activation: external, trusted), output quantizer. -/
def alkaidQLayer (iq : Option (List ArrQuant)) (core : Core) (rl : Bool) (oq : Option ArrQuant) (xs : List (Arr ℚ)) : Option AStages :=
  (alkaidIq iq xs).bind fun ins => (run (core.alkaid ins)).bind fun c =>
    match oq with
    | none => some ⟨iq.map fun _ => ins, reluKeras rl c⟩
    | some q => (run (q.alkaid (reluKeras rl c))).map fun o => ⟨iq.map fun _ => ins, o⟩

/-- Layers: quantizers (`ReplayQuantizer`, core.py L29-37), quantized layers; plain Keras operations by the external converter. -/
def LLayer.alkaid : LLayer → List (Arr ℚ) → Option (Arr ℚ)
  | .quantizer q => fun xs => run (single q.alkaid xs)
  | .qlayer iq core rl oq => fun xs => (alkaidQLayer iq core rl oq xs).map (·.final)
  | l => l.keras

/-- The node as traced by Alkaid. -/
def LNode.alkaidNode {T : Type} (n : LNode T) : GNode T (Arr ℚ) :=
  ⟨n.name, n.isInput, n.requires, [n.produces], fun xs => optList (n.layer.alkaid xs)⟩

end HGQ
