import Verif.Model.EndToEnd
import Verif.Spec.Conv

/-!
# Convolution and pooling in the tracer with concrete geometry

`Model/Replay.lean` and `Model/EndToEnd.lean` leave the geometry of patches a parameter; here it is that of the code: one to three spatial
axes, strides, dilation, padding, data format.  Exact rationals.
-/
namespace HGQ

/-- Entries of an axis covered by a dilated kernel. -/
def Win.ext (w : Win) : ℕ := (w.k - 1) * w.d + 1

/-- Output positions on an axis of `n` entries: Keras' convolution, which `keras.ops.image.extract_patches_3d` (called in
_dais_tracer/layers/conv.py L26-33) applies with an identity kernel.  `padding='same'` or `'valid'`. -/
def Win.out (same : Bool) (w : Win) (n : ℕ) : ℕ := if same then (n + w.s - 1) / w.s else (n - w.ext) / w.s + 1

/-- Padding in front. -/
def Win.front (same : Bool) (w : Win) (n : ℕ) : ℕ := if same then ((w.out true n - 1) * w.s + w.ext - n) / 2 else 0

/-- The entry of the axis at output position `o`, kernel entry `a`; `none` is padding. -/
def Win.src (same : Bool) (w : Win) (n o a : ℕ) : Option ℕ :=
  let z := o * w.s + a * w.d
  if w.front same n ≤ z ∧ z - w.front same n < n then some (z - w.front same n) else none

/-- All axes. -/
def srcs (same : Bool) : List Win → List ℕ → List ℕ → List ℕ → Option (List ℕ)
  | w :: ws, n :: sp, o :: p, a :: κ => match w.src same n o a, srcs same ws sp p κ with
    | some i, some r => some (i :: r)
    | _, _ => none
  | _, _, _, _ => some []

/-- The flat index in the image (shape `sp ++ [C]`) of entry `j` of the patch at `p`; a patch is flat over (kernel entry, channel). -/
def patchSrc (same : Bool) (ws : List Win) (sp : List ℕ) (C : ℕ) (p : List ℕ) (j : ℕ) : Option ℕ :=
  (srcs same ws sp p (unflat (ws.map (·.k)) (j / C))).map fun q => flat sp q * C + j % C

/-- Keras refuses kernels that do not fit (`valid`). -/
def fits (same : Bool) : List Win → List ℕ → Bool
  | w :: ws, n :: sp => (same || decide (w.ext ≤ n)) && fits same ws sp
  | _, _ => true

/-- Output positions of all axes. -/
def outs (same : Bool) (ws : List Win) (sp : List ℕ) : List ℕ := List.zipWith (Win.out same) ws sp

/-- `symbolic_extract_patches_3d`, _dais_tracer/layers/conv.py L15-46, on an image with channels last (the only use). -/
def symbolicPatches3 {V : Type} (same : Bool) (ws : List Win) (pad : V) (img : Arr V) : Option (Arr V) :=
  let sp := img.shape.dropLast
  let C := img.shape.getLastD 0
  if ws.length = 3 ∧ sp.length = 3 ∧ fits same ws sp = true then
    some ⟨outs same ws sp ++ [(ws.map (·.k)).prod * C],
      fun idx => symbolicExtract f32Int pad (patchSrc same ws sp C idx.dropLast) (fun i => img.get (unflat img.shape i)) (idx.getLastD 0)⟩
  else none

/-- `symbolic_extract_patches`, conv.py L49-89 (`size`, `strides` and `dilation_rate` given per axis; an integer is repeated): channels to
the end, axes of size 1 in front up to three spatial axes, patches, and these axes removed again. -/
def symbolicPatches {V : Type} (cfirst same : Bool) (ws : List Win) (pad : V) (images : Arr V) : Option (Arr V) :=
  let rank := images.shape.length - 1
  if rank = ws.length then
    let r := 3 - rank
    (if cfirst then npMoveaxis 0 (-1) images else some images).bind fun images =>
    (npReshape (List.replicate r 1 ++ images.shape) images).bind fun images =>
    (symbolicPatches3 same (List.replicate r ⟨1, 1, 1⟩ ++ ws) pad images).bind fun y =>
    npReshape (y.shape.drop r) y
  else none

/-- `ReplayQConv.call`, conv.py L109-146: kernel of shape `sizes ++ [a, G * b]` for `G` groups; the reshapes and the einsum at one position
are `replayConv`.  `bias = none` for `use_bias=False`: adding `None` leaves the traced array as it is (da4ml). -/
def replayQConv (cfirst same : Bool) (ws : List Win) (G a b : ℕ) (kernel : Arr ℚ) (bias : Option (ℕ → ℚ)) (inputs : Arr ℚ) : Option (Arr ℚ) :=
  (symbolicPatches cfirst same ws 0 inputs).bind fun x =>
  if x.shape.getLastD 0 = (ws.map (·.k)).prod * (G * a) ∧ kernel.shape = ws.map (·.k) ++ [a, G * b] then
    let outputs : Arr ℚ := ⟨x.shape.dropLast ++ [G * b], fun idx =>
      let v := replayConv ((ws.map (·.k)).prod) G a b (fun j => x.get (idx.dropLast ++ [j])) (fun j => kernel.get (unflat kernel.shape j)) (idx.getLastD 0)
      match bias with | some β => v + β (idx.getLastD 0) | none => v⟩
    if cfirst then npMoveaxis (-1) 0 outputs else some outputs
  else none

/-- `ReplayPool.call`, _dais_tracer/layers/pool.py L44-110, windowed layers: the sample has no batch axis, but `channels_first` is handled by
`np.moveaxis(inputs, 1, -1)`; patches of the sample and, for `same`, of an array of ones; `x.reshape(x.shape[:-1] + (-1, ch))`. -/
def replayPoolW (isMax cfirst same : Bool) (pool strides : List ℕ) (inputs : Arr ℚ) : Option (Arr ℚ) :=
  let ws := List.zipWith (fun k s => (⟨k, s, 1⟩ : Win)) pool strides
  (if cfirst then npMoveaxis 1 (-1) inputs else some inputs).bind fun inputs =>
  let ch := inputs.shape.getLastD 0
  (symbolicPatches false same ws 0 inputs).bind fun x =>
  (if same then symbolicPatches false same ws (0 : ℤ) ⟨inputs.shape, fun _ => 1⟩ else some ⟨x.shape, fun _ => 1⟩).bind fun mask =>
  let n := x.shape.getLastD 0 / ch
  let win := fun (idx : List ℕ) (q : ℕ) => x.get (idx.dropLast ++ [q * ch + idx.getLastD 0])
  let ones := fun (idx : List ℕ) (q : ℕ) => mask.get (idx.dropLast ++ [q * ch + idx.getLastD 0])
  let out : Arr ℚ := ⟨x.shape.dropLast ++ [ch], fun idx =>
    if isMax then poolMax 0 ((List.range n).map fun q => if ones idx q ≠ 0 then win idx q else -2147483648)
    else ((List.range n).map (win idx)).sum / (((List.range n).map (ones idx)).sum : ℤ)⟩
  if cfirst then npMoveaxis (-1) 1 out else some out

/-- `ReplayExtractPatches.call`, conv.py L92-106: `strides=None` becomes 1. -/
def replayExtract (cfirst same : Bool) (size : List ℕ) (strides : Option (List ℕ)) (dilation : List ℕ) (images : Arr ℚ) : Option (Arr ℚ) :=
  let st := strides.getD (size.map fun _ => 1)
  symbolicPatches cfirst same (List.zipWith (fun (k : ℕ) (sd : ℕ × ℕ) => (⟨k, sd.1, sd.2⟩ : Win)) size (st.zip dilation)) 0 images

/-- Patches of `ReplayConvTable.call`, _dais_tracer/layers/table.py L162-173, with `im2col_params` of table/conv.py L103-127: in one dimension an axis of
size one is put after the first axis (`inputs[:, None]`), with a window of size one after (channels last) or before (channels first) the given one,
and entry 0 of the second axis of the patches is taken. -/
def tablePatches (cfirst same : Bool) (ws : List Win) (inputs : Arr ℚ) : Option (Arr ℚ) :=
  match ws with
  | [w] => (npGetNew inputs).bind fun x => (symbolicPatches cfirst same (if cfirst then [⟨1, 1, 1⟩, w] else [w, ⟨1, 1, 1⟩]) 0 x).bind fun y =>
      npGetItem [.all, .int 0] y
  | [_, _] => symbolicPatches cfirst same ws 0 inputs
  | _ => none
where
  /-- `inputs[:, None]`. -/
  npGetNew (a : Arr ℚ) : Option (Arr ℚ) := match a.shape with
    | n :: sh => some ⟨n :: 1 :: sh, fun idx => a.get (idx.headD 0 :: idx.tail.tail)⟩
    | [] => none

/-- Number of inputs of the table layer at one position according to `build`, table/conv.py L82-100: `ch_in = input_shape[-1]`, sample shape given. -/
def tableBuildIn (ws : List Win) (sample : List ℕ) : ℕ := sample.getLastD 0 * (ws.map (·.k)).prod

end HGQ
