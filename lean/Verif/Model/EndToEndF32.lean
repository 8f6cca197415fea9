import Verif.Model.EndToEnd
import Verif.Model.Float32

/-!
# The model of `Model/EndToEnd`, evaluated by Keras in float32

The same layers on the same batch, every arithmetic operation rounded to float32.  An entry is `none` once it is infinite or undefined.  The
order in which a backend adds up the terms of a sum (and whether it skips products that are zero, or fuses multiply and add) is arbitrary.
Weights are the quantized ones, as in `Core`; that float32 weight quantizers give exactly these is C89.
-/
namespace HGQ

/-- A float32 array. -/
abbrev ArrF := Arr (Option ℚ)

/-- Choices of the backend for one layer: the order of every sum (by index of the result), fused multiply-add in `x * s + o`. -/
structure F32Env where
  order : List ℕ → List (ℚ × ℚ) → SumTree
  fused : Bool

/-- The array with 0 outside its shape. -/
def ArrF.norm (a : ArrF) : ArrF := ⟨a.shape, fun idx => if inShapeB idx a.shape then a.get idx else some 0⟩

/-- A finite array. -/
def Arr.lift (a : Arr ℚ) : ArrF := ⟨a.shape, fun idx => some (a.get idx)⟩

/-- One argument. -/
def singleF (f : ArrF → Option ArrF) : List ArrF → Option ArrF
  | [x] => f x
  | _ => none

/-- Two arguments. -/
def doubleF (f : ArrF → ArrF → Option ArrF) : List ArrF → Option ArrF
  | [x, y] => f x y
  | _ => none

/-- Both factors, if finite. -/
def bothF (p : Option ℚ × Option ℚ) : Option (ℚ × ℚ) := p.1.bind fun a => p.2.map fun b => (a, b)

/-- A sum of products in float32, in the order chosen by the backend. -/
def sumF32 (E : F32Env) (idx : List ℕ) (l : List (Option ℚ × Option ℚ)) : Option ℚ := (l.mapM bothF).bind fun ps => (E.order idx ps).eval

/-- `x * s + o` in float32. -/
def affineF32 (E : F32Env) (x s o : ℚ) : Option ℚ := if E.fused then fl (x * s + o) else (fl (x * s)).bind fun p => fl (p + o)

/-- `Quantizer.call` at inference in float32, quantizer.py L49-60 and fixed_point_quantizer.py L142-150. -/
def ArrQuant.f32 (q : ArrQuant) (E : F32Env) (x : ArrF) : Option ArrF :=
  if bcastOk q.ws x.shape then
    some ⟨x.shape, fun idx => let j := bcastIdx q.ws idx
      (x.get idx).bind fun v =>
      (match q.scaler with | some s => fl (v / s) | none => some v).bind fun v =>
      (quantizeF32 q.rm q.om (q.k j) (q.i j) (q.f j) v).bind fun r =>
      (match q.scaler with | some s => fl (r * s) | none => some r).bind fun r =>
      match q.affine with | some (a, b) => affineF32 E r a b | none => some r⟩
  else none

/-- The merging operations in float32; maximum and minimum are exact. -/
def MergeOp.binF : MergeOp → Option ℚ → Option ℚ → Option ℚ
  | .add => fun a b => a.bind fun a => b.bind fun b => fl (a + b)
  | .sub => fun a b => a.bind fun a => b.bind fun b => fl (a - b)
  | .mul => fun a b => a.bind fun a => b.bind fun b => fl (a * b)
  | .max => fun a b => a.bind fun a => b.map fun b => Max.max a b
  | .min => fun a b => a.bind fun a => b.map fun b => Min.min a b

/-- Patches times kernel, as in `kerasConv`: the terms. -/
def convTermsF (P G a b : ℕ) (x : ℕ → Option ℚ) (K : ℕ → ℚ) (o : ℕ) : List (Option ℚ × Option ℚ) :=
  (List.range P).flatMap fun p => (List.range a).map fun c =>
    (x (p * (G * a) + ((o / b) * a + c)), some (K ((p * a + c) * (G * b) + o)))

/-- Maximum of the entries, exact. -/
def maxF (l : List (Option ℚ)) : Option ℚ := (l.mapM id).map (poolMax 0)

/-- Average: sum, then division by the number of entries. -/
def avgF (E : F32Env) (idx : List ℕ) (n : ℕ) (l : List (Option ℚ)) : Option ℚ :=
  (sumF32 E idx (l.map fun v => (v, some 1))).bind fun s => fl (s / n)

/-- `ops.einsum` of two arrays in float32 (cf. `npEinsum`). -/
def npEinsumF (E : F32Env) (aL bL outL : List ℕ) (x y : ArrF) : Option ArrF :=
  if x.shape = aL.map (labelSize aL bL x.shape y.shape) ∧ y.shape = bL.map (labelSize aL bL x.shape y.shape) ∧
      (∀ l ∈ outL, l ∈ aL ∨ l ∈ bL) then
    some ⟨outL.map (labelSize aL bL x.shape y.shape), fun idx =>
      sumF32 E idx ((indices ((summedLabels aL bL outL).map (labelSize aL bL x.shape y.shape))).map fun s =>
        (x.get (aL.map (labelVal aL bL outL idx s)), y.get (bL.map (labelVal aL bL outL idx s))))⟩
  else none

/-- `QSoftmax.call` on a batch without mask in float32, softmax.py L114-132.  The tables are what the backend computes for them. -/
def softmaxF (E : F32Env) (stable : Bool) (flg : List Bool) (expT invT : List ℕ → ℚ → ℚ) (x : ArrF) : ArrF :=
  let y : ArrF := if stable then
      ⟨x.shape, fun idx => ((npReduce maxF true (false :: flg) x).get idx).bind fun m => (x.get idx).bind fun v => fl (m - v)⟩ else x
  let e : ArrF := ⟨x.shape, fun idx => (y.get idx).map (expT idx.tail)⟩
  let sums : ArrF := ⟨redShape true (false :: flg) e.shape, fun idx =>
    sumF32 E idx ((redIdx (false :: flg) e.shape (dropKept true (false :: flg) idx)).map fun j => (e.get j, some 1))⟩
  ⟨x.shape, fun idx => (e.get idx).bind fun v => ((sums.get idx).map (invT (dropKept true flg idx.tail))).bind fun w => fl (v * w)⟩

/-- The layers on a batch in float32 (cf. `Core.keras`): core/dense.py L60-68, conv.py L72-89, ops/merge.py, ops/accum.py, ops/einsum.py,
batch_normalization.py L176-184, pooling.py, softmax.py, core/einsum_dense.py. -/
def Core.f32 (E : F32Env) : Core → List ArrF → Option ArrF
  | .dense n m K bias => singleF fun x => if 2 ≤ x.shape.length then
      if x.shape.getLast? = some n then
        some ⟨x.shape.dropLast ++ [m], fun idx =>
          (sumF32 E idx ((List.range n).map fun c => (x.get (idx.dropLast ++ [c]), some (K c (idx.getLastD 0))))).bind fun s =>
            fl (s + bias (idx.getLastD 0))⟩
      else none
    else none
  | .conv P G a b osp geo K bias => singleF fun x =>
      some ⟨x.shape.headD 0 :: osp ++ [G * b], fun idx =>
        let p := idx.tail.dropLast
        let o := idx.getLastD 0
        (sumF32 E idx (convTermsF P G a b (extractPatches (some 0) (geo p) fun i => x.get (idx.headD 0 :: unflat x.shape.tail i)) K o)).bind
          fun s => fl (s + bias o)⟩
  | .merge op => fun xs => if op = .sub ∧ xs.length ≠ 2 then none else kerasMerge op.binF xs
  | .sum keep flg scale => singleF fun x =>
      some ⟨redShape keep (false :: flg) x.shape, fun idx =>
        (sumF32 E idx ((redIdx (false :: flg) x.shape (dropKept keep (false :: flg) idx)).map fun j => (x.get j, some 1))).bind
          fun s => fl (s * scale)⟩
  | .bn ax C s o => singleF fun x => if x.shape[ax]? = some C then
      some ⟨x.shape, fun idx => (x.get idx).bind fun v => affineF32 E v (s (idx.getD ax 0)) (o (idx.getD ax 0))⟩ else none
  | .lut f => singleF fun x => some ⟨x.shape, fun idx => (x.get idx).map f⟩
  | .pool isMax w osp geo => singleF fun x => if 2 ≤ x.shape.length then
      some ⟨x.shape.headD 0 :: osp ++ [x.shape.getLastD 0], fun idx =>
        let vals := (List.range (w + 1)).filterMap fun j => (geo idx.tail.dropLast j).map fun s =>
          x.get (idx.headD 0 :: unflat x.shape.tail (s * x.shape.getLastD 0 + idx.getLastD 0))
        if isMax then maxF vals else avgF E idx vals.length vals⟩
    else none
  | .globalPool isMax keep => singleF fun x => if 2 ≤ x.shape.length then
      some ⟨redShape keep (false :: (List.replicate (x.shape.length - 2) true ++ [false])) x.shape, fun idx =>
        let vals := (redIdx (false :: (List.replicate (x.shape.length - 2) true ++ [false])) x.shape
          (dropKept keep (false :: (List.replicate (x.shape.length - 2) true ++ [false])) idx)).map x.get
        if isMax then maxF vals else avgF E idx x.shape.tail.dropLast.prod vals⟩
    else none
  | .softmax stable flg expT invT => singleF fun x => some (softmaxF E stable flg expT invT x)
  | .einsumDense inL kerL outL K bias => singleF fun x => (npEinsumF E inL kerL outL x K.lift).map fun a =>
      ⟨a.shape, fun idx => (a.get idx).bind fun v => fl (v + bias idx.tail)⟩
  | .einsum aL bL outL => doubleF (npEinsumF E aL bL outL)
  | .avgPow2 scale => fun xs => (kerasMerge (MergeOp.binF .add) xs).map fun a => ⟨a.shape, fun idx => (a.get idx).bind fun v => fl (v * scale)⟩

/-- Normalised result. -/
def runF (r : Option ArrF) : Option ArrF := r.map ArrF.norm

/-- Pointwise function. -/
def Arr.mapF (g : ℚ → Option ℚ) (x : ArrF) : ArrF := ⟨x.shape, fun idx => (x.get idx).bind g⟩

/-- The input quantizers in float32 (cf. `kerasIq`). -/
def f32Iq (E : F32Env) (iq : Option (List ArrQuant)) (xs : List ArrF) : Option (List ArrF) :=
  match iq with
  | none => some xs
  | some qs => if qs.length = xs.length then (List.zipWith (fun q x => runF (ArrQuant.f32 q E x)) qs xs).mapM id else none

/-- The activation. -/
def reluF (rl : Bool) (c : ArrF) : ArrF := if rl then (Arr.mapF (fun x => some (if x > 0 then x else 0)) c).norm else c

/-- A quantized layer on a batch in float32 (cf. `kerasQLayer`). -/
def f32QLayer (E : F32Env) (iq : Option (List ArrQuant)) (core : Core) (rl : Bool) (oq : Option ArrQuant) (xs : List ArrF) : Option ArrF :=
  (f32Iq E iq xs).bind fun ins => (runF (core.f32 E ins)).bind fun c =>
    match oq with
    | none => some (reluF rl c)
    | some q => runF (q.f32 E (reluF rl c))

/-- `kerasReLU` without threshold in float32. -/
def reluF32 (neg : ℚ) (maxv : Option ℚ) (x : ℚ) : Option ℚ :=
  if x > 0 then some (match maxv with | some m => clip 0 m x | none => x) else fl (neg * x)

/-- A layer on a batch in float32 (cf. `LLayer.keras`). -/
def LLayer.f32 (E : F32Env) : LLayer → List ArrF → Option ArrF
  | .quantizer q => fun xs => runF (singleF (q.f32 E) xs)
  | .qlayer iq core rl oq => fun xs => f32QLayer E iq core rl oq xs
  | .relu neg maxv => fun xs => runF (singleF (fun x => some (Arr.mapF (reluF32 neg maxv) x)) xs)
  | .reshape t => fun xs => runF (singleF (kerasReshape t) xs)
  | .flatten => fun xs => runF (singleF (fun x => kerasReshape [x.shape.tail.prod] x) xs)
  | .concat z => fun xs => runF (npConcat z xs)
  | .getitem ks => fun xs => runF (singleF (npGetItem (.all :: ks)) xs)
  | .repeat n z => fun xs => runF (singleF (npRepeat n z) xs)
  | .moveaxis s d => fun xs => runF (singleF (npMoveaxis s d) xs)
  | .abs => fun xs => runF (singleF (fun x => some (Arr.mapF (fun v => some |v|) x)) xs)
  | .prelu alpha => fun xs => runF (singleF (fun x => some ⟨x.shape, fun idx => (x.get idx).bind fun v =>
      (fl (-alpha idx.tail * max (-v) 0)).bind fun n => fl (max v 0 + n)⟩) xs)
  | .noop => fun xs => runF (singleF some xs)

/-- The node evaluated by Keras in float32. -/
def LNode.f32Node {T : Type} (E : T → F32Env) (n : LNode T) : GNode T ArrF :=
  ⟨n.name, n.isInput, n.requires, [n.produces], fun xs => optList (n.layer.f32 (E n.produces) xs)⟩

end HGQ
