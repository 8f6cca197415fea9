import Verif.Model.Float32
import Verif.Model.Spiking

/-!
# Spiking cells in float32

The cells of Model/Spiking compute with exact rationals, where `(hard - soft) + soft` trivially is `hard`.  Here every operation of a step is
rounded to float32.  The `arctan` of the backend is an arbitrary function: nothing but its range is used.
-/
namespace HGQ

/-- A float32 that may be infinite. -/
inductive F32Ext
  | fin (q : ℚ)
  | inf (negative : Bool)

/-- One float32 multiplication of finite numbers; an overflow keeps the sign. -/
def mulExt (a b : ℚ) : F32Ext := match fl (a * b) with | some q => .fin q | none => .inf (decide (a * b < 0))

/-- `ops.cast(np.pi, 'float32')`. -/
def pi32 : ℚ := 13176795 / 4194304

/-- `ATan.__call__`, snn/base.py L27-33, in float32, operation by operation in the order Python evaluates them; `none` if an intermediate
result other than the argument of `arctan` is infinite. -/
def atanSpike (arctan : F32Ext → ℚ) (alpha x : ℚ) : Option ℚ :=
  let hard : ℚ := if 0 < x then 1 else 0
  (fl (pi32 / 2)).bind fun h =>
  (fl (h * alpha)).bind fun ha =>
  (fl (arctan (mulExt ha x) / pi32)).bind fun t =>
  (fl (t + 1 / 2)).bind fun soft =>
  (fl (hard - soft)).bind fun d =>
  fl (d + soft)

/-- The spike functions of the library: `ATan(alpha)` or `_surrogate_bypass`, snn/base.py L154-156.  Other callables are not modelled. -/
inductive SpikeGrad
  | atan (alpha : ℚ)
  | bypass

/-- `self.spike_grad(x)` in float32. -/
def SpikeGrad.run (arctan : F32Ext → ℚ) : SpikeGrad → ℚ → Option ℚ
  | .atan alpha, x => atanSpike arctan alpha x
  | .bypass, x => some (if 0 < x then 1 else 0)

/-- All entries of a vector, if all of them are finite. -/
def allFinite {n : ℕ} (v : Fin (n + 1) → Option ℚ) : Option (Fin (n + 1) → ℚ) :=
  if h : ∀ i, (v i).isSome then some fun i => (v i).get (h i) else none

/-- A spiking cell with fixed-point quantizers (`none`: disabled); `beta` and `factor` are the values after quantization, constants of the
layer at inference.  `fused`: the backend contracts `beta * state + x` to one operation. -/
structure SnnF32 (n : ℕ) where
  threshold : Fin (n + 1) → ℚ
  factor : Fin (n + 1) → ℚ
  inhibition : Bool
  reset : ResetMech
  beta : Option (Fin (n + 1) → ℚ)
  iq : Option (Fin (n + 1) → QSpec)
  oq : Option (Fin (n + 1) → QSpec)
  sq : Option (Fin (n + 1) → QSpec)
  grad : SpikeGrad
  fused : Bool

/-- Optional quantizer in float32 (`_quantize_input/_output/_state`, snn/base.py L372-379). -/
def optQF32 {n : ℕ} (q : Option (Fin (n + 1) → QSpec)) (v : Fin (n + 1) → ℚ) : Option (Fin (n + 1) → ℚ) :=
  match q with | some q => allFinite fun i => (q i).f32 (v i) | none => some v

/-- `fire`, snn/base.py L129-134 and L357-362, in float32: output and spike. -/
def SnnF32.fire {n : ℕ} (c : SnnF32 n) (arctan : F32Ext → ℚ) (mem : Fin (n + 1) → ℚ) :
    Option ((Fin (n + 1) → ℚ) × (Fin (n + 1) → ℚ)) :=
  (allFinite fun i => fl (mem i - c.threshold i)).bind fun score =>
  (allFinite fun i => c.grad.run arctan (score i)).bind fun spk =>
  (if c.inhibition then allFinite fun i => fl (spk i * (if i = argmaxFirst score then 1 else 0)) else some spk).bind fun spk =>
  (allFinite fun i => fl (spk i * c.factor i)).bind fun out =>
  some (out, spk)

/-- `reset`, snn/base.py L136-142 and L364-370, in float32. -/
def SnnF32.resetMem {n : ℕ} (c : SnnF32 n) (mem spk : Fin (n + 1) → ℚ) : Option (Fin (n + 1) → ℚ) :=
  match c.reset with
  | .subtract => allFinite fun i => (fl (spk i * c.threshold i)).bind fun r => fl (mem i - r)
  | .zero => allFinite fun i => (fl (1 - spk i)).bind fun r => fl (mem i * r)
  | .none => some mem

/-- Membrane update in float32: snn/base.py L147, L240, L410, L521. -/
def SnnF32.integrate {n : ℕ} (c : SnnF32 n) (x state : Fin (n + 1) → ℚ) : Option (Fin (n + 1) → ℚ) :=
  (optQF32 c.iq x).bind fun x =>
  match c.beta with
  | some b => allFinite fun i => if c.fused then fl (b i * state i + x i) else (fl (b i * state i)).bind fun p => fl (p + x i)
  | none => allFinite fun i => fl (state i + x i)

/-- The four `call` methods in float32, snn/base.py L144-149, L238-244, L408-414, L519-525. -/
def SnnF32.step {n : ℕ} (c : SnnF32 n) (arctan : F32Ext → ℚ) (x state : Fin (n + 1) → ℚ) :
    Option ((Fin (n + 1) → ℚ) × (Fin (n + 1) → ℚ)) :=
  (c.integrate x state).bind fun mem =>
  (c.fire arctan mem).bind fun os =>
  (optQF32 c.oq os.1).bind fun out =>
  (c.resetMem mem os.2).bind fun r =>
  (optQF32 c.sq r).bind fun new =>
  some (out, new)

/-- A whole sequence in float32 (Keras `RNN.call`, one state): outputs in processing order and the last state; `none` once a value is
infinite. -/
def SnnF32.run {n : ℕ} (c : SnnF32 n) (arctan : F32Ext → ℚ) : List (Fin (n + 1) → ℚ) → (Fin (n + 1) → ℚ) →
    Option (List (Fin (n + 1) → ℚ) × (Fin (n + 1) → ℚ))
  | [], s => some ([], s)
  | x :: xs, s => (c.step arctan x s).bind fun r => (SnnF32.run c arctan xs r.2).bind fun t => some (r.1 :: t.1, t.2)

/-- The same cell in exact arithmetic (Model/Spiking). -/
def SnnF32.exact {n : ℕ} (c : SnnF32 n) : SnnCell n where
  threshold := c.threshold
  factor := c.factor
  inhibition := c.inhibition
  reset := c.reset
  beta := c.beta
  iq := c.iq.map fun q i => (q i).exact
  oq := c.oq.map fun q i => (q i).exact
  sq := c.sq.map fun q i => (q i).exact

end HGQ
