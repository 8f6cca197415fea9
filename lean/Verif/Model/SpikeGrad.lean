import Mathlib.Analysis.SpecialFunctions.Trigonometric.Arctan
import Verif.Model.EbopsGrad

/-!
# Spiking cells under automatic differentiation

`layers/snn/base.py` on dual numbers (`Dual`, Model/EbopsGrad): one unit of the cells without quantizers
(`SpikingNeuralCell`, `LIFCell`, and the Q cells with all quantizers disabled or exact with identity derivative).
Exact reals.
-/
namespace HGQ
open Dual
namespace Dual
variable {V : Type}
/-- `ops.stop_gradient`. -/
def stopGrad (a : Dual V) : Dual V := ⟨a.val, fun _ => 0⟩
/-- `ops.arctan` with its derivative. -/
noncomputable def arctan (a : Dual V) : Dual V := ⟨Real.arctan a.val, fun v => 1 / (1 + a.val ^ 2) * a.grad v⟩
/-- `ops.cast(inputs > 0, dtype)`: no derivative. -/
noncomputable def heaviside (a : Dual V) : Dual V := const (if 0 < a.val then 1 else 0)
end Dual

variable {V : Type}

/-- `soft` in `ATan.__call__`, snn/base.py L32. -/
noncomputable def atanSoftD (α : ℝ) (x : Dual V) : Dual V :=
  add (scale (1 / Real.pi) (Dual.arctan (scale (Real.pi / 2 * α) x))) (const (1 / 2))

/-- `ATan.__call__`, snn/base.py L27-33. -/
noncomputable def atanSpikeD (α : ℝ) (x : Dual V) : Dual V :=
  add (stopGrad (sub (heaviside x) (atanSoftD α x))) (atanSoftD α x)

/-- The spike function of a cell: `_surrogate_bypass` (`none`; L95-96, L154-156) or `ATan(alpha)` (L97-98). -/
noncomputable def spikeFnD (sur : Option ℝ) (x : Dual V) : Dual V :=
  match sur with
  | none => heaviside x
  | some α => atanSpikeD α x

/-- How `reset` treats the membrane, L48. -/
inductive ResetKind | subtract | zero | none
  deriving DecidableEq

/-- Parameters of one unit: `beta` is `none` for integrate-and-fire. -/
structure GradCell (V : Type) where
  surrogate : Option ℝ
  detach : Bool
  kind : ResetKind
  beta : Option (Dual V)
  threshold : Dual V
  factor : Dual V

/-- `fire`, L129-134: output and spike; `hot` is the entry of `one_hot(argmax)` (`1` without inhibition). -/
noncomputable def GradCell.fire (c : GradCell V) (hot : ℝ) (mem : Dual V) : Dual V × Dual V :=
  let spk := scale hot (spikeFnD c.surrogate (sub mem c.threshold))
  (mul spk c.factor, spk)

/-- `reset`, L136-142. -/
noncomputable def GradCell.reset (c : GradCell V) (mem spk : Dual V) : Dual V :=
  let r := if c.detach then stopGrad spk else spk
  match c.kind with
  | .subtract => sub mem (mul r c.threshold)
  | .zero => mul mem (sub (const 1) r)
  | .none => mem

/-- Membrane update, L147 and L240. -/
noncomputable def GradCell.integrate (c : GradCell V) (s x : Dual V) : Dual V :=
  match c.beta with
  | none => add s x
  | some b => add (mul b s) x

/-- `call`, L144-149, L238-244: output and new state. -/
noncomputable def GradCell.step (c : GradCell V) (s : Dual V) (p : Dual V × ℝ) : Dual V × Dual V :=
  let mem := c.integrate s p.1
  let o := c.fire p.2 mem
  (o.1, c.reset mem o.2)

/-- The state after a sequence of inputs (Keras `RNN`), each with its `one_hot` entry. -/
noncomputable def GradCell.run (c : GradCell V) (s : Dual V) (xs : List (Dual V × ℝ)) : Dual V :=
  xs.foldl (fun s p => (c.step s p).2) s

/-- The outputs of the same run. -/
noncomputable def GradCell.outs (c : GradCell V) (s : Dual V) : List (Dual V × ℝ) → List (Dual V)
  | [] => []
  | p :: xs => (c.step s p).1 :: c.outs (c.step s p).2 xs

end HGQ
