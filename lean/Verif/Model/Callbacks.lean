import Mathlib.Analysis.SpecialFunctions.Pow.Real
import Mathlib.Analysis.SpecialFunctions.Log.Base

/-!
# Training callbacks (`src/hgq/utils/sugar/*.py`)

Floats are reals; an exception is `none`.  Printing is not modelled; the model is the pair (EBOPs, monitored values) the
callback reads and the values it writes.
-/
namespace HGQ

/-! ## `PieceWiseSchedule` (beta_scheduler.py L34-79) -/

/-- Interpolation modes (L54). -/
inductive Interp | linear | log | const
  deriving DecidableEq

/-- One key point `(epoch, beta, interp)`. -/
structure KeyPt where
  epoch : ℤ
  beta : ℝ
  interp : Interp

/-- The constructor sorts by epoch (stable), L49-58. -/
noncomputable def mkSchedule (pts : List KeyPt) : List KeyPt := pts.mergeSort (fun a b => a.epoch ≤ b.epoch)

/-- `eps`, L69. -/
noncomputable def schedEps : ℝ := 1e-9

/-- The `match`, L70-79.  `log`: division by a zero `beta0` raises; a negative ratio gives a complex number, which `float`
rejects (simplification: also at integer exponents). -/
noncomputable def interpolate (m : Interp) (b0 b1 : ℝ) (e0 e1 e : ℤ) : Option ℝ :=
  match m with
  | .linear => some (b0 + (b1 - b0) * ((e : ℝ) - e0) / ((e1 : ℝ) - e0 + schedEps))
  | .log => open Classical in if b0 = 0 ∨ b1 / b0 < 0 then none
      else some (b0 * (b1 / b0) ^ (((e : ℝ) - e0) / ((e1 : ℝ) - e0 + schedEps)))
  | .const => some b0

/-- `max(0, min(idx, n - 1))`, L63-64. -/
def clipIdx (n : ℕ) (i : ℤ) : ℕ := (max 0 (min i ((n : ℤ) - 1))).toNat

/-- `__call__`, L60-79; `np.searchsorted(epochs, e, side='right')` on a sorted list is the number of entries `≤ e`. -/
noncomputable def schedCall (s : List KeyPt) (e : ℤ) : Option ℝ :=
  let i0 : ℤ := (s.countP (fun p => p.epoch ≤ e) : ℤ) - 1
  match s[clipIdx s.length i0]?, s[clipIdx s.length (i0 + 1)]? with
  | some p0, some p1 => interpolate p0.interp p0.beta p1.beta p0.epoch p1.epoch e
  | _, _ => none

/-! ## PID (beta_pid.py) -/

/-- `PID`, L8-15. -/
structure PID where
  p : ℝ
  i : ℝ
  d : ℝ
  integral : ℝ
  prev : ℝ
  neg : Bool

/-- `PID.__call__`, L27-32. -/
noncomputable def PID.step (c : PID) (sv pv : ℝ) : PID × ℝ :=
  let err := if c.neg then pv - sv else sv - pv
  let integral := c.integral + err
  let derivative := err - c.prev
  ({ c with integral := integral, prev := err }, c.p * err + c.i * integral + c.d * derivative)

/-- `BaseBetaPID.on_epoch_begin`, L55-62: new controller and the assigned beta. -/
noncomputable def basePidEpoch (c : PID) (target ebops : ℝ) : PID × ℝ :=
  let r := c.step target ebops
  (r.1, max r.2 0)

/-- Constructor arguments of `BetaPID`, L95-114. `maxBeta = none` is infinity. -/
structure PidCfg where
  target : ℝ
  initBeta : Option ℝ
  warmup : ℕ
  log : Bool
  maxBeta : Option ℝ
  minBeta : ℝ
  damp : ℝ

/-- Mutable state: the controller, `self.beta`, `self._ebops`. -/
structure PidState where
  pid : PID
  beta : ℝ
  ebops : ℝ

/-- `math.log10`: raises on non-positive arguments. -/
noncomputable def log10? (x : ℝ) : Option ℝ := open Classical in if x ≤ 0 then none else some (Real.logb 10 x)

/-- `on_train_begin`, L125-129; `avg` is the average beta of the model, `ebops` its current EBOPs. -/
noncomputable def pidTrainBegin (cfg : PidCfg) (pid : PID) (avg ebops : ℝ) : PidState :=
  ⟨pid, match cfg.initBeta with | some b => b | none => avg, ebops⟩

/-- L140-148: initialise the integral in the first epoch after warm-up. Division by a zero `i` raises. -/
noncomputable def pidInitIntegral (cfg : PidCfg) (st : PidState) : Option PID :=
  open Classical in
  if st.pid.i = 0 then none else
  if cfg.log = false then
    let err := 1 - st.ebops / cfg.target
    some { st.pid with integral := (st.beta - st.pid.p * err) / st.pid.i - err }
  else
    match log10? (st.ebops / cfg.target + 1e-9), log10? st.beta with
    | some err, some lb => some { st.pid with integral := (lb - st.pid.p * err) / st.pid.i - err }
    | _, _ => none

/-- `min(beta, self.max_beta)`. -/
noncomputable def capMax (m : Option ℝ) (b : ℝ) : ℝ := match m with | some m => min b m | none => b

/-- L150-160: controller step, damping, clamping. -/
noncomputable def pidUpdate (cfg : PidCfg) (pid : PID) (ebops : ℝ) : Option (PID × ℝ) :=
  let r : Option (PID × ℝ) :=
    if cfg.log then (log10? (ebops / cfg.target)).map (fun pv => let s := pid.step 0 pv; (s.1, (10 : ℝ) ^ s.2))
    else some (pid.step 1 (ebops / cfg.target))
  r.map fun (pid, beta) =>
    let beta := open Classical in if ebops < cfg.target then beta * (1 - cfg.damp) else beta
    (pid, max (capMax cfg.maxBeta beta) cfg.minBeta)

/-- `BetaPID.on_epoch_begin`, L131-160: new state and the beta assigned to the layers, if any. -/
noncomputable def pidEpochBegin (cfg : PidCfg) (st : PidState) (epoch : ℕ) : Option (PidState × Option ℝ) :=
  if epoch < cfg.warmup then some (st, cfg.initBeta)
  else
    let pid? := if epoch = cfg.warmup then pidInitIntegral cfg st else some st.pid
    pid?.bind fun pid => (pidUpdate cfg pid st.ebops).map fun (pid, beta) => (⟨pid, beta, st.ebops⟩, some beta)

/-- `on_epoch_end`, L162-167. -/
def pidEpochEnd (st : PidState) (ebops : ℝ) : PidState := { st with ebops := ebops }

/-- A run from epoch `e` on: `es` are the EBOPs measured at the end of each epoch; the result lists the assigned betas.
`none` if some epoch raises. -/
noncomputable def pidRun (cfg : PidCfg) : ℕ → PidState → List ℝ → Option (List (Option ℝ))
  | _, _, [] => some []
  | e, st, x :: xs =>
    (pidEpochBegin cfg st e).bind fun r => (pidRun cfg (e + 1) (pidEpochEnd r.1 x) xs).map (r.2 :: ·)

/-! ## `StopIf` (stop_if.py L60-86) -/

/-- `counter_*` and `model.stop_training`. -/
structure StopState where
  counter : ℕ
  stop : Bool

/-- `on_epoch_end` L68-76 / `on_train_batch_end` L78-86 with patience not `None`. -/
def stopIfStep (patience : ℕ) (s : StopState) (hit : Bool) : StopState :=
  if hit then ⟨s.counter + 1, if s.counter + 1 > patience then true else s.stop⟩ else ⟨0, s.stop⟩

/-! ## `EarlyStoppingWithEbopsThres` (early_stopping_ebops.py L81-92) -/

/-- Keras `EarlyStopping` is any state machine that may set `stop_training`; it never clears it. -/
structure ES (σ ι : Type) where
  step : σ → ι → σ × Bool

/-- `on_epoch_end`, L81-92: run Keras' method, then restore the flag if EBOPs exceed the threshold. -/
noncomputable def esEbops {σ ι} (es : ES σ ι) (thr : ℝ) (s : σ × Bool) (inp : ι × ℝ) : σ × Bool :=
  let r := es.step s.1 inp.1
  (r.1, open Classical in if thr < inp.2 then s.2 else (s.2 || r.2))

/-! ## `ParetoFront` (pareto.py) -/

/-- `self.record`, `self.paths` zipped, and the files on disk. -/
structure Pareto where
  entries : List (List ℚ × String)
  files : List String
  deriving DecidableEq

/-- `np.all(new <= old)` after multiplying by `sides`, L57-58. -/
def allLe (sides new old : List ℚ) : Bool := (List.zipWith (· * ·) sides new).zip (List.zipWith (· * ·) sides old) |>.all (fun p => p.1 ≤ p.2)
/-- `np.all(new > old)`, L60. -/
def allGt (sides new old : List ℚ) : Bool := (List.zipWith (· * ·) sides new).zip (List.zipWith (· * ·) sides old) |>.all (fun p => p.2 < p.1)

/-- `os.remove` of each path in turn; a missing file raises. -/
def removeAll (files : List String) : List String → Option (List String)
  | [] => some files
  | p :: ps => if files.contains p then removeAll (files.filter (· ≠ p)) ps else none

/-- `on_epoch_end`, pareto.py L44-73, for an epoch whose `enable_if` holds: `new` the metrics, `path` the formatted name.
Removal order (`_rm_idx[::-1]`, last first) as in the code. -/
def paretoStep (sides : List ℚ) (s : Pareto) (new : List ℚ) (path : String) : Option Pareto :=
  if s.entries.any (fun e => allLe sides new e.1) then some s
  else
    let rm := s.entries.filter (fun e => allGt sides new e.1)
    let keep := s.entries.filter (fun e => !allGt sides new e.1)
    (removeAll s.files (rm.map Prod.snd).reverse).map fun files =>
      ⟨keep ++ [(new, path)], if files.contains path then files else files ++ [path]⟩

/-- A history of checkpointed epochs. -/
def paretoRun (sides : List ℚ) : Pareto → List (List ℚ × String) → Option Pareto
  | s, [] => some s
  | s, (m, p) :: r => (paretoStep sides s m p).bind (fun s => paretoRun sides s r)

end HGQ
