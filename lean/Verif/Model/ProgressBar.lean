import Mathlib.Data.Rat.Defs

/-!
# The progress bar

`hgq/utils/sugar/pbar.py`: the Keras callback `PBar`.  The template is the list of the log entries it names; numbers are not formatted.
-/
namespace HGQ

/-- What the constructor stores, pbar.py L6-9. -/
structure PBarCfg where
  template : List String
  disableEbops : Bool

/-- A `tqdm` bar: total, count, description (entries of the template, EBOPs). -/
structure TqdmBar where
  total : ℕ
  count : ℕ
  text : Option (List ℚ × Option ℚ)
  deriving DecidableEq

/-- `self.pbar`, pbar.py L7, and the bars closed so far. -/
structure PBarState where
  bar : Option TqdmBar
  closed : List TqdmBar
  deriving DecidableEq

/-- The calls Keras makes: `self.params['epochs']` is the first argument. -/
inductive PBarCall
  | epochBegin (epochs : ℕ)
  | epochEnd (logs : List (String × ℚ))
  | trainEnd

/-- `self.template.format(**logs)`, pbar.py L20: `KeyError` if an entry is missing. -/
def pbarFormat (logs : List (String × ℚ)) : List String → Option (List ℚ)
  | [] => some []
  | k :: ks => match logs.lookup k, pbarFormat logs ks with
    | some v, some vs => some (v :: vs)
    | _, _ => none

/-- `on_epoch_begin` L11-14, `on_epoch_end` L16-23, `on_train_end` L25-28; `none` is an exception. -/
def PBarCfg.call (c : PBarCfg) (st : PBarState) : PBarCall → Option PBarState
  | .epochBegin epochs => match st.bar with
    | none => some { st with bar := some ⟨epochs, 0, none⟩ }
    | some _ => some st
  | .epochEnd logs => match st.bar with
    | none => none
    | some b => (pbarFormat logs c.template).map fun t =>
      { st with bar := some ⟨b.total, b.count + 1, some (t, if c.disableEbops then none else logs.lookup "ebops")⟩ }
  | .trainEnd => match st.bar with
    | none => some st
    | some b => some { bar := none, closed := st.closed ++ [b] }

/-- A sequence of calls (pbar.py L11-28). -/
def PBarCfg.run (c : PBarCfg) : PBarState → List PBarCall → Option PBarState
  | st, [] => some st
  | st, e :: es => (c.call st e).bind fun st => c.run st es

end HGQ
