import Mathlib.Data.List.Perm.Basic
import Mathlib.Data.Int.Init

/-!
# `src/hgq/utils/dataset.py`

Data are lists; an exception is `none`.  Randomness (`randint`, `shuffle`) is an argument.  Float division in `ceil(n / b)`
(L64) is exact integer ceiling (true for n below 2^53).  Device placement is not modelled.
-/
namespace HGQ

/-- Attributes of a `Dataset` (L12-58, L66-79): `data_len`, `batch_size`, `drop_last`, `shuffle`, `_init_shift`,
`_reminder`, `_index_map`. -/
structure DS where
  n : ℕ
  bs : Option ℕ
  dropLast : Bool
  shuffle : Bool
  shift : ℕ
  rem : ℕ
  imap : Option (List ℕ)

/-- `len(self)`, L60-64, for a positive batch size. -/
def batches (n b : ℕ) (dropLast : Bool) : ℕ := if dropLast then n / b else (n + b - 1) / b

/-- `Dataset.batch`, L66-79.  `r` is the value of `randint(0, reminder)`, `p` the result of shuffling `range(len(self))`. -/
def DS.batch (d : DS) (b : Option ℕ) (r : ℕ) (p : List ℕ) : DS :=
  match b with
  | some b => { d with bs := some b, rem := d.n % b, shift := r, imap := if d.shuffle then some p else none }
  | none => { d with bs := none, rem := 0, shift := 0, imap := none }

/-- `Dataset.__init__`, L12-58, for data of length `n`. -/
def DS.init (n : ℕ) (dropLast shuffle : Bool) (b : Option ℕ) (r : ℕ) (p : List ℕ) : DS :=
  DS.batch ⟨n, none, dropLast, shuffle, 0, 0, none⟩ b r p

/-- `on_epoch_end`, L111-113; `p` is the shuffled index map. -/
def DS.epochEnd (d : DS) (p : List ℕ) : DS := { d with imap := d.imap.map (fun _ => p) }

/-- `on_epoch_begin`, L115-117. -/
def DS.epochBegin (d : DS) (r : ℕ) : DS := if d.dropLast then { d with shift := r } else d

/-- Python slice `x[low:high]` for `0 ≤ low`. -/
def pySlice {α} (x : List α) (low high : ℕ) : List α := (x.drop low).take (high - low)

/-- L88-89: the batch number after the optional shuffled index map. -/
def DS.slot (d : DS) (j : ℕ) : Option ℕ := match d.imap with | some m => m[j]? | none => some j

/-- The slice bounds computed by `__getitem__`, L81-96 (`none`: an assertion or index error). -/
def DS.bounds (d : DS) (idx : ℤ) : Option (ℕ × ℕ) :=
  match d.bs with
  | none => none
  | some b =>
    let len := batches d.n b d.dropLast
    if idx < 0 ∧ len = 0 then none else
    let idx := if idx < 0 then idx % (len : ℤ) else idx
    if (len : ℤ) ≤ idx then none else
    (d.slot idx.toNat).map fun i =>
      let low := i * b
      let high := min (low + b) d.n
      if d.dropLast then (low + d.shift, high + d.shift) else (low, high)

/-- `__getitem__`, L81-109, one input and one output tensor (several tensors are sliced identically, L98-106). -/
def DS.getItem {α β} (d : DS) (x : List α) (y : List β) (idx : ℤ) : Option (List α × List β) :=
  (d.bounds idx).map (fun (lo, hi) => (pySlice x lo hi, pySlice y lo hi))

/-- `data_len` computed by the constructor for one input array of `n` samples passed bare or inside a one-element
list/tuple (L17-19, L38-40): with `n_inp = 1` the length is `len(x_set)`, which is 1 for the list. -/
def initDataLen (inList : Bool) (n : ℕ) : ℕ := if inList then 1 else n

end HGQ
