import Verif.Model.Mapper
import Mathlib.Data.List.Perm.Basic
import Mathlib.Data.List.Forall2
import Mathlib.Algebra.BigOperators.Group.List.Basic

/-!
# Arrays with a shape, and the numpy operations used by the tracers
-/
namespace HGQ

/-- An n-dimensional array: only the entries at indices inside the shape count. -/
structure Arr (V : Type) where
  shape : List ℕ
  get : List ℕ → V

/-- `idx` is a valid index for the shape. -/
def InShape (idx shape : List ℕ) : Prop := List.Forall₂ (· < ·) idx shape

/-- Two arrays are the same: same shape and the same entries. -/
def Arr.Same {V : Type} (a b : Arr V) : Prop := a.shape = b.shape ∧ ∀ idx, InShape idx a.shape → a.get idx = b.get idx

/-- Sample `b` of an array with a batch axis. -/
def Arr.sample {V : Type} (a : Arr V) (b : ℕ) : Arr V := ⟨a.shape.tail, fun idx => a.get (b :: idx)⟩

variable {V : Type}

/-- numpy `x[None]`. -/
def npExpand (x : Arr V) : Arr V := ⟨1 :: x.shape, fun idx => x.get idx.tail⟩

/-- numpy `x[0]`. -/
def npFirst (x : Arr V) : Arr V := x.sample 0

/-- `normalize_axis_index`: an axis number of an array of rank `n`; `none` is an AxisError. -/
def normAxis (n : ℕ) (z : ℤ) : Option ℕ := if -(n : ℤ) ≤ z ∧ z < n then some (z % n).toNat else none

/-- Entries of `np.concatenate` along a normalized axis. -/
def concatGet (axis : ℕ) : Arr V → List (Arr V) → List ℕ → V
  | a, [], idx => a.get idx
  | a, b :: r, idx =>
    if idx.getD axis 0 < a.shape.getD axis 0 then a.get idx
    else concatGet axis b r (idx.modify axis (· - a.shape.getD axis 0))

/-- `np.concatenate` / `ops.concatenate`: shapes must agree outside the axis; `none` is an exception. -/
def npConcat (z : ℤ) : List (Arr V) → Option (Arr V)
  | [] => none
  | a :: r =>
    match normAxis a.shape.length z with
    | none => none
    | some axis =>
      if ∀ b ∈ r, b.shape.length = a.shape.length ∧ b.shape.eraseIdx axis = a.shape.eraseIdx axis then
        some ⟨a.shape.set axis ((a :: r).map fun b => b.shape.getD axis 0).sum, concatGet axis a r⟩
      else none

/-- `np.repeat(x, n, axis)` with an integer count. -/
def npRepeat (n : ℕ) (z : ℤ) (a : Arr V) : Option (Arr V) :=
  match normAxis a.shape.length z with
  | none => none
  | some axis => some ⟨a.shape.modify axis (· * n), fun idx => a.get (idx.modify axis (· / n))⟩

/-- `np.transpose(x, axes)`: axis `j` of the result is axis `axes[j]`; the axes must be a permutation of all axes. -/
def npTranspose (p : List ℕ) (a : Arr V) : Option (Arr V) :=
  if p.Perm (List.range a.shape.length) then
    some ⟨p.map fun j => a.shape.getD j 0, fun idx => a.get ((List.range a.shape.length).map fun j => idx.getD (p.idxOf j) 0)⟩
  else none

/-- The axis order used by `np.moveaxis(x, source, destination)` for one axis. -/
def moveOrder (n src dst : ℕ) : List ℕ := ((List.range n).erase src).insertIdx dst src

/-- `np.moveaxis(x, source, destination)` for one axis. -/
def npMoveaxis (s d : ℤ) (a : Arr V) : Option (Arr V) :=
  match normAxis a.shape.length s, normAxis a.shape.length d with
  | some s, some d => npTranspose (moveOrder a.shape.length s d) a
  | _, _ => none

/-- Indices of the entries reduced into the entry `idx`; one flag per axis, `true` for reduced axes; `idx` without these axes
(`keepdims=False`). -/
def redIdx : List Bool → List ℕ → List ℕ → List (List ℕ)
  | true :: fl, n :: sh, idx => (List.range n).flatMap fun i => (redIdx fl sh idx).map (i :: ·)
  | false :: fl, _ :: sh, i :: idx => (redIdx fl sh idx).map (i :: ·)
  | _, _, _ => [[]]

/-- Shape and index map for `keepdims`. -/
def redShape (keep : Bool) : List Bool → List ℕ → List ℕ
  | true :: fl, _ :: sh => if keep then 1 :: redShape keep fl sh else redShape keep fl sh
  | false :: fl, n :: sh => n :: redShape keep fl sh
  | _, _ => []

def dropKept (keep : Bool) : List Bool → List ℕ → List ℕ
  | true :: fl, idx => if keep then dropKept keep fl idx.tail else dropKept keep fl idx
  | false :: fl, i :: idx => i :: dropKept keep fl idx
  | _, _ => []

/-- A reduction (`np.sum`, `np.amax`, ...) of an array over the flagged axes. -/
def npReduce (red : List V → V) (keep : Bool) (fl : List Bool) (a : Arr V) : Arr V :=
  ⟨redShape keep fl a.shape, fun idx => red ((redIdx fl a.shape (dropKept keep fl idx)).map a.get)⟩

/-- Row-major position of an index and its inverse. -/
def flat : List ℕ → List ℕ → ℕ
  | _ :: sh, i :: idx => i * sh.prod + flat sh idx
  | _, _ => 0

def unflat : List ℕ → ℕ → List ℕ
  | [], _ => []
  | _ :: sh, k => (k / sh.prod) :: unflat sh (k % sh.prod)

/-- `np.reshape` to a shape without `-1`. -/
def npReshape (t : List ℕ) (a : Arr V) : Option (Arr V) :=
  if t.prod = a.shape.prod then some ⟨t, fun idx => a.get (unflat a.shape (flat t idx))⟩ else none

/-- One entry of a subscript: `:`, a non-negative integer, or a slice given as first element, number of elements and step. -/
inductive IdxKey | all | int (i : ℕ) | slice (start len step : ℕ)

/-- Subscript `x[key]`; axes beyond the key are kept. `none` is an IndexError. Slices are taken as already clipped to the axis. -/
def keyShape : List IdxKey → List ℕ → Option (List ℕ)
  | [], sh => some sh
  | .all :: ks, n :: sh => (keyShape ks sh).map (n :: ·)
  | .int i :: ks, n :: sh => if i < n then keyShape ks sh else none
  | .slice _ l _ :: ks, _ :: sh => (keyShape ks sh).map (l :: ·)
  | _ :: _, [] => none

def keyIdx : List IdxKey → List ℕ → List ℕ
  | [], idx => idx
  | .all :: ks, i :: idx => i :: keyIdx ks idx
  | .int i :: ks, idx => i :: keyIdx ks idx
  | .slice s _ st :: ks, i :: idx => (s + i * st) :: keyIdx ks idx
  | _ :: _, [] => []

def npGetItem (ks : List IdxKey) (a : Arr V) : Option (Arr V) :=
  (keyShape ks a.shape).map fun sh => ⟨sh, fun idx => a.get (keyIdx ks idx)⟩

/-- Common shape of two arrays of the same rank under broadcasting. -/
def bcDims : List ℕ → List ℕ → Option (List ℕ)
  | [], [] => some []
  | n :: s, m :: t =>
    if n = m ∨ m = 1 then (bcDims s t).map (n :: ·) else if n = 1 then (bcDims s t).map (m :: ·) else none
  | _, _ => none

/-- Pad the shape with `r` leading axes of size 1. -/
def Arr.pad (r : ℕ) (a : Arr V) : Arr V := ⟨List.replicate r 1 ++ a.shape, fun idx => a.get (idx.drop r)⟩

/-- Elementwise operation of two arrays of the same rank with broadcasting. -/
def npBin (op : V → V → V) (a b : Arr V) : Option (Arr V) :=
  (bcDims a.shape b.shape).map fun sh => ⟨sh, fun idx => op (a.get (bcastIdx a.shape idx)) (b.get (bcastIdx b.shape idx))⟩

end HGQ
