import Mathlib.Data.Rat.Floor
import Mathlib.Algebra.BigOperators.Group.Finset.Basic

/-!
# Specification: convolution and pooling over any number of spatial axes

Independent of the model: zero-extended images, integer positions, sums over multi-indices.
-/
namespace HGQ

/-- Parameters of one spatial axis of a window: kernel size, stride, dilation. -/
structure Win where
  k : ℕ
  s : ℕ
  d : ℕ
  deriving DecidableEq

namespace Spec
open Finset

/-- Sum over all indices below the given sizes. -/
def sumIdx : List ℕ → (List ℕ → ℚ) → ℚ
  | [], f => f []
  | n :: sh, f => ∑ i ∈ range n, sumIdx sh fun idx => f (i :: idx)

/-- Padding in front of an axis of `n` entries: none for `valid`; for `same` there are `⌈n/s⌉` output positions, and the padding they need
is divided into two halves, the smaller in front. -/
def padFront (same : Bool) (n : ℕ) (w : Win) : ℤ :=
  if same then max ((⌈(n : ℚ) / w.s⌉ - 1) * w.s + ((w.k : ℤ) - 1) * w.d + 1 - n) 0 / 2 else 0

/-- Number of output positions of an axis of `n` entries. -/
def outPositions (same : Bool) (n : ℕ) (w : Win) : ℤ :=
  if same then ⌈(n : ℚ) / w.s⌉ else ⌊((n : ℚ) - (((w.k : ℤ) - 1) * w.d + 1 : ℤ)) / w.s⌋ + 1

/-- Position in the image, possibly outside, seen at output position `p` through the kernel entry `κ`. -/
def tap (same : Bool) : List ℕ → List Win → List ℕ → List ℕ → List ℤ
  | n :: sp, w :: ws, p :: ps, a :: κ => ((p : ℤ) * w.s + (a : ℤ) * w.d - padFront same n w) :: tap same sp ws ps κ
  | _, _, _, _ => []

/-- The integer position lies inside the image. -/
def Inside (z : List ℤ) (sp : List ℕ) : Prop := List.Forall₂ (fun (z : ℤ) (n : ℕ) => 0 ≤ z ∧ z < n) z sp

open Classical in
/-- Convolution with zero padding at output position `p`, output channel `o`: `x` maps a position and a channel to a value, `K` a kernel
entry, a channel within the group and an output channel; `a` input and `b` output channels per group. -/
noncomputable def convND (same : Bool) (sp : List ℕ) (ws : List Win) (a b : ℕ) (x : List ℕ → ℕ → ℚ) (K : List ℕ → ℕ → ℕ → ℚ) (p : List ℕ) (o : ℕ) : ℚ :=
  sumIdx (ws.map (·.k)) fun κ =>
    if Inside (tap same sp ws p κ) sp then ∑ c ∈ range a, x ((tap same sp ws p κ).map Int.toNat) (o / b * a + c) * K κ c o else 0

/-- Index of a position and a channel for `channels_first` or `channels_last`. -/
def layout (cfirst : Bool) (p : List ℕ) (c : ℕ) : List ℕ := if cfirst then c :: p else p ++ [c]

end Spec
end HGQ
