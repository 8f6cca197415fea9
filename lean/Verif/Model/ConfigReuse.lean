import Verif.Model.LayerConfig
import Verif.Model.Layers
import Mathlib.Data.Rat.Defs

/-!
# What `build` writes into the saved arguments of a layer

`get_config` of a built layer returns attributes that `build` has changed.  A layer is taken through a history: built on a shape, its
config read, a new layer made from it, built on the next shape, ... .
-/
namespace HGQ
open Layers

/-- One kind of layer: the saved arguments `P`, what `build` on a shape makes of them (`none`: it raises), and what the user sees of a
layer with these arguments built on this shape. -/
structure ReLayer (P S O : Type) where
  build : P → S → Option P
  see : P → S → Option O

variable {P S O : Type}

/-- A layer made from the arguments `p`, built on `s` and used. -/
def ReLayer.run (L : ReLayer P S O) (p : P) (s : S) : Option O := (L.build p s).bind fun p' => L.see p' s

/-- The arguments after a history of builds, each on a layer made from the config of the one before (`get_config`/`from_config`). -/
def ReLayer.history (L : ReLayer P S O) (p : P) : List S → Option P
  | [] => some p
  | s :: hs => (L.build p s).bind fun p' => L.history p' hs

/-- What layers with a parallelization factor do at build (the rule), and how they report EBOPs. -/
structure FactorKind where
  rule : PfRule
  /-- the factor is divided by the number of positions -/
  perPosition : Bool

/-- `QDense` (dense.py L48-53, L80), `QEinsumDense` (einsum_dense.py L62-64, L93), `QDenseT`, `QEinsumDenseT`, `QConvT` (table/dense.py
L100-102, L143, L278-280, L403). -/
def kindDense : FactorKind := ⟨.neg, true⟩
/-- `QConv*` (conv.py L61-70, L95), pooling (pooling.py L36-47, L30). -/
def kindConv : FactorKind := ⟨.nonpos, true⟩
/-- `QSimpleRNN` (simple_rnn.py L321-324, L603-606). -/
def kindRnn : FactorKind := ⟨.minusOne, false⟩

/-- Layers with a parallelization factor.  `pos s` is the number of positions of an input shape (`none`: not known), `pre s` the cost the
factor applies to, `post s` the cost it does not apply to (bias of convolutions).  `build`: a replaced factor becomes the number of
positions; `.neg` multiplies the dimensions before it looks at the factor, so an unknown one raises (`prod` of `None`, dense.py L50, or the
assertion of einsum_dense.py L18); `.nonpos` raises only when it needs the number (conv.py L69); for `QSimpleRNN` an unknown length is
stored and raises when EBOPs are computed, here already at build.  `see`: the EBOPs. -/
def factorLayer (k : FactorKind) (pos : S → Option ℕ) (pre post : S → ℚ) : ReLayer ℤ S ℚ where
  build pf s :=
    match k.rule with
    | .neg => (pos s).map fun n => PfRule.neg.resolve n pf
    | .nonpos => if pf ≤ 0 then (pos s).map fun n => (n : ℤ) else some pf
    | .minusOne => if pf = -1 then (pos s).map fun n => (n : ℤ) else some pf
  see pf s :=
    if k.perPosition then (pos s).map fun n : ℕ => pre s * (pf : ℚ) / (n : ℚ) + post s
    else some (pre s * (pf : ℚ) + post s)

/-- `sorted(i if i >= 0 else i + len(input_shape) for i in self.axes)`, accum.py L28, softmax.py L104. -/
def buildAxes (axes : List ℤ) (rank : ℕ) : List ℤ := (axes.map fun a => if 0 ≤ a then a else a + (rank : ℤ)).mergeSort (fun a b => decide (a ≤ b))

/-- An index as Python uses it on `r` elements; `none`: IndexError. -/
def pyIdx (r : ℕ) (a : ℤ) : Option ℕ :=
  if 0 ≤ a then (if a < r then some a.toNat else none) else if 0 ≤ a + r then some (a + r).toNat else none

/-- `QSum` (accum.py L26-29, L45-49) and `QSoftmax` (softmax.py L102-105): shapes are lists of sizes; what is seen is the list of positions
the layer reduces over (Keras rejects repeated ones). -/
def axesLayer : ReLayer (List ℤ) (List ℕ) (List ℕ) where
  build axes s := some (buildAxes axes s.length)
  see axes s := axes.mapM (pyIdx s.length)

/-- `QMeanPow2` (accum.py L73-76): the positions and the number of elements the scale is computed from; the scale is not saved (L78-81). -/
def meanLayer : ReLayer (List ℤ) (List ℕ) (List ℕ × ℕ) where
  build axes s := some (buildAxes axes s.length)
  see axes s := (axes.mapM (pyIdx s.length)).map fun ps => (ps, (ps.map fun p => s.getD p 1).prod)

/-- `iq_confs` of a layer with several inputs (core/base.py L333-349): one config or a list; `build` makes it a list. -/
def inputsLayer (C : Type) : ReLayer (C ⊕ List C) ℕ (List C) where
  build p n := match p with
    | .inl c => some (.inr (List.replicate n c))
    | .inr cs => if cs.length = n then some (.inr cs) else none
  see p n := match p with
    | .inl c => some (List.replicate n c)
    | .inr cs => some cs

end HGQ
