import Mathlib.Data.List.Basic

/-!
# Tracing a Keras graph

`src/hgq/_dais_tracer/main.py`.  Tensors are identified by their (Keras-generated) names `T`; values have type `V`.  The mirrored
operation of a node is an arbitrary function of its tensor arguments (`replace_tensors`, L55-64, and the operation's own replay).
-/
namespace HGQ

/-- `OpObj`, main.py L13-19, with the mirrored operation. -/
structure GNode (T V : Type) where
  name : List Char
  isInput : Bool
  requires : List T
  produces : List T
  fn : List V → List V

/-- `parse_model`, main.py L35-52: nodes from the largest depth down to 0. -/
def parseModel {T V : Type} (byDepth : ℕ → List (GNode T V)) (maxDepth : ℕ) : List (GNode T V) :=
  (List.range (maxDepth + 1)).reverse.flatMap byDepth

/-- `tensor_map` and the operations evaluated so far with their results. -/
structure TraceState (T V : Type) where
  map : T → Option V
  log : List (List Char × List V)

/-- `for keras_tensor, da_tensor in zip(op.produces, _dump['final']): tensor_map[keras_tensor.name] = da_tensor`, L128-129. -/
def assignAll {T V : Type} [DecidableEq T] (m : T → Option V) (ps : List (T × V)) : T → Option V :=
  ps.foldl (fun m p => fun t => if t = p.1 then some p.2 else m t) m

/-- One node of the loop, L101-134: the assertion on required tensors (L103), the input-layer `continue` (L106-107), the call. -/
def traceNode {T V : Type} [DecidableEq T] (st : TraceState T V) (n : GNode T V) : Option (TraceState T V) :=
  match n.requires.mapM st.map with
  | none => none
  | some args =>
    if n.isInput then some st
    else
      let out := n.fn args
      some ⟨assignAll st.map (n.produces.zip out), st.log ++ [(n.name, out)]⟩

/-- `_trace_model`, L67-142: inputs (name, value) first, then the nodes in order; `none` is a failed assertion. -/
def traceModel {T V : Type} [DecidableEq T] (inputs : List (T × V)) (nodes : List (GNode T V)) : Option (TraceState T V) :=
  nodes.foldlM traceNode ⟨assignAll (fun _ => none) inputs, []⟩

/-- `final = tuple(tensor_map[t.name] for t in model.outputs)`, L140. -/
def traceOutputs {T V : Type} [DecidableEq T] (inputs : List (T × V)) (nodes : List (GNode T V)) (outputs : List T) : Option (List V) :=
  match traceModel inputs nodes with
  | none => none
  | some st => outputs.mapM st.map

/-- `f'{name}#{n}'`. -/
def hashName (s : List Char) (n : ℕ) : List Char := s ++ '#' :: Nat.toDigits 10 n

/-- `MaybeRename.__call__`, main.py L22-32, threaded over a list of names; `counter` maps a name to its count. -/
def renameAll (counter : List Char → Option ℕ) : List (List Char) → List (List Char)
  | [] => []
  | s :: r =>
    match counter s with
    | none => s :: renameAll (fun t => if t = s then some 0 else counter t) r
    | some c => hashName s (c + 1) :: renameAll (fun t => if t = s then some (c + 1) else counter t) r

/-- The keys written for a model at nesting level 0 (L131-134): `/name/k` for every entry `k` of each operation's dump. -/
def traceKeys (ops : List (List Char × List (List Char))) : List (List Char) :=
  ((renameAll (fun _ => none) (ops.map (·.1))).zip (ops.map (·.2))).flatMap fun p => p.2.map fun k => '/' :: p.1 ++ '/' :: k

/-- A positional argument of a recorded call: a tensor or a list of tensors. -/
inductive CallArg (V : Type) | one (v : V) | many (vs : List V)

/-- The check on entry of `_trace_model` (L88-91) when a nested model with `nInputs` inputs is traced with the recorded positional
arguments of its call (L113-120; keyword arguments are not passed on). -/
def nestedArgsOk {V : Type} (nInputs : ℕ) (args : List (CallArg V)) : Bool := nInputs == args.length

/-- How a Keras functional model with the given inputs is called: the tensor itself for one input, one list for several. -/
def functionalArgs {V : Type} : List V → List (CallArg V)
  | [v] => [.one v]
  | vs => [.many vs]

end HGQ
