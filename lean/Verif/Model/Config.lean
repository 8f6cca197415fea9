import Verif.Model.Constraints

/-!
# Quantizer configs, default tables and scopes

Models `src/hgq/quantizer/config.py` and `src/hgq/config/layer.py`.
Simplifications: names are lower case already (the code lower-cases them); Python values are `Val`; a dictionary is a
finite map, written as a function; keyword arguments are an association list without duplicate keys.
-/
namespace HGQ

/-- Python values occurring in configs. -/
inductive Val
  | none
  | num (q : ℚ)
  | bool (b : Bool)
  | str (s : String)
  | axes (l : List ℤ)
  | con (c : Constraint)
  | obj (n : ℕ)
  deriving DecidableEq

/-- A dictionary with string keys. -/
abbrev Dict := String → Option Val

/-- `d[k] = v`. -/
def Dict.set (d : Dict) (k : String) (v : Val) : Dict := fun k' => if k' = k then some v else d k'

/-- `d.update(e)`. -/
def Dict.update (d e : Dict) : Dict := fun k => match e k with | some v => some v | none => d k

/-- Keyword arguments. -/
abbrev Kw := List (String × Val)

/-- `kwargs.get(k)` (None if absent). -/
def Kw.get (kw : Kw) (k : String) : Val := (kw.lookup k).getD .none

/-- `kwargs[k] = v`. -/
def Kw.set (kw : Kw) (k : String) (v : Val) : Kw :=
  if kw.any (fun p => p.1 == k) then kw.map (fun p => if p.1 == k then (k, v) else p) else kw ++ [(k, v)]

/-- The quantizer types with default configs (config.py L208-221). -/
inductive QT | kbi | kif | float
  deriving DecidableEq
/-- The places (config.py L208-221). -/
inductive Place | weight | bias | table | datalane
  deriving DecidableEq
/-- Key of `default_configs`. -/
abbrev Key := QT × Place

/-- Value of a `q_type` argument. -/
inductive QArg | default | dummy | ty (t : QT) | other
  deriving DecidableEq

/-- Keys of `KBIConfig`, `KIFConfig`, `FloatConfig` (config.py L29-72). -/
def commonKeys : List String := ["homogeneous_axis", "heterogeneous_axis", "bw_mapper", "trainable", "is_weight"]
/-- See `commonKeys`. -/
def keysOf : QT → List String
  | .kbi => ["k0", "b0", "i0", "round_mode", "overflow_mode", "bc", "ic", "br", "ir", "i_decay_speed"] ++ commonKeys
  | .kif => ["k0", "i0", "f0", "round_mode", "overflow_mode", "ic", "ir", "fc", "fr", "i_decay_speed"] ++ commonKeys
  | .float => ["m0", "e0", "e00", "mc", "ec", "e0c", "mr", "er", "e0r"] ++ commonKeys

/-- Errors raised. -/
inductive Err | assertion | valueError | typeError
  deriving DecidableEq, Repr

/-- Arguments of `QuantizerConfig.__init__` (config.py L437-445); `place = none` is an unknown place. -/
structure CfgArgs where
  qtype : QArg
  place : Option Place
  scaler : Option ℚ
  affine : Option (ℚ × ℚ)
  qnoise : Option ℚ
  kw : Kw

/-- A `QuantizerConfig` object; `ty = none` is the dummy type. -/
structure CfgObj where
  ty : Option QT
  place : Place
  scaler : Option ℚ
  affine : Option (ℚ × ℚ)
  qnoise : Option ℚ
  conf : Dict

/-- Axis bookkeeping, config.py L491-498 (and L584-592 in the scope): assertion, then set the other one to `None`. -/
def normalizeAxes (kw : Kw) : Except Err Kw :=
  if kw.get "homogeneous_axis" = .none ∨ kw.get "heterogeneous_axis" = .none then
    let kw := if kw.get "homogeneous_axis" ≠ .none then kw.set "heterogeneous_axis" .none else kw
    let kw := if kw.get "heterogeneous_axis" ≠ .none then kw.set "homogeneous_axis" .none else kw
    .ok kw
  else .error .assertion

/-- The loop L504-508: reject unknown keys, set the others. -/
def applyStrict (d : Dict) : Kw → Except Err Dict
  | [] => .ok d
  | (k, v) :: r => if (d k).isSome then applyStrict (d.set k v) r else .error .valueError

/-- `QuantizerConfig.__init__`, config.py L437-508, with the current defaults `dq` (`default_q_type`) and `defs`
(`default_configs`). -/
def mkConfig (dq : Place → QArg) (defs : Key → Dict) (a : CfgArgs) : Except Err CfgObj :=
  match a.place with
  | none => .error .assertion
  | some place =>
    let q := if a.qtype = .default then dq place else a.qtype
    if a.scaler = some 0 then .error .assertion
    else if (a.affine.map (·.1)) = some 0 then .error .assertion
    else if a.qnoise.any (fun r => decide (r < 0 ∨ 1 < r)) then .error .assertion
    else match q with
      | .default => .error .assertion
      | .other => .error .assertion
      | .dummy => .ok ⟨none, place, a.scaler, a.affine, a.qnoise, fun _ => none⟩
      | .ty t =>
        match normalizeAxes a.kw with
        | .error e => .error e
        | .ok kw =>
          match applyStrict (defs (t, place)) kw with
          | .error e => .error e
          | .ok d => .ok ⟨some t, place, a.scaler, a.affine, a.qnoise, d⟩

/-- `QuantizerConfig.get_config`, L522-530: all named attributes and the items of `self.config`. -/
def getConfig (c : CfgObj) : CfgArgs :=
  { qtype := match c.ty with | some t => .ty t | none => .dummy
    place := some c.place
    scaler := c.scaler, affine := c.affine, qnoise := c.qnoise
    kw := match c.ty with
      | some t => (keysOf t).filterMap (fun k => (c.conf k).map (fun v => (k, v)))
      | none => [] }

/-- `HardTanhConfig.__init__`, config.py L647-669.  The assertion L654 names `overflow_node` (sic); passing
`overflow_mode` is then a duplicate keyword (TypeError). -/
def mkHardTanh (dq : Place → QArg) (defs : Key → Dict) (a : CfgArgs) (symmetric : Bool) : Except Err CfgObj :=
  if a.kw.any (fun p => p.1 = "k0" ∨ p.1 = "ic" ∨ p.1 = "overflow_node") ∨ a.affine.isSome then .error .assertion
  else
    let kw := a.kw.filter (fun p => p.1 ≠ "i0")
    if kw.any (fun p => p.1 = "overflow_mode") then .error .typeError
    else mkConfig dq defs { a with
      kw := [("k0", .num 1), ("ic", .con (.constant 0)), ("i0", .num 0),
             ("overflow_mode", .str (if symmetric then "SAT_SYM" else "SAT"))] ++ kw
      affine := none }

/-- `HardSigmoidConfig.__init__`, config.py L687-707. -/
def mkHardSigmoid (dq : Place → QArg) (defs : Key → Dict) (a : CfgArgs) : Except Err CfgObj :=
  if a.kw.any (fun p => p.1 = "k0" ∨ p.1 = "ic" ∨ p.1 = "overflow_mode") ∨ a.affine.isSome then .error .assertion
  else
    let kw := a.kw.filter (fun p => p.1 ≠ "i0")
    mkConfig dq defs { a with
      kw := [("k0", .num 1), ("ic", .con (.constant 1)), ("i0", .num 1), ("overflow_mode", .str "SAT")] ++ kw
      affine := some (1 / 4, 1 / 2) }

/-- `get_config` of both sugar classes, L671-678 and L709-716: delete `ic, k0, i0, overflow_mode, affine`. -/
def getConfigHard (c : CfgObj) : CfgArgs :=
  let a := getConfig c
  { a with kw := a.kw.filter (fun p => p.1 ≠ "ic" ∧ p.1 ≠ "k0" ∧ p.1 ≠ "i0" ∧ p.1 ≠ "overflow_mode"), affine := none }

/-- A dictionary literal. -/
def Dict.ofList (l : Kw) : Dict := fun k => l.lookup k

/-- Part shared by all entries of `default_configs` at import: axes, mapper, trainable, is_weight. -/
def initCommon (hom het : Val) (isWeight : Bool) : Kw :=
  [("homogeneous_axis", hom), ("heterogeneous_axis", het), ("bw_mapper", .none), ("trainable", .bool true),
   ("is_weight", .bool isWeight)]

/-- `default_configs` at import, config.py L75-221.  `MonoL1(1e-8)` is the opaque object 1, `float('inf')` the string. -/
def initDefs : Key → Dict := fun (t, p) =>
  let isW := p = .weight
  let hom : Val := match t, p with
    | _, .weight => .axes []
    | _, .bias => .axes []
    | _, .table => .none
    | .float, .datalane => .none
    | _, .datalane => .axes [0]
  let het : Val := match t, p with
    | _, .weight => .none
    | _, .table => .axes []
    | .float, .bias => .axes []
    | .float, .datalane => .axes []
    | _, _ => .none
  let wt := p = .weight ∨ p = .table
  let om : Val := .str (if wt then "SAT_SYM" else "WRAP")
  let ds : Val := if wt then .str "inf" else .num (1 / 100)
  Dict.ofList <| match t with
    | .kbi => [("k0", .bool true), ("b0", .num 8), ("i0", .num 2), ("round_mode", .str "RND"), ("overflow_mode", om),
        ("bc", .con (.minMax 0 (if wt then 23 else 24))), ("ic", .none), ("br", .obj 1), ("ir", .none),
        ("i_decay_speed", ds)] ++ initCommon hom het isW
    | .kif => [("k0", .bool true), ("i0", .num 2), ("f0", .num 6), ("round_mode", .str "RND"), ("overflow_mode", om),
        ("ic", .con (.minMax (-23) 23)), ("ir", .obj 1), ("fc", .con (.minMax (-24) 24)), ("fr", .obj 1),
        ("i_decay_speed", ds)] ++ initCommon hom het isW
    | .float => [("m0", .num 2), ("e0", .num 4), ("e00", .num 0), ("mc", .con (.minMax (-1) 8)),
        ("ec", .con (.minMax 0 4)), ("e0c", .con (.minMax (-16) 16)), ("mr", .obj 1), ("er", .obj 1), ("e0r", .none)]
        ++ initCommon hom het isW

/-- `default_q_type` at import, config.py L21-26. -/
def initDq : Place → QArg
  | .datalane => .ty .kif
  | _ => .ty .kbi

/-! ## Scopes -/

/-- `a - b` on config values; anything but numbers is a `TypeError` (simplification: booleans are not added). -/
def Val.sub : Val → Val → Except Err Val
  | .num a, .num b => .ok (.num (a - b))
  | _, _ => .error .typeError
/-- `a + b`, see `Val.sub`. -/
def Val.add : Val → Val → Except Err Val
  | .num a, .num b => .ok (.num (a + b))
  | _, _ => .error .typeError

/-- The i0/f0/b0 completion of `QuantizerConfigScope.__init__`, L593-600: if exactly two of them are not `None`, the third
is written into the keywords. -/
def completeIFB (kw : Kw) : Except Err Kw :=
  let i := kw.get "i0"
  let f := kw.get "f0"
  let b := kw.get "b0"
  if i = .none ∧ f ≠ .none ∧ b ≠ .none then (b.sub f).map (kw.set "i0")
  else if f = .none ∧ i ≠ .none ∧ b ≠ .none then (b.sub i).map (kw.set "f0")
  else if b = .none ∧ i ≠ .none ∧ f ≠ .none then (i.add f).map (kw.set "b0")
  else .ok kw

/-- `all_quantizer_keys`, L222-228 (the defaults' keys and five more). -/
def allQuantizerKeys : List String :=
  keysOf .kbi ++ keysOf .kif ++ keysOf .float ++ ["q_type", "place", "scaler", "affine", "qnoise_factor"]

/-- Static part of a `QuantizerConfigScope` object after construction (L606-611). -/
structure ScopeDef where
  types : List QT
  places : List Place
  dqt : Option QArg
  kw : Kw

/-- `QuantizerConfigScope.__init__`, L551-611, for valid types and places (`q_type`/`place` already sets, L570-581). -/
def mkScope (types : List QT) (places : List Place) (dqt : Option QArg) (kw : Kw) : Except Err ScopeDef :=
  match normalizeAxes kw with
  | .error e => .error e
  | .ok kw => match completeIFB kw with
    | .error e => .error e
    | .ok kw => if kw.all (fun p => allQuantizerKeys.contains p.1) then .ok ⟨types, places, dqt, kw⟩ else .error .valueError

/-- Mutable part: `_tmp_storage`, `original_default_q_type` (L610-611). -/
structure ScopeState where
  tmp : Key → Option Dict
  orig : Option (Place → QArg)

/-- A freshly constructed scope. -/
def ScopeState.fresh : ScopeState := ⟨fun _ => none, none⟩

/-- Memory: dictionaries live on a heap (object identity matters for aliasing).  References 0..11 are the twelve default
dictionaries, created at import (L75-221, distinct objects because of `.copy()`); later references are the `config`
dictionaries of user configs. -/
structure World where
  heap : ℕ → Dict
  next : ℕ
  dq : Place → QArg
  scopes : ℕ → ScopeState

/-- Index of a type. -/
def QT.ix : QT → ℕ | .kbi => 0 | .kif => 1 | .float => 2
/-- Index of a place. -/
def Place.ix : Place → ℕ | .weight => 0 | .bias => 1 | .table => 2 | .datalane => 3
/-- Reference of the default dictionary of a key. -/
def keyRef (k : Key) : ℕ := 4 * k.1.ix + k.2.ix

/-- The key of a default reference. -/
def refKey (r : ℕ) : Option Key :=
  match r with
  | 0 => some (.kbi, .weight) | 1 => some (.kbi, .bias) | 2 => some (.kbi, .table) | 3 => some (.kbi, .datalane)
  | 4 => some (.kif, .weight) | 5 => some (.kif, .bias) | 6 => some (.kif, .table) | 7 => some (.kif, .datalane)
  | 8 => some (.float, .weight) | 9 => some (.float, .bias) | 10 => some (.float, .table) | 11 => some (.float, .datalane)
  | _ => none

/-- `default_configs` as seen by a reader. -/
def World.defs (w : World) (k : Key) : Dict := w.heap (keyRef k)

/-- L617-619: for each keyword present in the dictionary, overwrite it. -/
def applyPresent (d : Dict) : Kw → Dict
  | [] => d
  | (k, v) :: r => applyPresent (if (d k).isSome then d.set k v else d) r

/-- A scope names a key. -/
def ScopeDef.hits (s : ScopeDef) (k : Key) : Bool := s.types.contains k.1 && s.places.contains k.2

/-- `__enter__`, L613-623.  The loop over `default_configs` touches distinct dictionaries, so it is written pointwise. -/
def enter (sd : ScopeDef) (id : ℕ) (w : World) : World :=
  let st := w.scopes id
  let tmp : Key → Option Dict := fun k => if sd.hits k then some (w.defs k) else st.tmp k
  let heap : ℕ → Dict := fun r =>
    match refKey r with
    | some k => if sd.hits k then applyPresent (w.heap r) sd.kw else w.heap r
    | none => w.heap r
  let orig := match sd.dqt with | some _ => some w.dq | none => st.orig
  let dq := match sd.dqt with
    | some t => fun p => if sd.places.contains p then t else w.dq p
    | none => w.dq
  { w with heap := heap, dq := dq, scopes := fun j => if j = id then ⟨tmp, orig⟩ else w.scopes j }

/-- `__exit__`, L625-633. -/
def exitS (id : ℕ) (w : World) : World :=
  let st := w.scopes id
  let dq := match st.orig with | some d => d | none => w.dq
  let heap : ℕ → Dict := fun r =>
    match refKey r with
    | some k => match st.tmp k with
      | some t => (w.heap r).update t
      | none => w.heap r
    | none => w.heap r
  { w with heap := heap, dq := dq, scopes := fun j => if j = id then ScopeState.fresh else w.scopes j }

/-- Programs that create configs, change their own configs, raise, and use scopes in `with` statements. -/
inductive Stmt
  | skip
  | seq (a b : Stmt)
  | raise
  | newCfg (a : CfgArgs)
  | mutCfg (r : ℕ) (k : String) (v : Val)
  | withScope (id : ℕ) (body : Stmt)
  | tryExcept (body handler : Stmt)

/-- Execution; the flag says whether an exception is propagating.  `with` runs `__exit__` in both cases.
`newCfg` stores `config.copy()` plus keywords in a fresh dictionary (L500-508); `mutCfg r` is `cfg.config[k] = v` on a user
config (references below 12 or not yet allocated are not user configs and are left alone). -/
def exec (env : ℕ → ScopeDef) : Stmt → World → World × Bool
  | .skip, w => (w, false)
  | .seq a b, w =>
    let r := exec env a w
    if r.2 then r else exec env b r.1
  | .raise, w => (w, true)
  | .newCfg a, w =>
    match mkConfig w.dq w.defs a with
    | .ok c => ({ w with heap := fun r => if r = w.next then c.conf else w.heap r, next := w.next + 1 }, false)
    | .error _ => (w, true)
  | .mutCfg r k v, w =>
    if 12 ≤ r ∧ r < w.next then ({ w with heap := fun r' => if r' = r then (w.heap r).set k v else w.heap r' }, false)
    else (w, false)
  | .withScope id body, w =>
    let r := exec env body (enter (env id) id w)
    (exitS id r.1, r.2)
  | .tryExcept a b, w =>
    let r := exec env a w
    if r.2 then exec env b r.1 else r

/-! ## `LayerConfigScope` (`src/hgq/config/layer.py` L23-41) -/

/-- State: the global layer configuration and `_tmp` of each scope object. -/
structure LWorld where
  g : Dict
  tmp : ℕ → Option Dict

/-- `__enter__`, L33-36. -/
def lenter (kw : Kw) (id : ℕ) (w : LWorld) : LWorld :=
  { g := kw.foldl (fun d p => d.set p.1 p.2) w.g, tmp := fun j => if j = id then some w.g else w.tmp j }

/-- `__exit__`, L38-41: delete the overridden keys, then `update(self._tmp)`. (`del` of a key removed by the body would
raise; bodies in the model do not delete.) -/
def lexit (kw : Kw) (id : ℕ) (w : LWorld) : LWorld :=
  let g : Dict := fun k => if kw.any (fun p => p.1 == k) then none else w.g k
  match w.tmp id with
  | some t => { w with g := g.update t }
  | none => { w with g := g }

/-- Programs using layer scopes. -/
inductive LStmt
  | skip
  | seq (a b : LStmt)
  | raise
  | withScope (id : ℕ) (body : LStmt)
  | tryExcept (body handler : LStmt)

/-- Execution of layer-scope programs. -/
def lexec (env : ℕ → Kw) : LStmt → LWorld → LWorld × Bool
  | .skip, w => (w, false)
  | .seq a b, w =>
    let r := lexec env a w
    if r.2 then r else lexec env b r.1
  | .raise, w => (w, true)
  | .withScope id body, w =>
    let r := lexec env body (lenter (env id) id w)
    (lexit (env id) id r.1, r.2)
  | .tryExcept a b, w =>
    let r := lexec env a w
    if r.2 then lexec env b r.1 else r

end HGQ
