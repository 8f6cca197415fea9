import Verif.Model.LayerConfig
import Mathlib.Tactic

/-!
# C85: saving and loading a layer
-/
namespace HGQ
open Layers

namespace Spec

/-- A class survives save and load: whatever arguments a layer was constructed with, under whatever global configuration, loading its
config under any (other) global configuration gives a layer with the same value of every attribute. -/
def SurvivesSaving (c : LayerClass) : Prop :=
  ∀ (sc sc' : Scope) (kw o : Kwargs), construct c sc kw = some o → fromConfig c sc' (getConfig c o) = some o

end Spec
open Spec

/-! ## Attributes of a constructed layer -/

theorem lookup_append_ne {l : Kwargs} {k n : String} {v : ArgVal} (h : k ≠ n) : (l ++ [(n, v)]).lookup k = l.lookup k := by
  rw [List.lookup_append]
  have h1 : List.lookup k [(n, v)] = none := by
    rw [List.lookup_cons]
    have : (k == n) = false := by simpa using h
    simp [this]
  rw [h1, Option.or_none]

theorem lookup_none_of_not_mem {l : Kwargs} {k : String} (h : k ∉ l.map Prod.fst) : l.lookup k = none := by
  rw [List.lookup_eq_none_iff]
  intro p hp
  have : k ≠ p.1 := fun e => h (by rw [e]; exact List.mem_map_of_mem hp)
  simpa using this

theorem lookup_append_self {l : Kwargs} {k : String} {v : ArgVal} (h : k ∉ l.map Prod.fst) : (l ++ [(k, v)]).lookup k = some v := by
  rw [List.lookup_append, lookup_none_of_not_mem h]
  simp

/-- Later attributes do not change earlier ones. -/
theorem evalParams_lookup (sc : Scope) (kw : Kwargs) (ps : List (String × Rule)) (acc : Kwargs) (k : String)
    (hk : k ∉ ps.map Prod.fst) : (evalParams sc kw ps acc).lookup k = acc.lookup k := by
  induction ps generalizing acc with
  | nil => rfl
  | cons p ps ih =>
    obtain ⟨n, r⟩ := p
    simp only [List.map_cons, List.mem_cons, not_or] at hk
    rw [evalParams, ih _ hk.2, lookup_append_ne hk.1]

theorem evalParams_names (sc : Scope) (kw : Kwargs) (ps : List (String × Rule)) (acc : Kwargs) :
    (evalParams sc kw ps acc).map Prod.fst = acc.map Prod.fst ++ ps.map Prod.fst := by
  induction ps generalizing acc with
  | nil => simp [evalParams]
  | cons p ps ih => obtain ⟨n, r⟩ := p; rw [evalParams, ih]; simp

/-- The keys a rule reads. -/
def Layers.Rule.reads : Rule → List String
  | .other k => [k]
  | .guarded k _ _ => [k]
  | .ebops => ["enable_iq"]
  | _ => []

/-- Every argument reads only earlier arguments (`seen`). -/
def readsEarlier : List String → List (String × Rule) → Bool
  | _, [] => true
  | seen, (k, r) :: ps => (r.reads.all fun n => seen.contains n) && readsEarlier (seen ++ [k]) ps

theorem Layers.Rule.eval_congr (r : Rule) (sc : Scope) (e e' : String → ArgVal) (a : Option ArgVal) (h : ∀ n ∈ r.reads, e n = e' n) :
    r.eval sc e a = r.eval sc e' a := by
  cases r <;> simp_all [Rule.eval, Rule.reads]

theorem Layers.Src.val_ne_none (sc : Scope) (g : Src) : g.val sc ≠ .none := by cases g <;> simp [Src.val]

/-- Giving a constructor the attribute as the argument gives the attribute, under any scope. -/
theorem Layers.Rule.eval_idem (r : Rule) (sc sc' : Scope) (e : String → ArgVal) (a : Option ArgVal) :
    r.eval sc' e (some (r.eval sc e a)) = r.eval sc e a := by
  cases r with
  | plain d => simp [Rule.eval]
  | required => simp [Rule.eval]
  | scope g =>
    simp only [Rule.eval, Option.getD_some]
    by_cases h : a.getD .none = .none <;> simp [h, Src.val_ne_none]
  | other k =>
    simp only [Rule.eval, Option.getD_some]
    by_cases h : a.getD .none = .none <;> simp [h]
  | guarded k p g =>
    simp only [Rule.eval, Option.getD_some]
    by_cases hp : p.holds (e k) = true
    · by_cases h : a.getD .none = .none <;> simp [h, hp, Src.val_ne_none]
    · simp [hp]
  | ebops =>
    simp only [Rule.eval, Option.getD_some]
    by_cases h : a.getD .none = .none <;> simp [h]

theorem prefix_get {ps : List (String × Rule)} {acc : Kwargs} (sc : Scope) (kw : Kwargs)
    (hnd : (acc.map Prod.fst ++ ps.map Prod.fst).Nodup) (n : String) (hn : n ∈ acc.map Prod.fst) :
    (evalParams sc kw ps acc).get n = acc.get n := by
  have : n ∉ ps.map Prod.fst := fun h => (List.disjoint_of_nodup_append hnd) hn h
  simp only [Kwargs.get, evalParams_lookup sc kw ps acc n this]

theorem step_nodup {k : String} {r : Rule} {ps : List (String × Rule)} {acc : Kwargs} {v : ArgVal}
    (hnd : (acc.map Prod.fst ++ ((k, r) :: ps).map Prod.fst).Nodup) : ((acc ++ [(k, v)]).map Prod.fst ++ ps.map Prod.fst).Nodup := by
  simpa using hnd

theorem head_fresh {k : String} {r : Rule} {ps : List (String × Rule)} {acc : Kwargs}
    (hnd : (acc.map Prod.fst ++ ((k, r) :: ps).map Prod.fst).Nodup) : k ∉ acc.map Prod.fst ∧ k ∉ ps.map Prod.fst := by
  have h1 := List.disjoint_of_nodup_append hnd
  have h2 := (List.nodup_append.mp hnd).2.1
  simp only [List.map_cons, List.nodup_cons] at h2
  exact ⟨fun h => h1 h (by simp), h2.1⟩

theorem reads_get {k : String} {r : Rule} {ps : List (String × Rule)} {acc : Kwargs} (sc : Scope) (kw : Kwargs)
    (hnd : (acc.map Prod.fst ++ ((k, r) :: ps).map Prod.fst).Nodup) (hre : readsEarlier (acc.map Prod.fst) ((k, r) :: ps) = true) :
    ∀ n ∈ r.reads, (evalParams sc kw ((k, r) :: ps) acc).get n = acc.get n := by
  intro n hn
  simp only [readsEarlier, Bool.and_eq_true, List.all_eq_true] at hre
  exact prefix_get sc kw hnd n (by simpa using hre.1 n hn)

/-- The attributes of a layer satisfy the rules at the layer itself (not only at the state of construction). -/
theorem evalParams_spec (sc : Scope) (kw : Kwargs) (ps : List (String × Rule)) (acc : Kwargs)
    (hnd : (acc.map Prod.fst ++ ps.map Prod.fst).Nodup) (hre : readsEarlier (acc.map Prod.fst) ps = true) (k : String) (r : Rule)
    (hkr : (k, r) ∈ ps) :
    (evalParams sc kw ps acc).lookup k = some (r.eval sc (evalParams sc kw ps acc).get (kw.lookup k)) := by
  induction ps generalizing acc with
  | nil => simp at hkr
  | cons p ps ih =>
    obtain ⟨n, r'⟩ := p
    rcases List.mem_cons.mp hkr with h | h
    · obtain ⟨rfl, rfl⟩ := Prod.mk.inj h
      have hf := head_fresh hnd
      have hrd := reads_get sc kw hnd hre
      rw [Rule.eval_congr r sc _ acc.get (kw.lookup k) hrd]
      rw [evalParams, evalParams_lookup _ _ _ _ _ hf.2, lookup_append_self hf.1]
    · have hre' : readsEarlier ((acc ++ [(n, r'.eval sc acc.get (kw.lookup n))]).map Prod.fst) ps = true := by
        simp only [readsEarlier, Bool.and_eq_true] at hre
        simpa using hre.2
      exact ih _ (step_nodup hnd) hre' h

/-- Two runs agree iff the arguments of the second reproduce the attributes of the first. -/
theorem evalParams_eq_iff (sc sc' : Scope) (kw kw' : Kwargs) (ps : List (String × Rule)) (acc : Kwargs)
    (hnd : (acc.map Prod.fst ++ ps.map Prod.fst).Nodup) (hre : readsEarlier (acc.map Prod.fst) ps = true) :
    evalParams sc' kw' ps acc = evalParams sc kw ps acc ↔
      ∀ k r, (k, r) ∈ ps → (evalParams sc kw ps acc).get k = r.eval sc' (evalParams sc kw ps acc).get (kw'.lookup k) := by
  constructor
  · intro h k r hkr
    have h' := evalParams_spec sc' kw' ps acc hnd hre k r hkr
    rw [h] at h'
    simp only [Kwargs.get, h', Option.getD_some]
  · intro h
    induction ps generalizing acc with
    | nil => rfl
    | cons p ps ih =>
      obtain ⟨k, r⟩ := p
      have hf := head_fresh hnd
      have hrd := reads_get sc kw hnd hre
      have h1 := h k r (by simp)
      rw [Rule.eval_congr r sc' _ acc.get _ hrd] at h1
      have h2 : (evalParams sc kw ((k, r) :: ps) acc).get k = r.eval sc acc.get (kw.lookup k) := by
        rw [Kwargs.get, evalParams, evalParams_lookup _ _ _ _ _ hf.2, lookup_append_self hf.1]; rfl
      have he : r.eval sc' acc.get (kw'.lookup k) = r.eval sc acc.get (kw.lookup k) := by rw [← h1, h2]
      have hre' : readsEarlier ((acc ++ [(k, r.eval sc acc.get (kw.lookup k))]).map Prod.fst) ps = true := by
        simp only [readsEarlier, Bool.and_eq_true] at hre
        simpa using hre.2
      rw [evalParams, evalParams, he]
      exact ih _ (step_nodup hnd) hre' (fun k' r' hm => h k' r' (by simp [hm]))

/-! ## Save and load -/

/-- The arguments that come back: written by `get_config` and not dropped by `from_config`. -/
def Layers.LayerClass.kept (c : LayerClass) (k : String) : Bool := c.emits.contains k && !c.drops.contains k

/-- Sanity of a table: distinct names, arguments read only earlier ones, only accepted keys are written, required ones come back. -/
def Layers.LayerClass.sane (c : LayerClass) : Bool :=
  decide (c.params.map Prod.fst).Nodup && readsEarlier [] c.params &&
  (c.emits.all fun k => c.drops.contains k || (c.params.map Prod.fst).contains k) &&
  (c.params.all fun p => decide (p.2 ≠ .required) || c.kept p.1)

theorem lookup_map_filter (o : Kwargs) (es ds : List String) (k : String) :
    (((es.map fun k => (k, o.get k)).filter fun a => !ds.contains a.1).lookup k) =
      if (es.contains k && !ds.contains k) then some (o.get k) else none := by
  induction es with
  | nil => simp
  | cons e es ih =>
    simp only [List.map_cons, List.filter_cons]
    by_cases hd : ds.contains e = true
    · simp only [hd, Bool.not_true, Bool.false_eq_true, if_false, ih]
      by_cases hke : k = e
      · subst hke; rw [hd]; simp
      · have : (e :: es).contains k = es.contains k := by simp [List.contains_cons, hke]
        rw [this]
    · have hd' : ds.contains e = false := by simpa using hd
      simp only [hd', Bool.not_false, if_true, List.lookup_cons]
      by_cases hke : k = e
      · subst hke; rw [hd']; simp
      · have h1 : (k == e) = false := by simpa using hke
        have h2 : (e :: es).contains k = es.contains k := by simp [List.contains_cons, hke]
        rw [h1, h2, ih]

theorem fromConfig_eq (c : LayerClass) (hs : c.sane = true) (sc' : Scope) (o : Kwargs) :
    fromConfig c sc' (getConfig c o) =
      some (evalParams sc' ((getConfig c o).filter fun a => !c.drops.contains a.1) c.params []) := by
  simp only [LayerClass.sane, Bool.and_eq_true, List.all_eq_true] at hs
  obtain ⟨⟨⟨_, _⟩, hem⟩, hreq⟩ := hs
  unfold fromConfig construct
  rw [if_pos]
  simp only [Bool.and_eq_true, List.all_eq_true]
  constructor
  · intro a ha
    obtain ⟨ha1, ha2⟩ := List.mem_filter.mp ha
    obtain ⟨k, hk, rfl⟩ := List.mem_map.mp ha1
    have := hem k hk
    simp only [Bool.or_eq_true] at this
    rcases this with h | h
    · rw [h] at ha2; simp at ha2
    · exact h
  · intro p hp
    have hr := hreq p hp
    rcases hpr : p.2 with _ | _ | _ | _ | _ | _ <;> simp only
    simp only [hpr, ne_eq, not_true_eq_false, decide_false, Bool.false_or, LayerClass.kept] at hr
    rw [getConfig, lookup_map_filter, hr]
    simp

/-- **Criterion**, for every class with a sane table: loading what was saved gives the layer back if and only if every argument that is
not brought back by the config had, in the saved layer, the value the constructor gives it by default at loading time. -/
theorem roundTrip_iff (c : LayerClass) (hs : c.sane = true) (sc sc' : Scope) (kw o : Kwargs) (hc : construct c sc kw = some o) :
    fromConfig c sc' (getConfig c o) = some o ↔
      ∀ k r, (k, r) ∈ c.params → c.kept k = false → o.get k = r.eval sc' o.get none := by
  have hs' := hs
  simp only [LayerClass.sane, Bool.and_eq_true, decide_eq_true_eq] at hs'
  obtain ⟨⟨⟨hnd, hre⟩, _⟩, _⟩ := hs'
  have ho : o = evalParams sc kw c.params [] := by
    unfold construct at hc
    split at hc
    · exact (Option.some.inj hc).symm
    · exact absurd hc (by simp)
  have hnd' : (([] : Kwargs).map Prod.fst ++ c.params.map Prod.fst).Nodup := by simpa using hnd
  rw [fromConfig_eq c hs, Option.some.injEq]
  have key := evalParams_eq_iff sc sc' kw ((getConfig c o).filter fun a => !c.drops.contains a.1) c.params [] hnd' (by simpa using hre)
  rw [← ho] at key
  rw [key]
  constructor
  · intro h k r hkr hk
    have := h k r hkr
    rwa [getConfig, lookup_map_filter, if_neg (by simpa [LayerClass.kept] using hk)] at this
  · intro h k r hkr
    rw [getConfig, lookup_map_filter]
    by_cases hk : c.kept k = true
    · rw [if_pos (by simpa [LayerClass.kept] using hk)]
      have hsp := evalParams_spec sc kw c.params [] hnd' (by simpa using hre) k r hkr
      rw [← ho] at hsp
      have hg : o.get k = r.eval sc o.get (kw.lookup k) := by
        conv_lhs => rw [Kwargs.get, hsp]
        rfl
      conv_rhs => rw [hg]
      rw [Rule.eval_idem, ← hg]
    · have hk' : c.kept k = false := by simpa using hk
      rw [if_neg (by simpa [LayerClass.kept] using hk')]
      exact h k r hkr hk'

/-- The arguments that do not come back. -/
def Layers.LayerClass.lost (c : LayerClass) : List (String × Rule) := c.params.filter fun p => !c.kept p.1

theorem roundTrip_lost (c : LayerClass) (hs : c.sane = true) (sc sc' : Scope) (kw o : Kwargs) (hc : construct c sc kw = some o) :
    fromConfig c sc' (getConfig c o) = some o ↔ ∀ p ∈ c.lost, o.get p.1 = p.2.eval sc' o.get none := by
  rw [roundTrip_iff c hs sc sc' kw o hc]
  constructor
  · intro h p hp
    obtain ⟨h1, h2⟩ := List.mem_filter.mp hp
    exact h p.1 p.2 h1 (by simpa using h2)
  · intro h k r hkr hk
    exact h (k, r) (List.mem_filter.mpr ⟨hkr, by simpa using hk⟩)

theorem survives_of_lost (c : LayerClass) (hs : c.sane = true) (hl : c.lost = []) : SurvivesSaving c := by
  intro sc sc' kw o hc
  rw [roundTrip_lost c hs sc sc' kw o hc, hl]
  simp

/-- **C85 (partial)**: these layers survive saving and loading, whatever their arguments and whatever the global configuration and
quantizer scope active when saving and when loading.  Missing: the classes below, for which it is false. -/
theorem C85_survives_partial :
    ∀ c ∈ [qDense, qBnDense, qEinsumDense, qConv "QConv1D", qConv "QConv2D", qConv "QConv3D", qBatchNorm, qUnary "QUnaryFunctionLUT",
      qUnary "QAffinedUnaryFunctionLUT", qSoftmax, qSum, qMeanPow2, qEinsum, qMerge "QAdd", qMerge "QSubtract", qMerge "QMultiply",
      qMerge "QMaximum", qMerge "QMinimum", qMerge "QAveragePow2", qDot, qDenseT, qEinsumDenseT, qConvT "QConvT1D", qConvT "QConvT2D",
      qMha, qMhaT, qLinformer, qLinformerT, qSalt, qSimpleRnnCell, qGru, qSnnCell "QSimpleSNNCell" false, qSnnCell "QLIFCell" true],
      SurvivesSaving c := by
  have h : ([qDense, qBnDense, qEinsumDense, qConv "QConv1D", qConv "QConv2D", qConv "QConv3D", qBatchNorm, qUnary "QUnaryFunctionLUT",
      qUnary "QAffinedUnaryFunctionLUT", qSoftmax, qSum, qMeanPow2, qEinsum, qMerge "QAdd", qMerge "QSubtract", qMerge "QMultiply",
      qMerge "QMaximum", qMerge "QMinimum", qMerge "QAveragePow2", qDot, qDenseT, qEinsumDenseT, qConvT "QConvT1D", qConvT "QConvT2D",
      qMha, qMhaT, qLinformer, qLinformerT, qSalt, qSimpleRnnCell, qGru, qSnnCell "QSimpleSNNCell" false, qSnnCell "QLIFCell" true]).all
      (fun c => c.sane && decide (c.lost = [])) = true := by decide +kernel
  intro c hc
  have := List.all_eq_true.mp h c hc
  simp only [Bool.and_eq_true, decide_eq_true_eq] at this
  exact survives_of_lost c this.1 this.2

/-- **C85 violated**, pooling: a pooling layer survives if and only if it was built without a parallelization factor of its own (and
never built, which replaces -1 by the number of positions). -/
theorem C85_pooling_violated (name : String) (global : Bool) (sc sc' : Scope) (kw o : Kwargs)
    (hc : construct (qPool name (if global then pKGlobalPool else pKPool)) sc kw = some o) :
    fromConfig (qPool name (if global then pKGlobalPool else pKPool)) sc' (getConfig (qPool name (if global then pKGlobalPool else pKPool)) o)
      = some o ↔ o.get "parallelization_factor" = .int (-1) := by
  cases global
  · have hs : (qPool name pKPool).sane = true := by
      have : (qPool "" pKPool).sane = true := by decide +kernel
      exact this
    have hl : (qPool name pKPool).lost = [("parallelization_factor", .plain (.int (-1)))] := by
      have : (qPool "" pKPool).lost = [("parallelization_factor", .plain (.int (-1)))] := by decide +kernel
      exact this
    simp only [Bool.false_eq_true, if_false] at hc ⊢
    rw [roundTrip_lost _ hs sc sc' kw o hc, hl]
    simp [Rule.eval]
  · have hs : (qPool name pKGlobalPool).sane = true := by
      have : (qPool "" pKGlobalPool).sane = true := by decide +kernel
      exact this
    have hl : (qPool name pKGlobalPool).lost = [("parallelization_factor", .plain (.int (-1)))] := by
      have : (qPool "" pKGlobalPool).lost = [("parallelization_factor", .plain (.int (-1)))] := by decide +kernel
      exact this
    simp only [if_true] at hc ⊢
    rw [roundTrip_lost _ hs sc sc' kw o hc, hl]
    simp [Rule.eval]

/-- **C85 violated**, `QEinsumDenseBatchnorm`: it survives if and only if every batch-norm argument has its default value and it
normalises over the bias axes. -/
theorem C85_einsum_bn_violated (sc sc' : Scope) (kw o : Kwargs) (hc : construct qEinsumBn sc kw = some o) :
    fromConfig qEinsumBn sc' (getConfig qEinsumBn o) = some o ↔
      o.get "normalize_axes" = o.get "bias_axes" ∧ o.get "momentum" = .str "0.99" ∧ o.get "epsilon" = .str "0.001" ∧
      o.get "center" = .bool true ∧ o.get "scale" = .bool true ∧ o.get "beta_initializer" = .str "zeros" ∧
      o.get "gamma_initializer" = .str "ones" ∧ o.get "moving_mean_initializer" = .str "zeros" ∧
      o.get "moving_variance_initializer" = .str "ones" ∧ o.get "beta_regularizer" = .none ∧ o.get "gamma_regularizer" = .none ∧
      o.get "beta_constraint" = .none ∧ o.get "gamma_constraint" = .none ∧ o.get "synchronized" = .bool false := by
  have hs : qEinsumBn.sane = true := by decide +kernel
  have hl : qEinsumBn.lost = [("normalize_axes", .other "bias_axes"), ("momentum", .plain (.str "0.99")),
     ("epsilon", .plain (.str "0.001")),
     ("center", .plain (.bool true)), ("scale", .plain (.bool true)), ("beta_initializer", .plain (.str "zeros")),
     ("gamma_initializer", .plain (.str "ones")), ("moving_mean_initializer", .plain (.str "zeros")),
     ("moving_variance_initializer", .plain (.str "ones")), ("beta_regularizer", .plain .none), ("gamma_regularizer", .plain .none),
     ("beta_constraint", .plain .none), ("gamma_constraint", .plain .none), ("synchronized", .plain (.bool false))] := by
    decide +kernel
  rw [roundTrip_lost _ hs sc sc' kw o hc, hl]
  simp [Rule.eval]

/-- **C85 violated**, `QSimpleRNN`: it survives if and only if its state quantizer is disabled and it has no activity regularizer; a
layer with `enable_sq=True` loses its state quantizer. -/
theorem C85_simple_rnn_violated (sc sc' : Scope) (kw o : Kwargs) (hc : construct qSimpleRnn sc kw = some o) :
    (fromConfig qSimpleRnn sc' (getConfig qSimpleRnn o) = some o ↔
      o.get "activity_regularizer" = .none ∧ o.get "enable_sq" = .bool false) ∧
    ∃ o', fromConfig qSimpleRnn sc' (getConfig qSimpleRnn o) = some o' ∧ o'.get "enable_sq" = .bool false ∧ o'.get "sq_conf" = .none := by
  have hs : qSimpleRnn.sane = true := by decide +kernel
  have hl : qSimpleRnn.lost = [("activity_regularizer", .plain .none), ("enable_sq", .plain (.bool false))] := by decide +kernel
  refine ⟨by rw [roundTrip_lost _ hs sc sc' kw o hc, hl]; simp [Rule.eval], _, fromConfig_eq qSimpleRnn hs sc' o, ?_⟩
  have hs' := hs
  simp only [LayerClass.sane, Bool.and_eq_true, decide_eq_true_eq] at hs'
  obtain ⟨⟨⟨hnd, hre⟩, _⟩, _⟩ := hs'
  have hsp := fun k r => evalParams_spec sc' ((getConfig qSimpleRnn o).filter fun a => !qSimpleRnn.drops.contains a.1) qSimpleRnn.params []
    (by simpa using hnd) (by simpa using hre) k r
  have h1 := hsp "enable_sq" (.plain (.bool false)) (by decide +kernel)
  have h2 := hsp "sq_conf" (.guarded "enable_sq" .truthy .datalane) (by decide +kernel)
  have hnone : ((getConfig qSimpleRnn o).filter fun a => !qSimpleRnn.drops.contains a.1).lookup "enable_sq" = none := by
    rw [getConfig, lookup_map_filter, if_neg]
    have : qSimpleRnn.kept "enable_sq" = false := by decide +kernel
    simpa [LayerClass.kept] using this
  rw [hnone] at h1
  have e1 : (evalParams sc' ((getConfig qSimpleRnn o).filter fun a => !qSimpleRnn.drops.contains a.1) qSimpleRnn.params []).get "enable_sq"
      = .bool false := by rw [Kwargs.get, h1]; rfl
  refine ⟨e1, ?_⟩
  rw [Kwargs.get, h2]
  simp only [Rule.eval, e1, Option.getD_some]
  rfl

/-- **C85 violated**, `QGRUCell`: it survives if and only if it is standalone and its `rhq` config is the default of the scope active at
loading. -/
theorem C85_gru_cell_violated (sc sc' : Scope) (kw o : Kwargs) (hc : construct qGruCell sc kw = some o) :
    fromConfig qGruCell sc' (getConfig qGruCell o) = some o ↔
      o.get "standalone" = .bool true ∧ o.get "rhq_conf" = .obj sc'.datalane := by
  have hs : qGruCell.sane = true := by decide +kernel
  have hl : qGruCell.lost = [("standalone", .plain (.bool true)), ("rhq_conf", .scope .datalane)] := by decide +kernel
  rw [roundTrip_lost _ hs sc sc' kw o hc, hl]
  simp [Rule.eval, Src.val]

/-- **C85 violated**, `QSimpleSNN` and `QLIF`: they survive if and only if `zero_output_for_mask` is off. -/
theorem C85_snn_violated (name : String) (lif : Bool) (sc sc' : Scope) (kw o : Kwargs) (hc : construct (qSnn name lif) sc kw = some o) :
    fromConfig (qSnn name lif) sc' (getConfig (qSnn name lif) o) = some o ↔ o.get "zero_output_for_mask" = .bool false := by
  have hs : (qSnn name lif).sane = true := by
    have : ∀ b, (qSnn "" b).sane = true := by decide +kernel
    exact this lif
  have hl : (qSnn name lif).lost = [("zero_output_for_mask", .plain (.bool false))] := by
    have : ∀ b, (qSnn "" b).lost = [("zero_output_for_mask", .plain (.bool false))] := by decide +kernel
    exact this lif
  rw [roundTrip_lost _ hs sc sc' kw o hc, hl]
  simp [Rule.eval]

/-- **C85**, built layers: what `build` made of the parallelization factor is written, and building the loaded layer on the same number
of positions keeps it. -/
theorem C85_built (r : PfRule) (n pf : ℤ) : r.resolve n (r.resolve n pf) = r.resolve n pf := by
  cases r <;> simp only [PfRule.resolve] <;> split <;> simp_all

/-- **C85 violated**, another shape: for a layer with automatic factor, built on `n` positions, saved, loaded and built on `m` positions,
the factor is that of the loaded layer's own shape only if `n = m` (for every positive `n`). -/
theorem C85_rebuilt_violated (r : PfRule) (n m : ℤ) (hn : 0 < n) : r.resolve m (r.resolve n (-1)) = r.resolve m (-1) ↔ n = m := by
  have h1 : ¬ n < 0 := by omega
  have h2 : ¬ n ≤ 0 := by omega
  have h3 : ¬ n = -1 := by omega
  cases r <;> simp [PfRule.resolve, h1, h2, h3]

/-- Concrete case: a dense layer with only `units` given, saved in a scope with input quantizers and loaded in one without: it keeps
them. -/
example : let sc : Scope := ⟨true, true, false, true, 1, 2, 3, 4, 5, 6, 7, 8⟩
    let sc' : Scope := ⟨false, false, true, false, 11, 12, 13, 14, 15, 16, 17, 18⟩
    ∃ o, construct qDense sc [("units", .int 5)] = some o ∧ fromConfig qDense sc' (getConfig qDense o) = some o ∧
      o.get "iq_conf" = .obj 2 ∧ o.get "enable_ebops" = .bool true ∧ o.get "oq_conf" = .none := by
  intro sc sc'
  refine ⟨_, rfl, ?_⟩
  decide +kernel

/-- Concrete case of the violations: `QSimpleRNN(4, enable_sq=True)`. -/
example : let sc : Scope := ⟨true, true, false, true, 1, 2, 3, 4, 5, 6, 7, 8⟩
    ∃ o, construct qSimpleRnn sc [("units", .int 4), ("enable_sq", .bool true)] = some o ∧ o.get "sq_conf" = .obj 2 ∧
      o.get "enable_sq" = .bool true ∧ fromConfig qSimpleRnn sc (getConfig qSimpleRnn o) ≠ some o := by
  intro sc
  refine ⟨_, rfl, ?_⟩
  decide +kernel

/-- Unknown and missing arguments are errors. -/
example : let sc : Scope := ⟨true, true, false, true, 1, 2, 3, 4, 5, 6, 7, 8⟩
    construct qDense sc [("units", .int 4), ("unit", .int 4)] = none ∧ construct qDense sc [] = none := by decide +kernel

end HGQ
