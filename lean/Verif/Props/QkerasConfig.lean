import Verif.Model.QkerasConfig
import Verif.Props.Qkeras
import Mathlib.Tactic

/-!
# C118: `quantized_bits` and `quantized_relu` as configuration objects
-/
namespace HGQ

namespace Spec
/-- Parameters of `quantized_relu` as declared, quantized_bits.py L252-267. -/
def reluParams : List String := ["bits", "integer", "alpha", "use_stochastic_rounding", "scale_axis", "qnoise_factor", "var_name", "use_ste", "use_variables",
  "bc", "br", "ic", "ir"]

/-- What the caller gave for a parameter: by name, or at its position. -/
def given (args : List PyV) (kw : List (String × PyV)) (name : String) (pos : ℕ) : Option PyV := (kw.lookup name).or args[pos]?
end Spec

open Spec

theorem numStr (s : String) : (PyV.str s).num? = none := rfl
theorem numFloat (r : ℚ) : (PyV.float r).num? = some r := rfl
theorem truthyBool (b : Bool) : (PyV.bool b).truthy = b := rfl
theorem numInt (z : ℤ) : (PyV.int z).num? = some (z : ℚ) := rfl
theorem toVBool (b : Bool) : (PyVal.bool b).toV = .bool b := rfl
theorem numNone : PyV.none.num? = none := rfl

/-- Facts about every constructed object. -/
theorem qbitsInit_inv {a : List (String × PyV)} {q : QBObj} (h : qbitsInit a = some q) :
    (∃ b, q.b0.num? = some b ∧ 0 < b) ∧ (∀ s, q.scaler = some s → 0 < s) ∧ (q.trainable = true → q.scaler = none ∧ q.useVariables.truthy = true) ∧
    (q.trainable = false → q.axes = []) ∧ (∀ r, q.qnoise = some r → 0 ≤ r ∧ r ≤ 1) := by
  unfold qbitsInit at h
  simp only at h
  split at h
  · rename_i hc
    obtain ⟨h1, h2, h3, h4, h5, h6⟩ := hc
    obtain ⟨ax, hax, h⟩ := Option.bind_eq_some_iff.1 h
    obtain ⟨qn, hqn, rfl⟩ := Option.map_eq_some_iff.1 h
    refine ⟨?_, ?_, ?_, ?_, ?_⟩
    · simp only
      cases hb : (argOf a "bits" (.int 8)).num? with
      | none => rw [hb] at h1; simp at h1
      | some b => rw [hb] at h1; exact ⟨b, rfl, by simpa using h1⟩
    · intro s hs
      simp only at hs
      rw [hs] at h2; simpa using h2
    · intro ht
      simp only at ht ⊢
      refine ⟨?_, h4 ht⟩
      rw [of_decide_eq_true ht]; rfl
    · intro ht
      simp only at ht ⊢
      rw [ht] at hax
      unfold axesOf at hax
      split at hax <;> simp_all
    · intro r hr
      simp only at hr
      subst hr
      unfold qnoiseOf at hqn
      split at hqn
      · simp at hqn
      · split at hqn
        · split at hqn
          · rename_i hc; simp only [Option.some.injEq] at hqn; exact hqn ▸ hc
          · simp at hqn
        · simp at hqn
  · simp at h

theorem argOf_given (args : List PyV) (kw bnd : List (String × PyV)) (h : bindCall qbitsParams args kw = some bnd) (k : String) (n : ℕ) (hn : qbitsParams[n]? = some k) (d : PyV) :
    argOf bnd k d = (given args kw k n).getD d := by
  unfold bindCall at h
  split at h
  · rename_i hc
    simp only [Option.some.injEq] at h
    subst h
    unfold argOf given
    rw [List.lookup_append]
    have hz : ∀ (ps : List String) (as : List PyV) (n : ℕ), ps.Nodup → ps[n]? = some k → (ps.zip as).lookup k = as[n]? := by
      intro ps
      induction ps with
      | nil => intro as n _ h; simp at h
      | cons p ps ih =>
        intro as n hnd h
        cases as with
        | nil => simp
        | cons a as =>
          cases n with
          | zero => simp only [List.getElem?_cons_zero, Option.some.injEq] at h; subst h; simp
          | succ n =>
            simp only [List.getElem?_cons_succ] at h ⊢
            rw [List.zip_cons_cons, List.lookup_cons, show (k == p) = false from ?_]
            · exact ih as n (List.nodup_cons.1 hnd).2 h
            · rw [beq_eq_false_iff_ne]
              rintro rfl
              exact (List.nodup_cons.1 hnd).1 (List.mem_of_getElem? h)
    rw [hz qbitsParams args n (by decide) hn]
    cases hl : kw.lookup k with
    | none => simp
    | some v =>
      have hk : k ∈ kw.map (·.1) := by
        by_contra hc'
        rw [List.lookup_eq_none_iff.2] at hl
        · simp at hl
        · intro p hp
          simp only [bne_iff_ne, ne_eq]
          intro he
          exact hc' (he ▸ List.mem_map_of_mem hp)
      have hdr := hc.2.2 k hk
      have hge : args.length ≤ n := by
        by_contra hlt
        obtain ⟨m, hm⟩ := List.getElem?_of_mem hdr
        rw [List.getElem?_drop] at hm
        have hnd : qbitsParams.Nodup := by decide
        have h1 : n < qbitsParams.length := (List.getElem?_eq_some_iff.1 hn).1
        have := (List.getElem?_inj h1 hnd).1 (hn.trans hm.symm)
        omega
      rw [List.getElem?_eq_none hge]
      simp
  · simp at h

/-- **C118 (arguments).**  The object of a successful call has the arguments given by name or position, or the documented defaults; it is trainable exactly for
`alpha='trainable_po2'`, its widths are constants exactly if it is not trainable and `use_variables` is false or not given. -/
theorem C118_arguments (args : List PyV) (kw : List (String × PyV)) (q : QBObj) (h : qbitsNew args kw = some q) :
    q.b0 = (given args kw "bits" 0).getD (.int 8) ∧ q.i0 = (given args kw "integer" 1).getD (.int 0) ∧
    q.symmetric = ((given args kw "symmetric" 2).getD (.int 0)).truthy ∧ q.k0 = (given args kw "keep_negative" 3).getD (.bool true) ∧
    q.scaler = ((given args kw "alpha" 4).getD .none).num? ∧ (q.trainable = true ↔ given args kw "alpha" 4 = some (.str "trainable_po2")) ∧
    q.stochastic = ((given args kw "use_stochastic_rounding" 5).getD (.bool false)).truthy ∧
    (q.trainable = true → given args kw "scale_axis" 6 = some (.axes q.axes) ∨ (given args kw "scale_axis" 6).getD .none = .none ∧ q.axes = []) ∧
    q.bc = (given args kw "bc" 11).getD bcDefault ∧ q.br = (given args kw "br" 12).getD .none ∧ q.ic = (given args kw "ic" 13).getD icDefault ∧
    q.ir = (given args kw "ir" 14).getD .none ∧ (q.kind = .trainable ↔ q.trainable = true) ∧
    (q.kind = .frozen ↔ q.trainable = false ∧ ((given args kw "use_variables" 10).getD .none).truthy = false) := by
  obtain ⟨bnd, hb, hi⟩ := Option.bind_eq_some_iff.1 h
  have g := fun k n hn d => argOf_given args kw bnd hb k n hn d
  have hinv := (qbitsInit_inv hi).2.2.1
  unfold qbitsInit at hi
  simp only [g "bits" 0 rfl, g "integer" 1 rfl, g "symmetric" 2 rfl, g "keep_negative" 3 rfl, g "alpha" 4 rfl, g "use_stochastic_rounding" 5 rfl, g "scale_axis" 6 rfl,
    g "qnoise_factor" 7 rfl, g "use_variables" 10 rfl, g "bc" 11 rfl, g "br" 12 rfl, g "ic" 13 rfl, g "ir" 14 rfl] at hi
  split at hi
  · rename_i hc
    obtain ⟨ax, hax, hi⟩ := Option.bind_eq_some_iff.1 hi
    obtain ⟨qn, _, rfl⟩ := Option.map_eq_some_iff.1 hi
    have htr : decide ((given args kw "alpha" 4).getD .none = .str "trainable_po2") = true ↔ given args kw "alpha" 4 = some (.str "trainable_po2") := by
      rw [decide_eq_true_eq]
      cases given args kw "alpha" 4 <;> simp
    refine ⟨rfl, rfl, rfl, rfl, rfl, htr, rfl, ?_, rfl, rfl, rfl, rfl, ?_, ?_⟩
    · intro ht
      simp only at ht ⊢
      rw [ht] at hax
      cases hs : given args kw "scale_axis" 6 with
      | none => rw [hs] at hax; simp [axesOf] at hax; exact Or.inr ⟨rfl, hax⟩
      | some v =>
        rw [hs] at hax
        cases v <;> simp [axesOf] at hax
        · exact Or.inr ⟨rfl, hax⟩
        · exact Or.inl (by rw [hax])
    · unfold QBObj.kind
      simp only at hinv ⊢
      split
      · rename_i hu
        constructor
        · intro hc; simp at hc
        · intro ht; exact absurd (hinv ht).2 hu
      · split
        · rename_i ht; simpa using ht
        · rename_i ht; simpa using ht
    · unfold QBObj.kind
      simp only at hinv ⊢
      have huv : decide ((given args kw "alpha" 4).getD .none = .str "trainable_po2") = false →
          (uvOf ((given args kw "use_variables" 10).getD .none) (decide ((given args kw "alpha" 4).getD .none = .str "trainable_po2"))).truthy =
          ((given args kw "use_variables" 10).getD .none).truthy := by
        intro ht
        rw [ht]
        unfold uvOf
        split
        · rename_i he; rw [he]; rfl
        · rfl
      cases ht : decide ((given args kw "alpha" 4).getD .none = .str "trainable_po2") with
      | true =>
        rw [ht] at hinv
        simp [(hinv rfl).2]
      | false =>
        rw [ht] at huv
        rw [huv rfl]
        cases ((given args kw "use_variables" 10).getD .none).truthy <;> simp
  · simp at hi

/-- **C118 (accepted calls), exactly.**  A call that binds is accepted exactly if `bits` is a positive number, `alpha` is no number below or equal to zero and no
other string than `'trainable_po2'`, with which `use_variables` is not given or true and `scale_axis` is a sequence or not given, `var_name` is None, `use_ste` is
true, and the noise factor is None or between 0 and 1. -/
theorem C118_accepts (args : List PyV) (kw bnd : List (String × PyV)) (hb : bindCall qbitsParams args kw = some bnd) :
    (qbitsNew args kw).isSome ↔
      (∃ b, ((given args kw "bits" 0).getD (.int 8)).num? = some b ∧ 0 < b) ∧
      (∀ x, ((given args kw "alpha" 4).getD .none).num? = some x → 0 < x) ∧
      (∀ s, (given args kw "alpha" 4).getD .none = .str s → s = "trainable_po2" ∧
        ((given args kw "use_variables" 10).getD .none = .none ∨ ((given args kw "use_variables" 10).getD .none).truthy = true) ∧
        ((given args kw "scale_axis" 6).getD .none = .none ∨ ∃ l, (given args kw "scale_axis" 6).getD .none = .axes l)) ∧
      (given args kw "var_name" 8).getD .none = .none ∧ ((given args kw "use_ste" 9).getD (.bool true)).truthy = true ∧
      ((given args kw "qnoise_factor" 7).getD .none = .none ∨ ∃ r, ((given args kw "qnoise_factor" 7).getD .none).num? = some r ∧ 0 ≤ r ∧ r ≤ 1) := by
  have g := fun k n hn d => argOf_given args kw bnd hb k n hn d
  unfold qbitsNew
  rw [hb]
  simp only [Option.bind_some]
  unfold qbitsInit
  simp only [g "bits" 0 rfl, g "integer" 1 rfl, g "symmetric" 2 rfl, g "keep_negative" 3 rfl, g "alpha" 4 rfl, g "use_stochastic_rounding" 5 rfl, g "scale_axis" 6 rfl,
    g "qnoise_factor" 7 rfl, g "var_name" 8 rfl, g "use_ste" 9 rfl, g "use_variables" 10 rfl, g "bc" 11 rfl, g "br" 12 rfl, g "ic" 13 rfl, g "ir" 14 rfl]
  generalize (given args kw "bits" 0).getD (.int 8) = vb
  generalize (given args kw "alpha" 4).getD .none = va
  generalize (given args kw "use_variables" 10).getD .none = vu
  generalize (given args kw "scale_axis" 6).getD .none = vs
  generalize (given args kw "qnoise_factor" 7).getD .none = vq
  have hq : (qnoiseOf vq).isSome ↔ (vq = .none ∨ ∃ r, vq.num? = some r ∧ 0 ≤ r ∧ r ≤ 1) := by
    unfold qnoiseOf
    by_cases hn : vq = .none
    · simp [hn]
    · rw [if_neg hn]
      cases vq.num? with
      | none => simp [hn]
      | some r => simp only [Option.some.injEq, exists_eq_left', hn, false_or]; split <;> simp_all
  have hbits : vb.num?.any (fun b => decide (0 < b)) = true ↔ ∃ b, vb.num? = some b ∧ 0 < b := by cases vb.num? <;> simp
  have hal : va.num?.all (fun b => decide (0 < b)) = true ↔ ∀ x, va.num? = some x → 0 < x := by cases va.num? <;> simp
  have huv : (uvOf vu true).truthy = true ↔ (vu = .none ∨ vu.truthy = true) := by
    unfold uvOf
    split
    · rename_i h; simp [h, truthyBool]
    · rename_i h; simp [h]
  have hax : (axesOf vs true).isSome ↔ (vs = .none ∨ ∃ l, vs = .axes l) := by cases vs <;> simp [axesOf]
  have hax' : (axesOf vs false).isSome := by cases vs <;> simp [axesOf]
  rw [← hbits, ← hal, ← hq]
  by_cases ht : va = .str "trainable_po2"
  · subst ht
    have e : (∀ s, PyV.str "trainable_po2" = PyV.str s → s = "trainable_po2" ∧ (vu = .none ∨ vu.truthy = true) ∧ (vs = .none ∨ ∃ l, vs = .axes l)) ↔
        (uvOf vu true).truthy = true ∧ (axesOf vs true).isSome = true := by
      rw [huv, hax]
      constructor
      · intro h; exact (h _ rfl).2
      · intro h s hs; simp only [PyV.str.injEq] at hs; exact ⟨hs.symm, h⟩
    rw [e]
    simp only [decide_true, forall_const]
    split
    · rename_i hc
      obtain ⟨h1, h2, _, h4, h5, h6⟩ := hc
      simp only [h1, h2, h4, h5, h6, true_and]
      cases axesOf vs true <;> cases qnoiseOf vq <;> simp
    · rename_i hc
      simp only [Option.isSome_none, Bool.false_eq_true, false_iff]
      rintro ⟨a1, a2, ⟨a3, a4⟩, a5, a6, a7⟩
      exact hc ⟨a1, a2, fun _ => trivial, a3, a5, a6⟩
  · simp only [ht, decide_false, Bool.false_eq_true, imp_false, false_imp_iff, true_and]
    have hstr : (¬ va.isStr = true) ↔ ∀ s, va = .str s → False := by cases va <;> simp [PyV.isStr]
    obtain ⟨ax, hax''⟩ := Option.isSome_iff_exists.1 hax'
    rw [hax'']
    simp only [Option.bind_some]
    split
    · rename_i hc
      obtain ⟨h1, h2, h3, h5, h6⟩ := hc
      rw [Option.isSome_map]
      constructor
      · intro hx
        exact ⟨h1, h2, fun s hs => absurd hs (by intro hs; exact (hstr.1 h3) s hs), h5, h6, hx⟩
      · intro hx; exact hx.2.2.2.2.2
    · rename_i hc
      simp only [Option.isSome_none, Bool.false_eq_true, false_iff]
      rintro ⟨a1, a2, a3, a4, a5, a6⟩
      exact hc ⟨a1, a2, hstr.2 fun s hs => ht (by rw [hs, (a3 s hs).1]), a4, a5⟩

/-- **C118 (config).**  A config exists exactly if both widths are ints, and the object made from it is the same one except that `keep_negative` is now a bool
and `use_variables` says whether the object is trainable. -/
theorem C118_config_partial (args : List PyV) (kw : List (String × PyV)) (q : QBObj) (h : qbitsNew args kw = some q) :
    (q.getConfig.isSome ↔ q.b0.isInt = true ∧ q.i0.isInt = true) ∧
    ∀ c, q.getConfig = some c → qbitsFromConfig c = some { q with useVariables := .bool q.trainable, k0 := .bool q.k0.truthy } := by
  obtain ⟨bnd, _, hi⟩ := Option.bind_eq_some_iff.1 h
  obtain ⟨⟨b, hb, hb0⟩, hs, ht, hax, hq⟩ := qbitsInit_inv hi
  refine ⟨by unfold QBObj.getConfig; split <;> simp_all, fun c hc => ?_⟩
  unfold QBObj.getConfig at hc
  split at hc
  · simp only [Option.some.injEq] at hc
    subst hc
    unfold qbitsFromConfig qbitsNew bindCall
    rw [if_pos ⟨by decide, by simp only [List.map_cons, List.map_nil]; decide, by simp only [List.map_cons, List.map_nil]; decide⟩]
    obtain ⟨tr, uv, k0, b0, i0, sym, sto, bc, br, ic, ir, axes, sc, qn⟩ := q
    simp only at hb hs ht hax hq
    simp only [Option.bind_some, List.length_nil, List.zip_nil_right, List.nil_append, qbitsInit]
    simp only [argOf, List.lookup_cons, List.lookup_nil, String.reduceBEq, Option.getD_some]
    cases tr with
    | true =>
      obtain ⟨rfl, _⟩ := ht rfl
      cases qn with
      | none => simp [hb, hb0, uvOf, axesOf, qnoiseOf, numStr, numFloat, numNone, PyV.truthy, PyV.isStr]
      | some r => simp [hb, hb0, uvOf, axesOf, qnoiseOf, numStr, numFloat, numNone, PyV.truthy, PyV.isStr, hq r rfl]
    | false =>
      obtain rfl := hax rfl
      cases sc with
      | none => cases qn with
        | none => simp [hb, hb0, uvOf, axesOf, qnoiseOf, numStr, numFloat, numNone, PyV.truthy, PyV.isStr]
        | some r => simp [hb, hb0, uvOf, axesOf, qnoiseOf, numStr, numFloat, numNone, PyV.truthy, PyV.isStr, hq r rfl]
      | some s => cases qn with
        | none => simp [hb, hb0, uvOf, axesOf, qnoiseOf, numStr, numFloat, numNone, PyV.truthy, PyV.isStr, hs s rfl]
        | some r => simp [hb, hb0, uvOf, axesOf, qnoiseOf, numStr, numFloat, numNone, PyV.truthy, PyV.isStr, hq r rfl, hs s rfl]
  · simp at hc

/-- **C118 (kind of quantizer), exactly.**  The reloaded object makes the same kind of quantizer unless a fixed `alpha` was combined with `use_variables=True`. -/
theorem C118_kind_iff (args : List PyV) (kw : List (String × PyV)) (q q' : QBObj) (h : qbitsNew args kw = some q) (c : List (String × PyV))
    (hc : q.getConfig = some c) (hq : qbitsFromConfig c = some q') : q'.kind = q.kind ↔ ¬ (q.useVariables.truthy = true ∧ q.trainable = false) := by
  rw [(C118_config_partial args kw q h).2 c hc] at hq
  simp only [Option.some.injEq] at hq
  subst hq
  obtain ⟨bnd, _, hi⟩ := Option.bind_eq_some_iff.1 h
  have ht := (qbitsInit_inv hi).2.2.1
  unfold QBObj.kind
  simp only [truthyBool]
  cases htr : q.trainable with
  | true => simp [(ht htr).2]
  | false => cases huv : q.useVariables.truthy <;> simp

/-- **C118 violated:** `quantized_bits(b, i, use_variables=True)` stores its widths in variables; after a round trip they are constants. -/
theorem C118_use_variables_violated (b : ℕ) (hb : 0 < b) (i : ℤ) :
    ∃ q c q', qbitsNew [.int b, .int i] [("use_variables", .bool true)] = some q ∧ q.getConfig = some c ∧ qbitsFromConfig c = some q' ∧
      q.kind = .variables ∧ q'.kind = .frozen := by
  have hq : qbitsNew [.int b, .int i] [("use_variables", .bool true)] =
      some ⟨false, .bool true, .bool true, .int b, .int i, false, false, bcDefault, .none, icDefault, .none, [], none, none⟩ := by
    unfold qbitsNew bindCall
    rw [if_pos (by refine ⟨by simp [qbitsParams], by simp, by simp [qbitsParams]⟩)]
    simp [qbitsInit, uvOf, axesOf, qnoiseOf, qbitsParams, argOf, List.lookup_cons, PyV.num?, PyV.truthy, PyV.isStr, hb]
  refine ⟨_, _, _, hq, rfl, (C118_config_partial _ _ _ hq).2 _ rfl, ?_, ?_⟩ <;> rfl

/-! ## `quantized_relu` -/

theorem bindCall_iff {V : Type} (params : List String) (args : List V) (kw bnd : List (String × V)) :
    bindCall params args kw = some bnd ↔ (args.length ≤ params.length ∧ (kw.map (·.1)).Nodup ∧ ∀ k ∈ kw.map (·.1), k ∈ params.drop args.length) ∧
      params.zip args ++ kw = bnd := by
  unfold bindCall
  split
  · rename_i h; rw [Option.some.injEq]; exact ⟨fun e => ⟨h, e⟩, fun e => e.2⟩
  · rename_i h; exact ⟨fun e => by simp at e, fun e => absurd e.1 h⟩

/-- **C118 (quantized_relu).**  With at most two positional arguments, a call that fits the declared signature is `quantized_bits` with these arguments by name
and `keep_negative=False`. -/
theorem C118_relu_partial (args : List PyV) (kw bnd : List (String × PyV)) (hl : args.length ≤ 2) (hb : bindCall reluParams args kw = some bnd) :
    qreluNew args kw = qbitsNew [] (bnd ++ [("keep_negative", .bool false)]) := by
  obtain ⟨⟨h1, h2, h3⟩, rfl⟩ := (bindCall_iff _ _ _ _).1 hb
  have key : ∀ (pos : List PyV), pos.length ≤ 2 → (∀ k ∈ kw.map (·.1), k ∈ reluParams.drop pos.length) → 
      reluParams.zip pos = qbitsParams.zip pos ∧ (∀ k ∈ kw.map (·.1), k ∈ qbitsParams.drop pos.length ∧ k ≠ "keep_negative" ∧ k ∉ (qbitsParams.zip pos).map (·.1)) ∧
      ((qbitsParams.zip pos).map (·.1)).Nodup ∧ (∀ k ∈ (qbitsParams.zip pos).map (·.1), k ∈ qbitsParams ∧ k ≠ "keep_negative") := by
    intro pos hp hk
    have hsub : ∀ n ≤ 2, ∀ k ∈ reluParams.drop n, k ∈ qbitsParams.drop n ∧ k ≠ "keep_negative" ∧ k ∉ qbitsParams.take n := by decide +kernel
    match pos, hp with
    | [], _ => exact ⟨by simp, fun k hk' => by have := hsub 0 (by omega) k (hk k hk'); simpa using this, by simp, by simp⟩
    | [x], _ => exact ⟨by simp [reluParams, qbitsParams], fun k hk' => by have := hsub 1 (by omega) k (hk k hk'); simpa [qbitsParams] using this, by simp [qbitsParams], by simp [qbitsParams]⟩
    | [x, y], _ => exact ⟨by simp [reluParams, qbitsParams], fun k hk' => by have := hsub 2 (by omega) k (hk k hk'); simpa [qbitsParams] using this, by simp [qbitsParams], by simp [qbitsParams]⟩
  obtain ⟨k1, k2, k3, k4⟩ := key args hl h3
  unfold qreluNew qbitsNew
  have e1 : bindCall qbitsParams args (kw ++ [("keep_negative", .bool false)]) = some (qbitsParams.zip args ++ (kw ++ [("keep_negative", .bool false)])) := by
    rw [bindCall_iff]
    refine ⟨⟨hl.trans (by decide), ?_, ?_⟩, rfl⟩
    · rw [List.map_append, List.nodup_append]
      refine ⟨h2, by simp, ?_⟩
      intro a ha b hb he
      simp only [List.map_cons, List.map_nil, List.mem_singleton] at hb
      exact (k2 a ha).2.1 (he.trans hb)
    · intro k hk
      rw [List.map_append, List.mem_append] at hk
      rcases hk with hk | hk
      · exact (k2 k hk).1
      · simp only [List.map_cons, List.map_nil, List.mem_singleton] at hk
        subst hk
        have : ∀ n ≤ 2, "keep_negative" ∈ qbitsParams.drop n := by decide +kernel
        exact this _ hl
  have e2 : bindCall qbitsParams [] ((reluParams.zip args ++ kw) ++ [("keep_negative", .bool false)]) = some (qbitsParams.zip args ++ (kw ++ [("keep_negative", .bool false)])) := by
    rw [bindCall_iff, k1]
    refine ⟨⟨by simp, ?_, ?_⟩, by simp⟩
    · rw [List.map_append, List.map_append, List.nodup_append, List.nodup_append]
      refine ⟨⟨k3, h2, fun a ha b hb he => (k2 b hb).2.2 (he ▸ ha)⟩, by simp, ?_⟩
      intro a ha b hb he
      simp only [List.map_cons, List.map_nil, List.mem_singleton] at hb
      rcases List.mem_append.1 ha with ha | ha
      · exact (k4 a ha).2 (he.trans hb)
      · exact (k2 a ha).2.1 (he.trans hb)
    · intro k hk
      simp only [List.length_nil, List.drop_zero]
      rw [List.map_append, List.map_append, List.mem_append, List.mem_append] at hk
      rcases hk with (hk | hk) | hk
      · exact (k4 k hk).1
      · exact List.drop_subset _ _ (k2 k hk).1
      · simp only [List.map_cons, List.map_nil, List.mem_singleton] at hk
        subst hk; decide
  rw [e1, e2]

theorem lookup_last {V : Type} (l : List (String × V)) (k : String) (v : V) (h : k ∉ l.map (·.1)) : (l ++ [(k, v)]).lookup k = some v := by
  induction l with
  | nil => simp
  | cons p l ih =>
    simp only [List.map_cons, List.mem_cons, not_or] at h
    obtain ⟨a, w⟩ := p
    simp only [List.cons_append, List.lookup_cons]
    rw [show (k == a) = false from by simpa using h.1]
    exact ih h.2

theorem lookup_none {V : Type} (l : List (String × V)) (k : String) (h : k ∉ l.map (·.1)) : l.lookup k = none := by
  rw [List.lookup_eq_none_iff]
  intro p hp
  simp only [beq_eq_false_iff_ne, ne_eq, bne_iff_ne]
  intro he
  exact h (he ▸ List.mem_map_of_mem hp)

/-- **C118 (quantized_relu never keeps negative values).**  Whatever the arguments. -/
theorem C118_relu_unsigned (args : List PyV) (kw : List (String × PyV)) (q : QBObj) (h : qreluNew args kw = some q) : q.k0 = .bool false := by
  obtain ⟨bnd, hb, hi⟩ := Option.bind_eq_some_iff.1 h
  obtain ⟨⟨h1, h2, h3⟩, rfl⟩ := (bindCall_iff _ _ _ _).1 hb
  have hd := h3 "keep_negative" (by simp)
  have hl : args.length ≤ 3 := by
    by_contra hc
    have h4 : qbitsParams.drop args.length <:+ qbitsParams.drop 4 := List.drop_suffix_drop_left qbitsParams (by omega)
    have := h4.subset hd
    revert this; decide
  have hk : "keep_negative" ∉ (qbitsParams.zip args ++ kw).map (·.1) := by
    rw [List.map_append, List.mem_append, not_or]
    constructor
    · match args, hl with
      | [], _ => simp
      | [_], _ => simp [qbitsParams]
      | [_, _], _ => simp [qbitsParams]
      | [_, _, _], _ => simp [qbitsParams]
    · rw [List.map_append, List.nodup_append] at h2
      intro hc
      exact h2.2.2 _ hc _ (by simp) rfl
  unfold qbitsInit at hi
  simp only at hi
  split at hi
  · obtain ⟨ax, _, hi⟩ := Option.bind_eq_some_iff.1 hi
    obtain ⟨qn, _, rfl⟩ := Option.map_eq_some_iff.1 hi
    simp only [argOf]
    rw [← List.append_assoc, lookup_last _ _ _ hk]
    rfl
  · simp at hi

/-- **C118 violated:** an `alpha` given as third positional argument, as the signature of `quantized_relu` says, is taken as `symmetric`: for every `alpha`,
`'trainable_po2'` included, the object has no scaler and is not trainable. -/
theorem C118_relu_alpha_violated (b i alpha : PyV) (kw bnd : List (String × PyV)) (hb : bindCall reluParams [b, i, alpha] kw = some bnd) (q : QBObj)
    (h : qreluNew [b, i, alpha] kw = some q) : bnd.lookup "alpha" = some alpha ∧ q.scaler = none ∧ q.trainable = false := by
  obtain ⟨⟨_, _, h3⟩, rfl⟩ := (bindCall_iff _ _ _ _).1 hb
  have hk : "alpha" ∉ kw.map (·.1) := fun hc => by have := h3 _ hc; revert this; simp [reluParams]
  obtain ⟨bnd', hb', hi⟩ := Option.bind_eq_some_iff.1 h
  obtain ⟨_, rfl⟩ := (bindCall_iff _ _ _ _).1 hb'
  have hl : argOf (qbitsParams.zip [b, i, alpha] ++ (kw ++ [("keep_negative", .bool false)])) "alpha" .none = .none := by
    unfold argOf
    rw [lookup_none _ _ (by simp only [List.map_append, List.mem_append, not_or]; exact ⟨by simp [qbitsParams], hk, by simp⟩)]
    rfl
  refine ⟨by simp [reluParams, List.lookup_cons], ?_⟩
  unfold qbitsInit at hi
  simp only [hl] at hi
  split at hi
  · obtain ⟨ax, _, hi⟩ := Option.bind_eq_some_iff.1 hi
    obtain ⟨qn, _, rfl⟩ := Option.map_eq_some_iff.1 hi
    exact ⟨rfl, rfl⟩
  · simp at hi

/-- **C118 violated:** four or more positional arguments always raise. -/
theorem C118_relu_four_violated (a b c d : PyV) (r : List PyV) (kw : List (String × PyV)) : qreluNew (a :: b :: c :: d :: r) kw = none := by
  unfold qreluNew qbitsNew
  cases hb : bindCall qbitsParams (a :: b :: c :: d :: r) (kw ++ [("keep_negative", .bool false)]) with
  | none => rfl
  | some bnd =>
    obtain ⟨⟨_, _, h3⟩, _⟩ := (bindCall_iff _ _ _ _).1 hb
    have := h3 "keep_negative" (by simp)
    exfalso
    simp only [List.length_cons] at this
    have h4 : qbitsParams.drop (r.length + 1 + 1 + 1 + 1) <:+ qbitsParams.drop 4 := List.drop_suffix_drop_left qbitsParams (by omega)
    have := h4.subset this
    revert this; decide

/-- The calls of the theorems exist. -/
example : (qreluNew [.int 6, .int 2] []).isSome ∧ (qreluNew [.int 6, .int 2, .float (1 / 2)] []).isSome ∧
    (qreluNew [.int 6] [("alpha", .str "trainable_po2")]).map QBObj.kind = some .trainable := by decide +kernel

/-! ## Text -/

/-- **C118 violated:** every text `quantized_relu(...)` is rejected. -/
theorem C118_relu_string_violated (pf : List Char → Option ℚ) (rest : List Char) : getQuantizerStr pf ("quantized_relu(".toList ++ rest) = none := by
  unfold getQuantizerStr qbitsFromString
  have h : ¬ "quantized_bits(".toList <+: "quantized_relu(".toList ++ rest := by
    rintro ⟨t, ht⟩
    have := congrArg (List.take 15) ht
    rw [List.take_append_of_le_length (by decide), List.take_append_of_le_length (by decide)] at this
    revert this; decide
  simp only [h, false_and, if_false, ite_self]

/-- Parsing of the text, for any text of the two widths. -/
theorem parse_text (pf : List Char → Option ℚ) (sb si : List Char) (vb vi : PyVal) (sym kn st : Bool) (alpha : List Char) (pv : PyVal)
    (hb : ',' ∉ sb ∧ '=' ∉ sb ∧ ' ' ∉ sb ∧ sb ≠ []) (hvb : parseVal pf sb = some vb)
    (hi : ',' ∉ si ∧ '=' ∉ si ∧ ' ' ∉ si ∧ si ≠ []) (hvi : parseVal pf si = some vi)
    (ha : ',' ∉ alpha ∧ '=' ∉ alpha ∧ ' ' ∉ alpha ∧ alpha ≠ []) (hpv : parseVal pf alpha = some pv) :
    parseArgs pf (sb ++ ", ".toList ++ si ++ ", symmetric=".toList ++ showBool sym ++
      ", keep_negative=".toList ++ showBool kn ++ ", alpha=".toList ++ alpha ++ ", use_stochastic_rounding=".toList ++ showBool st) =
    some ([vb, vi], [("symmetric".toList, .bool sym), ("keep_negative".toList, .bool kn), ("alpha".toList, pv),
      ("use_stochastic_rounding".toList, .bool st)]) := by
  obtain ⟨a1, a2, a3, a4⟩ := ha
  have e : sb ++ ", ".toList ++ si ++ ", symmetric=".toList ++ showBool sym ++
    ", keep_negative=".toList ++ showBool kn ++ ", alpha=".toList ++ alpha ++ ", use_stochastic_rounding=".toList ++ showBool st =
    sb ++ ',' :: ((' ' :: si) ++ ',' :: ((' ' :: "symmetric".toList ++ '=' :: showBool sym) ++
      ',' :: ((' ' :: "keep_negative".toList ++ '=' :: showBool kn) ++ ',' :: ((' ' :: "alpha".toList ++ '=' :: alpha) ++
      ',' :: (' ' :: "use_stochastic_rounding".toList ++ '=' :: showBool st))))) := by
    simp
  unfold parseArgs
  rw [e, splitChar_append _ _ _ hb.1, splitChar_append _ _ _ (by simp [hi.1]),
    splitChar_append _ _ _ (by simp [(showBool_chars sym).2.1]), splitChar_append _ _ _ (by simp [(showBool_chars kn).2.1]),
    splitChar_append _ _ _ (by simp [a1]), splitChar_single _ _ (by simp [(showBool_chars st).2.1])]
  have s6 := parseChunks_kw pf true "use_stochastic_rounding".toList (showBool st) [] (.bool st) [] [] (by decide) (by decide)
    (by decide) (showBool_chars st).1 (showBool_chars st).2.2.1 (showBool_chars st).2.2.2 (parseVal_bool pf st) rfl
  have s5 := parseChunks_kw pf true "alpha".toList alpha _ pv _ _ (by decide) (by decide) (by decide) a3 a2 a4 hpv s6
  have s4 := parseChunks_kw pf true "keep_negative".toList (showBool kn) _ (.bool kn) _ _ (by decide) (by decide) (by decide)
    (showBool_chars kn).1 (showBool_chars kn).2.2.1 (showBool_chars kn).2.2.2 (parseVal_bool pf kn) s5
  have s3 := parseChunks_kw pf false "symmetric".toList (showBool sym) _ (.bool sym) _ _ (by decide) (by decide) (by decide)
    (showBool_chars sym).1 (showBool_chars sym).2.2.1 (showBool_chars sym).2.2.2 (parseVal_bool pf sym) s4
  have s2 := (parseChunks_pos pf si _ vi _ _ hi.2.2.1 hi.2.1 hi.2.2.2 hvi s3).2
  exact (parseChunks_pos pf sb _ vb _ _ hb.2.2.1 hb.2.1 hb.2.2.2 hvb s2).1

/-- What the reader makes of the text of an integer: the integer if it is not negative, a float otherwise. -/
def readInt (z : ℤ) : PyV := if 0 ≤ z then .int z else .float z

theorem showInt_read (pf : List Char → Option ℚ) (hpf : ∀ n : ℕ, pf ('-' :: Nat.toDigits 10 n) = some (-(n : ℚ))) (z : ℤ) :
    ∃ v, parseVal pf (showInt z) = some v ∧ v.toV = readInt z ∧ ',' ∉ showInt z ∧ '=' ∉ showInt z ∧ ' ' ∉ showInt z ∧ showInt z ≠ [] := by
  have hd : ∀ (c : Char), c.isDigit = false → ∀ n, c ∉ Nat.toDigits 10 n := fun c hc n => digit_notmem hc n
  unfold showInt readInt
  by_cases h : z < 0
  · rw [if_pos h, if_neg (by omega)]
    refine ⟨.float z, ?_, rfl, ?_, ?_, ?_, by simp⟩
    · refine parseVal_float pf _ _ ⟨?_, ?_, ?_, by simp, by simp, by simp, by simp, by simp, by simp, by simp, ?_⟩
      · simp [hd ',' (by decide)]
      · simp [hd '=' (by decide)]
      · simp [hd ' ' (by decide)]
      · rw [hpf, ← Int.cast_natCast, Int.natCast_natAbs, abs_of_neg h]; simp
    · simp [hd ',' (by decide)]
    · simp [hd '=' (by decide)]
    · simp [hd ' ' (by decide)]
  · rw [if_neg h, if_pos (by omega)]
    refine ⟨.int z.natAbs, parseVal_digits pf _, ?_, hd ',' (by decide) _, hd '=' (by decide) _, hd ' ' (by decide) _, toDigits_ne_nil _⟩
    simp only [PyVal.toV, Int.natCast_natAbs, abs_of_nonneg (not_lt.1 h)]

/-- **C118 (text).**  For every positive width, every integer width and every fixed `alpha`, the object read from the text of a `quantized_bits` has the widths, the
flags and the scaler of the original (1 if it has none); everything the text does not mention has its default.  A negative integer width comes back as a float. -/
theorem C118_text_partial (pf : List Char → Option ℚ) (showFloat : ℚ → List Char) (hpf : ∀ n : ℕ, pf ('-' :: Nat.toDigits 10 n) = some (-(n : ℚ)))
    (b i : ℤ) (kn : Bool) (args : List PyV) (kw : List (String × PyV)) (q : QBObj) (h : qbitsNew args kw = some q) (hb : q.b0 = .int b)
    (hi0 : q.i0 = .int i) (hk0 : q.k0 = .bool kn) (ht : q.trainable = false) (hf : ∀ s, q.scaler = some s → FloatText pf s (showFloat s)) :
    getQuantizerStr pf (q.str showFloat) =
      some ⟨false, .bool false, .bool kn, .int b, readInt i, q.symmetric, q.stochastic, bcDefault, .none, icDefault, .none, [], some (q.scaler.getD 1), none⟩ := by
  obtain ⟨bnd, _, hi⟩ := Option.bind_eq_some_iff.1 h
  obtain ⟨⟨b', hb', hb0⟩, hs, _, _, _⟩ := qbitsInit_inv hi
  rw [hb] at hb'
  simp only [PyV.num?, Option.some.injEq] at hb'
  subst hb'
  have hbp : 0 < b := by exact_mod_cast hb0
  obtain ⟨vb, b1, b2, b3⟩ := showInt_read pf hpf b
  obtain ⟨vi, i1, i2, i3⟩ := showInt_read pf hpf i
  rw [readInt, if_pos hbp.le] at b2
  obtain ⟨alpha, pv, hal, hac, hav, hnum, hns⟩ : ∃ (alpha : List Char) (pv : PyVal), (match q.scaler with
      | some a => showFloat a
      | none => if q.trainable then "trainable_po2".toList else "1".toList) = alpha ∧ (',' ∉ alpha ∧ '=' ∉ alpha ∧ ' ' ∉ alpha ∧ alpha ≠ []) ∧
      parseVal pf alpha = some pv ∧ pv.toV.num? = some (q.scaler.getD 1) ∧ pv.toV.isStr = false := by
    cases hsc : q.scaler with
    | none => exact ⟨"1".toList, .int 1, by simp [ht], by decide, parseVal_digits pf 1, by simp [PyVal.toV, PyV.num?], rfl⟩
    | some s =>
      have := hf s hsc
      exact ⟨showFloat s, .float s, rfl, ⟨this.1, this.2.1, this.2.2.1, this.2.2.2.1⟩, parseVal_float pf s _ this, rfl, rfl⟩
  have hpos : 0 < q.scaler.getD 1 := by
    cases hsc : q.scaler with
    | none => simp
    | some s => exact hs s hsc
  have hparse := parse_text pf (showInt b) (showInt i) vb vi q.symmetric kn q.stochastic alpha pv b3 b1 i3 i1 hac hav
  set text := showInt b ++ ", ".toList ++ showInt i ++ ", symmetric=".toList ++ showBool q.symmetric ++
      ", keep_negative=".toList ++ showBool kn ++ ", alpha=".toList ++ alpha ++ ", use_stochastic_rounding=".toList ++ showBool q.stochastic with htext
  have hstr : q.str showFloat = "quantized_bits(".toList ++ text ++ [')'] := by
    unfold QBObj.str showQBits
    simp only [hb, hi0, hk0, PyV.asInt, truthyBool, htext, ← hal]
    rfl
  rw [hstr]
  unfold getQuantizerStr qbitsFromString
  have hname : ("quantized_bits(".toList ++ text ++ [')']).takeWhile (· ≠ '(') = "quantized_bits".toList := by
    rw [List.append_assoc, show "quantized_bits(".toList = "quantized_bits".toList ++ ['('] from by decide, List.append_assoc,
      List.takeWhile_append_of_pos (by decide)]
    simp
  have hdrop : (((("quantized_bits(".toList ++ text ++ [')']).dropWhile (· ≠ '(')).drop 1).dropLast) = text := by
    rw [List.append_assoc, show "quantized_bits(".toList = "quantized_bits".toList ++ ['('] from by decide, List.append_assoc,
      List.dropWhile_append_of_pos (by decide)]
    simp
  rw [hname]
  simp only [true_or, if_true]
  rw [if_pos ⟨⟨text ++ [')'], by simp⟩, ⟨"quantized_bits(".toList ++ text, by simp⟩⟩, hdrop, hparse]
  simp only [Option.bind_some, List.map_cons, List.map_nil, b2, i2]
  have hnt : pv.toV ≠ .str "trainable_po2" := by intro hc; rw [hc] at hns; simp [PyV.isStr] at hns
  unfold qbitsNew bindCall
  rw [if_pos (by refine ⟨by simp [qbitsParams], by simp, by simp [qbitsParams]⟩)]
  simp [qbitsInit, uvOf, axesOf, qnoiseOf, qbitsParams, argOf, List.lookup_cons, hnum, hpos, hns, hnt, numInt, hbp, toVBool, truthyBool]

/-- **C118 violated:** a `quantized_bits` with a negative integer width read back from its own text has no config: saving a model with it raises. -/
theorem C118_negative_violated (pf : List Char → Option ℚ) (showFloat : ℚ → List Char) (hpf : ∀ n : ℕ, pf ('-' :: Nat.toDigits 10 n) = some (-(n : ℚ)))
    (b : ℕ) (hb : 0 < b) (n : ℕ) :
    ∃ q q', qbitsNew [.int b, .int (-(n + 1))] [] = some q ∧ q.getConfig.isSome ∧ getQuantizerStr pf (q.str showFloat) = some q' ∧ q'.getConfig = none := by
  have hq : qbitsNew [.int b, .int (-(n + 1))] [] =
      some ⟨false, .bool false, .bool true, .int b, .int (-(n + 1)), false, false, bcDefault, .none, icDefault, .none, [], none, none⟩ := by
    unfold qbitsNew bindCall
    rw [if_pos (by refine ⟨by simp [qbitsParams], by simp, by simp [qbitsParams]⟩)]
    simp [qbitsInit, uvOf, axesOf, qnoiseOf, qbitsParams, argOf, List.lookup_cons, PyV.num?, PyV.truthy, PyV.isStr, hb]
  refine ⟨_, _, hq, rfl, C118_text_partial pf showFloat hpf b (-(n + 1)) true _ _ _ hq rfl rfl rfl rfl (by simp), ?_⟩
  unfold QBObj.getConfig
  rw [if_neg]
  simp only [readInt]
  rw [if_neg (by omega)]
  simp [PyV.isInt]

end HGQ
