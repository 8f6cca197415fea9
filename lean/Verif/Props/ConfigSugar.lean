import Verif.Props.Config

/-! # C20 for the sugar classes `HardTanhConfig` and `HardSigmoidConfig` -/
namespace HGQ
open Spec

/-- Facts shared by both sugar constructors: the four fixed entries are present and distinct from the user's. -/
theorem hard_base {dq : Place → QArg} {defs : Key → Dict} (hd : WFDefs defs) {a : CfgArgs} {p : Place} {t : QT}
    (hs : Selects dq a p (.ty t)) (hn : Distinct a.kw) (aff : Option (ℚ × ℚ)) (v1 v2 v3 v4 : Val)
    (hno : ∀ k ∈ (a.kw.filter (fun p => p.1 ≠ "i0")).map Prod.fst, k ≠ "k0" ∧ k ≠ "ic" ∧ k ≠ "overflow_mode")
    {c : CfgObj}
    (hc : mkConfig dq defs { a with
      kw := [("k0", v1), ("ic", v2), ("i0", v3), ("overflow_mode", v4)] ++ a.kw.filter (fun p => p.1 ≠ "i0")
      affine := aff } = .ok c) :
    c.ty = some t ∧ "k0" ∈ keysOf t ∧ (∀ k, (c.conf k).isSome ↔ k ∈ keysOf t) ∧
    c.affine = aff ∧ OptsOk { getConfig c with affine := aff } ∧
    c.conf "k0" = some v1 ∧ c.conf "ic" = some v2 ∧ c.conf "i0" = some v3 ∧ c.conf "overflow_mode" = some v4 := by
  set kw : Kw := [("k0", v1), ("ic", v2), ("i0", v3), ("overflow_mode", v4)] ++ a.kw.filter (fun p => p.1 ≠ "i0") with hkw
  have hnod : Distinct kw := by
    unfold Distinct
    rw [hkw, List.map_append, List.nodup_append]
    refine ⟨by simp, List.Nodup.sublist (List.Sublist.map _ List.filter_sublist) hn, ?_⟩
    intro x hx y hy
    have h1 := hno y hy
    obtain ⟨q, hq, rfl⟩ := List.mem_map.1 hy
    simp only [List.mem_filter, decide_eq_true_eq] at hq
    simp at hx
    rintro rfl
    rcases hx with h | h | h | h <;> simp [h] at h1 hq
  have hs' : Selects dq { a with kw := kw, affine := aff } p (.ty t) := hs
  have hsp := (mkConfig_spec hd hs' hnod c).1 hc
  have hdom := mkConfig_dom hd hs' hnod hc
  obtain ⟨e1, e2, e3, e4, e5, e6, -, -, -⟩ := C21_content _ _ hd _ _ _ hs' hnod c hc
  refine ⟨e1, hsp.2.2.1 "k0" (by simp [hkw]), hdom, e4, ?_, e6 _ _ (by simp [hkw]), e6 _ _ (by simp [hkw]),
    e6 _ _ (by simp [hkw]), e6 _ _ (by simp [hkw])⟩
  obtain ⟨o1, o2, o3⟩ := hsp.1
  exact ⟨by simpa [getConfig, e3] using o1, by simpa using o2, by simpa [getConfig, e5] using o3⟩

/-- The `get_config` of a sugar config passes the constructor's assertions. -/
theorem getConfigHard_clean (c : CfgObj) (k : String)
    (hk : k ∈ (getConfigHard c).kw.map Prod.fst) : k ≠ "k0" ∧ k ≠ "ic" ∧ k ≠ "i0" ∧ k ≠ "overflow_mode" := by
  obtain ⟨p, hp, rfl⟩ := List.mem_map.1 hk
  simp only [getConfigHard, List.mem_filter, decide_eq_true_eq] at hp
  exact ⟨hp.2.2.1, hp.2.1, hp.2.2.2.1, hp.2.2.2.2⟩

/-- No keyword `overflow_node` can be accepted, it is not a parameter of any type. -/
theorem getConfigHard_keys {c : CfgObj} {t : QT} (ht : c.ty = some t) (hdom : ∀ k, (c.conf k).isSome ↔ k ∈ keysOf t)
    (k : String) (hk : k ∈ (getConfigHard c).kw.map Prod.fst) : k ∈ keysOf t := by
  obtain ⟨p, hp, rfl⟩ := List.mem_map.1 hk
  simp only [getConfigHard, List.mem_filter, decide_eq_true_eq] at hp
  exact ((getConfig_kw_lookup ht hdom).2.2 p.1).1 (List.mem_map_of_mem hp.1)

/-- **C20** `HardTanhConfig`: reloading gives back the same config except that the overflow mode becomes `SAT`; hence it is
the same config when `symmetric=False`, and a different one when `symmetric=True` (`symmetric` is not serialized, L671-678).
The condition on the axes is that of `C20_roundtrip_partial`. -/
theorem C20_hard_tanh_partial (dq dq' : Place → QArg) (defs defs' : Key → Dict) (hd : WFDefs defs) (hd' : WFDefs defs')
    (a : CfgArgs) (p : Place) (t : QT) (hs : Selects dq a p (.ty t)) (hn : Distinct a.kw) (sym : Bool) (c : CfgObj)
    (hc : mkHardTanh dq defs a sym = .ok c)
    (hax : c.conf "homogeneous_axis" = some .none ∨ c.conf "heterogeneous_axis" = some .none) :
    ∃ c', mkHardTanh dq' defs' (getConfigHard c) false = .ok c' ∧
      c'.ty = c.ty ∧ c'.place = c.place ∧ c'.scaler = c.scaler ∧ c'.affine = c.affine ∧ c'.qnoise = c.qnoise ∧
      (∀ k, k ≠ "overflow_mode" → c'.conf k = c.conf k) ∧
      c'.conf "overflow_mode" = some (.str "SAT") ∧
      (sym = false → c' = c) ∧ (sym = true → c'.conf "overflow_mode" ≠ c.conf "overflow_mode") := by
  unfold mkHardTanh at hc
  by_cases h1 : (a.kw.any (fun p => p.1 = "k0" ∨ p.1 = "ic" ∨ p.1 = "overflow_node") = true) ∨ a.affine.isSome = true
  · rw [if_pos h1] at hc; simp at hc
  rw [if_neg h1] at hc
  simp only at hc
  by_cases h2 : (a.kw.filter (fun p => p.1 ≠ "i0")).any (fun p => p.1 = "overflow_mode") = true
  · rw [if_pos h2] at hc; simp at hc
  rw [if_neg h2] at hc
  rw [not_or] at h1
  have hno : ∀ k ∈ (a.kw.filter (fun p => p.1 ≠ "i0")).map Prod.fst, k ≠ "k0" ∧ k ≠ "ic" ∧ k ≠ "overflow_mode" := by
    intro k hk
    obtain ⟨q, hq, rfl⟩ := List.mem_map.1 hk
    have hq' := (List.mem_filter.1 hq).1
    have g1 := h1.1
    simp only [List.any_eq_true, not_exists, not_and, decide_eq_true_eq, not_or] at g1 h2
    exact ⟨(g1 q hq').1, (g1 q hq').2.1, h2 q hq⟩
  obtain ⟨ht, hk0, hdom, haff, ho, f1, f2, f3, f4⟩ := hard_base hd hs hn none _ _ _ _ hno hc
  have hre := hard_rebuild (dq := dq') hd' c t ht hk0 hdom hax c.scaler c.qnoise none ho rfl rfl
    (.num 1) (.con (.constant 0)) (.num 0) (.str "SAT")
  refine ⟨⟨some t, c.place, c.scaler, none, c.qnoise, fun k =>
      if k = "k0" then some (.num 1) else if k = "ic" then some (.con (.constant 0)) else if k = "i0" then some (.num 0)
      else if k = "overflow_mode" then some (.str "SAT") else c.conf k⟩,
    ?_, ht.symm, rfl, rfl, haff.symm, rfl, ?_, ?_, ?_, ?_⟩
  · unfold mkHardTanh
    rw [if_neg, if_neg]
    · exact hre
    · simp only [List.any_eq_true, not_exists, not_and, decide_eq_true_eq]
      intro q hq
      exact (getConfigHard_clean c q.1 (List.mem_map_of_mem (List.mem_filter.1 hq).1)).2.2.2
    · rw [not_or]
      refine ⟨?_, by simp [getConfigHard]⟩
      simp only [List.any_eq_true, not_exists, not_and, decide_eq_true_eq, not_or]
      intro q hq
      have g1 := getConfigHard_clean c q.1 (List.mem_map_of_mem hq)
      have g2 := getConfigHard_keys ht hdom q.1 (List.mem_map_of_mem hq)
      refine ⟨g1.1, g1.2.1, ?_⟩
      intro h; rw [h] at g2; cases t <;> revert g2 <;> decide
  · intro k hk
    simp only [hk, if_false]
    split_ifs with e1 e2 e3
    · rw [e1, f1]
    · rw [e2, f2]
    · rw [e3, f3]
    · rfl
  · rfl
  · rintro rfl
    obtain ⟨cty, cp, cs, ca, cq, cc⟩ := c
    simp only at ht haff f1 f2 f3 f4 ⊢
    subst ht haff
    congr 1
    funext k
    split_ifs with e1 e2 e3 e4
    · rw [e1, f1]
    · rw [e2, f2]
    · rw [e3, f3]
    · rw [e4, f4]; rfl
    · rfl
  · rintro rfl
    rw [f4]
    show some (Val.str "SAT") ≠ some (Val.str "SAT_SYM")
    decide

/-- The config built by `HardTanhConfig(place='datalane', symmetric=True)` meets the hypotheses and does change. -/
theorem C20_hard_tanh_symmetric_violated :
    ∃ c c', mkHardTanh initDq initDefs ⟨.ty .kif, some .datalane, none, none, none, []⟩ true = .ok c ∧
      mkHardTanh initDq initDefs (getConfigHard c) false = .ok c' ∧
      c.conf "overflow_mode" = some (.str "SAT_SYM") ∧ c'.conf "overflow_mode" = some (.str "SAT") := by
  refine ⟨_, _, rfl, rfl, ?_, ?_⟩ <;> decide +kernel

/-- **C20** `HardSigmoidConfig`: reloading gives back exactly the same config (axes condition as above). -/
theorem C20_hard_sigmoid_partial (dq dq' : Place → QArg) (defs defs' : Key → Dict) (hd : WFDefs defs) (hd' : WFDefs defs')
    (a : CfgArgs) (p : Place) (t : QT) (hs : Selects dq a p (.ty t)) (hn : Distinct a.kw) (c : CfgObj)
    (hc : mkHardSigmoid dq defs a = .ok c)
    (hax : c.conf "homogeneous_axis" = some .none ∨ c.conf "heterogeneous_axis" = some .none) :
    mkHardSigmoid dq' defs' (getConfigHard c) = .ok c := by
  unfold mkHardSigmoid at hc
  simp only at hc
  split_ifs at hc with h1
  rw [not_or] at h1
  have hno : ∀ k ∈ (a.kw.filter (fun p => p.1 ≠ "i0")).map Prod.fst, k ≠ "k0" ∧ k ≠ "ic" ∧ k ≠ "overflow_mode" := by
    intro k hk
    obtain ⟨q, hq, rfl⟩ := List.mem_map.1 hk
    have hq' := (List.mem_filter.1 hq).1
    have g1 := h1.1
    simp only [List.any_eq_true, not_exists, not_and, decide_eq_true_eq, not_or] at g1
    exact g1 q hq'
  obtain ⟨ht, hk0, hdom, haff, ho, f1, f2, f3, f4⟩ := hard_base hd hs hn _ _ _ _ _ hno hc
  have hre := hard_rebuild (dq := dq') hd' c t ht hk0 hdom hax c.scaler c.qnoise _ ho rfl rfl
    (.num 1) (.con (.constant 1)) (.num 1) (.str "SAT")
  unfold mkHardSigmoid
  rw [if_neg]
  · refine hre.trans ?_
    obtain ⟨cty, cp, cs, ca, cq, cc⟩ := c
    simp only at ht haff f1 f2 f3 f4 ⊢
    subst ht haff
    congr 2
    funext k
    split_ifs with e1 e2 e3 e4
    · rw [e1, f1]
    · rw [e2, f2]
    · rw [e3, f3]
    · rw [e4, f4]
    · rfl
  · rw [not_or]
    refine ⟨?_, by simp [getConfigHard]⟩
    simp only [List.any_eq_true, not_exists, not_and, decide_eq_true_eq, not_or]
    intro q hq
    have g1 := getConfigHard_clean c q.1 (List.mem_map_of_mem hq)
    exact ⟨g1.1, g1.2.1, g1.2.2.2⟩

/-- Non-trivial instance: `HardSigmoidConfig(f0=7, scaler=2)`. -/
example : ∃ c, mkHardSigmoid initDq initDefs ⟨.ty .kif, some .datalane, some 2, none, none, [("f0", .num 7)]⟩ = .ok c ∧
    mkHardSigmoid initDq initDefs (getConfigHard c) = .ok c ∧ c.conf "f0" = some (.num 7) ∧ c.affine = some (1 / 4, 1 / 2) := by
  have h : ∃ c, mkHardSigmoid initDq initDefs ⟨.ty .kif, some .datalane, some 2, none, none, [("f0", .num 7)]⟩ = .ok c ∧
      c.conf "f0" = some (.num 7) ∧ c.affine = some (1 / 4, 1 / 2) ∧
      c.conf "heterogeneous_axis" = some .none := by
    have hb : (match mkHardSigmoid initDq initDefs ⟨.ty .kif, some .datalane, some 2, none, none, [("f0", .num 7)]⟩ with
        | .ok c => decide (c.conf "f0" = some (.num 7)) && decide (c.affine = some (1 / 4, 1 / 2)) &&
            decide (c.conf "heterogeneous_axis" = some .none)
        | .error _ => false) = true := by decide +kernel
    revert hb
    cases mkHardSigmoid initDq initDefs ⟨.ty .kif, some .datalane, some 2, none, none, [("f0", .num 7)]⟩ with
    | error e => simp
    | ok c =>
      intro hb
      simp only [Bool.and_eq_true, decide_eq_true_eq] at hb
      exact ⟨c, rfl, hb.1.1, hb.1.2, hb.2⟩
  obtain ⟨c, hc, h1, h2, h3⟩ := h
  exact ⟨c, hc, C20_hard_sigmoid_partial _ _ _ _ wf_initDefs wf_initDefs _ .datalane .kif ⟨rfl, Or.inr ⟨by simp, rfl⟩⟩
    (by simp [Distinct]) c hc (Or.inr h3), h1, h2⟩

end HGQ
