import Verif.Lemmas.Config
import Verif.Model.Mapper

/-! # C20–C26: configs, defaults and scopes -/
namespace HGQ

namespace Spec
/-- The default tables have the entries their type declares, no more, no less. -/
def WFDefs (defs : Key → Dict) : Prop := ∀ t p k, (defs (t, p) k).isSome ↔ k ∈ keysOf t
/-- Numeric options are legal. -/
def OptsOk (a : CfgArgs) : Prop :=
  a.scaler ≠ some 0 ∧ (∀ p, a.affine = some p → p.1 ≠ 0) ∧ (∀ r, a.qnoise = some r → 0 ≤ r ∧ r ≤ 1)
/-- The user set both axis lists. -/
def BothAxes (kw : Kw) : Prop := kw.get "homogeneous_axis" ≠ .none ∧ kw.get "heterogeneous_axis" ≠ .none
/-- Keyword names are distinct (Python guarantees it). -/
def Distinct (kw : Kw) : Prop := (kw.map Prod.fst).Nodup
/-- The type an argument list selects under the defaults `dq`. -/
def Selects (dq : Place → QArg) (a : CfgArgs) (p : Place) (q : QArg) : Prop :=
  a.place = some p ∧ ((a.qtype = .default ∧ dq p = q) ∨ (a.qtype ≠ .default ∧ a.qtype = q))
end Spec
open Spec

theorem wf_initDefs : WFDefs initDefs := by
  intro t p k
  have h : ∀ (l : Kw) (ks : List String), l.map Prod.fst = ks → ((Dict.ofList l k).isSome ↔ k ∈ ks) := by
    intro l ks h
    subst h
    have := lookup_none_iff l k
    unfold Dict.ofList
    cases hl : l.lookup k with
    | none => simp [this.1 hl]
    | some v =>
      simp only [Option.isSome_some, true_iff]
      by_contra hc
      rw [this.2 hc] at hl
      simp at hl
  cases t <;> exact h _ _ rfl

theorem keysOf_nodup (t : QT) : (keysOf t).Nodup := by cases t <;> decide

/-- Complete description of `QuantizerConfig(...)` for a real (non-dummy) type. -/
theorem mkConfig_spec {dq : Place → QArg} {defs : Key → Dict} (hd : WFDefs defs) {a : CfgArgs} {p : Place} {t : QT}
    (hs : Selects dq a p (.ty t)) (hn : Distinct a.kw) (c : CfgObj) :
    mkConfig dq defs a = .ok c ↔
      OptsOk a ∧ ¬ BothAxes a.kw ∧ (∀ k ∈ a.kw.map Prod.fst, k ∈ keysOf t) ∧
      c = ⟨some t, p, a.scaler, a.affine, a.qnoise, fun k =>
        if k = "heterogeneous_axis" ∧ a.kw.get "homogeneous_axis" ≠ .none then some .none
        else if k = "homogeneous_axis" ∧ a.kw.get "heterogeneous_axis" ≠ .none then some .none
        else match a.kw.lookup k with | some v => some v | none => defs (t, p) k⟩ := by
  obtain ⟨hp, hq⟩ := hs
  have hq' : (if a.qtype = .default then dq p else a.qtype) = .ty t := by
    rcases hq with ⟨h1, h2⟩ | ⟨h1, h2⟩ <;> simp [h1, h2]
  have hopts : OptsOk a ↔ ¬ a.scaler = some 0 ∧ ¬ (a.affine.map (·.1)) = some 0 ∧
      ¬ a.qnoise.any (fun r => decide (r < 0 ∨ 1 < r)) = true := by
    unfold OptsOk
    refine and_congr_right fun _ => and_congr ?_ ?_
    · cases a.affine <;> simp
    · cases a.qnoise <;> simp
  have hax : "homogeneous_axis" ∈ keysOf t ∧ "heterogeneous_axis" ∈ keysOf t := by cases t <;> decide
  unfold mkConfig
  simp only [hp, hq']
  by_cases h1 : a.scaler = some 0
  · simp [h1, OptsOk]
  by_cases h2 : (a.affine.map (·.1)) = some 0
  · rw [if_neg h1, if_pos h2, hopts]; simp [h2]
  by_cases h3 : a.qnoise.any (fun r => decide (r < 0 ∨ 1 < r)) = true
  · rw [if_neg h1, if_neg h2, if_pos h3, hopts]
    constructor
    · intro h; cases h
    · rintro ⟨⟨-, -, h⟩, -⟩; exact absurd h3 h
  rw [if_neg h1, if_neg h2, if_neg h3]
  have ho : OptsOk a := hopts.2 ⟨h1, h2, h3⟩
  rcases normalizeAxes_spec a.kw with ⟨n1, n2, n3⟩ | ⟨n1, kw', n2, n3, n4, n5, n6⟩
  · rw [n3]; simp [BothAxes, n1, n2]
  · rw [n2]
    have hb : ¬ BothAxes a.kw := by unfold BothAxes; tauto
    simp only []
    have hkeys : (∀ k ∈ kw'.map Prod.fst, (defs (t, p) k).isSome) ↔ (∀ k ∈ a.kw.map Prod.fst, k ∈ keysOf t) := by
      constructor
      · intro h k hk; exact (hd t p k).1 (h k (n5 k hk))
      · intro h k hk
        rw [hd]
        rcases n4 k hk with h' | rfl | rfl
        · exact h k h'
        · exact hax.1
        · exact hax.2
    have hov : overlay (defs (t, p)) kw' = fun k =>
        if k = "heterogeneous_axis" ∧ a.kw.get "homogeneous_axis" ≠ .none then some .none
        else if k = "homogeneous_axis" ∧ a.kw.get "heterogeneous_axis" ≠ .none then some .none
        else match a.kw.lookup k with | some v => some v | none => defs (t, p) k := by
      funext k
      unfold overlay
      rw [n6 k]
      split_ifs <;> rfl
    rcases applyStrict_spec (defs (t, p)) kw' (n3 hn) with ⟨g1, g2⟩ | ⟨⟨k, hk, g1⟩, g2⟩
    · rw [g2]
      simp only [Except.ok.injEq]
      constructor
      · rintro rfl; exact ⟨ho, hb, hkeys.1 g1, by rw [hov]⟩
      · rintro ⟨-, -, -, rfl⟩; rw [hov]
    · rw [g2]
      simp only [reduceCtorEq, false_iff]
      rintro ⟨-, -, h, -⟩
      have := hkeys.2 h k hk
      rw [g1] at this
      exact Bool.false_ne_true this

/-! ## C21 -/

/-- **C21** (partial: real types) `QuantizerConfig` accepts exactly the argument lists with legal numeric options, not both
axis lists, and only keywords of the selected type.  Missing: type `dummy`, `C21_dummy_accepts_anything`. -/
theorem C21_accept_iff_partial (dq : Place → QArg) (defs : Key → Dict) (hd : WFDefs defs) (a : CfgArgs) (p : Place) (t : QT)
    (hs : Selects dq a p (.ty t)) (hn : Distinct a.kw) :
    (∃ c, mkConfig dq defs a = .ok c) ↔
      OptsOk a ∧ ¬ BothAxes a.kw ∧ ∀ k ∈ a.kw.map Prod.fst, k ∈ keysOf t := by
  constructor
  · rintro ⟨c, hc⟩
    have := (mkConfig_spec hd hs hn c).1 hc
    exact ⟨this.1, this.2.1, this.2.2.1⟩
  · rintro ⟨h1, h2, h3⟩
    exact ⟨_, (mkConfig_spec hd hs hn _).2 ⟨h1, h2, h3, rfl⟩⟩

/-- **C21** An accepted config shows every keyword the user passed, `None` for the axis list the user did not choose when
they chose the other one, and the current default for everything else. -/
theorem C21_content (dq : Place → QArg) (defs : Key → Dict) (hd : WFDefs defs) (a : CfgArgs) (p : Place) (t : QT)
    (hs : Selects dq a p (.ty t)) (hn : Distinct a.kw) (c : CfgObj) (hc : mkConfig dq defs a = .ok c) :
    c.ty = some t ∧ c.place = p ∧ c.scaler = a.scaler ∧ c.affine = a.affine ∧ c.qnoise = a.qnoise ∧
    (∀ k v, (k, v) ∈ a.kw → c.conf k = some v) ∧
    (a.kw.get "homogeneous_axis" ≠ .none → c.conf "heterogeneous_axis" = some .none) ∧
    (a.kw.get "heterogeneous_axis" ≠ .none → c.conf "homogeneous_axis" = some .none) ∧
    (∀ k, k ∉ a.kw.map Prod.fst →
      (k = "heterogeneous_axis" → a.kw.get "homogeneous_axis" = .none) →
      (k = "homogeneous_axis" → a.kw.get "heterogeneous_axis" = .none) → c.conf k = defs (t, p) k) := by
  obtain ⟨h1, h2, h3, rfl⟩ := (mkConfig_spec hd hs hn c).1 hc
  refine ⟨rfl, rfl, rfl, rfl, rfl, ?_, ?_, ?_, ?_⟩
  · intro k v hkv
    have hl := lookup_of_mem hn hkv
    simp only []
    split_ifs with g1 g2
    · obtain ⟨rfl, g⟩ := g1
      have : a.kw.get "heterogeneous_axis" = .none := by unfold BothAxes at h2; tauto
      rw [Kw.get, hl] at this
      simpa using this.symm
    · obtain ⟨rfl, g⟩ := g2
      have : a.kw.get "homogeneous_axis" = .none := by unfold BothAxes at h2; tauto
      rw [Kw.get, hl] at this
      simpa using this.symm
    · rw [hl]
  · intro h; simp [h]
  · intro h; simp [h]
  · intro k hk g1 g2
    have hl := (lookup_none_iff a.kw k).2 hk
    simp only []
    rw [if_neg (by rintro ⟨h, h'⟩; exact h' (g1 h)), if_neg (by rintro ⟨h, h'⟩; exact h' (g2 h)), hl]

/-- **C21** is false for `q_type='dummy'`: any keywords whatsoever are accepted and dropped (config.py L491-493). -/
theorem C21_dummy_accepts_anything (dq : Place → QArg) (defs : Key → Dict) (a : CfgArgs) (p : Place)
    (hs : Selects dq a p .dummy) (ho : OptsOk a) :
    mkConfig dq defs a = .ok ⟨none, p, a.scaler, a.affine, a.qnoise, fun _ => none⟩ := by
  obtain ⟨hp, hq⟩ := hs
  have hq' : (if a.qtype = .default then dq p else a.qtype) = .dummy := by
    rcases hq with ⟨h1, h2⟩ | ⟨h1, h2⟩ <;> simp [h1, h2]
  obtain ⟨h1, h2, h3⟩ := ho
  unfold mkConfig
  simp only [hp, hq']
  rw [if_neg h1, if_neg, if_neg]
  · cases hq : a.qnoise with
    | none => simp
    | some r => have := h3 r hq; simp; exact ⟨this.1, this.2⟩
  · cases ha : a.affine with
    | none => simp
    | some r => simpa using h2 r ha

example : Selects initDq ⟨.default, some .datalane, none, none, none, [("f0", .num 3), ("heterogeneous_axis", .axes [-1])]⟩
    .datalane (.ty .kif) ∧
    ∃ c, mkConfig initDq initDefs ⟨.default, some .datalane, none, none, none, [("f0", .num 3), ("heterogeneous_axis", .axes [-1])]⟩
      = .ok c ∧ c.conf "f0" = some (.num 3) ∧ c.conf "homogeneous_axis" = some .none ∧ c.conf "i0" = some (.num 2) := by
  refine ⟨⟨rfl, Or.inl ⟨rfl, rfl⟩⟩, _, rfl, ?_⟩
  decide +kernel

/-! ## C20 -/

theorem getConfig_kw_lookup {c : CfgObj} {t : QT} (ht : c.ty = some t) (hdom : ∀ k, (c.conf k).isSome ↔ k ∈ keysOf t) :
    Distinct (getConfig c).kw ∧ (∀ k, (getConfig c).kw.lookup k = c.conf k) ∧
    ∀ k, k ∈ (getConfig c).kw.map Prod.fst ↔ k ∈ keysOf t := by
  have hkw : (getConfig c).kw = (keysOf t).filterMap (fun k => (c.conf k).map (fun v => (k, v))) := by simp [getConfig, ht]
  have hmap : ∀ ks : List String, (∀ k ∈ ks, (c.conf k).isSome) →
      (ks.filterMap (fun k => (c.conf k).map (fun v => (k, v)))).map Prod.fst = ks := by
    intro ks
    induction ks with
    | nil => simp
    | cons k ks ih =>
      intro h
      obtain ⟨v, hv⟩ := Option.isSome_iff_exists.1 (h k (by simp))
      simp only [List.filterMap_cons, hv, Option.map_some, List.map_cons]
      rw [ih (fun k hk => h k (List.mem_cons_of_mem _ hk))]
  have hkeys : (getConfig c).kw.map Prod.fst = keysOf t := by
    rw [hkw, hmap _ (fun k hk => (hdom k).2 hk)]
  refine ⟨by unfold Distinct; rw [hkeys]; exact keysOf_nodup t, ?_, fun k => by rw [hkeys]⟩
  intro k
  by_cases hk : k ∈ keysOf t
  · obtain ⟨v, hv⟩ := Option.isSome_iff_exists.1 ((hdom k).2 hk)
    rw [hv]
    apply lookup_of_mem (by rw [hkeys]; exact keysOf_nodup t)
    rw [hkw, List.mem_filterMap]
    exact ⟨k, hk, by simp [hv]⟩
  · have h1 : c.conf k = none := by
      have := hdom k; cases h : c.conf k <;> simp_all
    rw [h1, lookup_none_iff, hkeys]
    exact hk

theorem mkConfig_dom {dq : Place → QArg} {defs : Key → Dict} (hd : WFDefs defs) {a : CfgArgs} {p : Place} {t : QT}
    (hs : Selects dq a p (.ty t)) (hn : Distinct a.kw) {c : CfgObj} (hc : mkConfig dq defs a = .ok c) (k : String) :
    (c.conf k).isSome ↔ k ∈ keysOf t := by
  obtain ⟨-, -, h3, rfl⟩ := (mkConfig_spec hd hs hn c).1 hc
  have hax : "homogeneous_axis" ∈ keysOf t ∧ "heterogeneous_axis" ∈ keysOf t := by cases t <;> decide
  simp only []
  split_ifs with g1 g2
  · obtain ⟨rfl, -⟩ := g1; simp [hax.2]
  · obtain ⟨rfl, -⟩ := g2; simp [hax.1]
  · cases hl : a.kw.lookup k with
    | none => exact hd t p k
    | some v =>
      simp only [Option.isSome_some, true_iff]
      exact h3 k (List.mem_map.2 ⟨_, lookup_mem hl, rfl⟩)

/-- Rebuild from a complete keyword list. -/
theorem mkConfig_full {dq : Place → QArg} {defs : Key → Dict} (hd : WFDefs defs) (c : CfgObj) (t : QT) (ht : c.ty = some t)
    (hdom : ∀ k, (c.conf k).isSome ↔ k ∈ keysOf t)
    (hax : c.conf "homogeneous_axis" = some .none ∨ c.conf "heterogeneous_axis" = some .none)
    (ho : OptsOk (getConfig c)) : mkConfig dq defs (getConfig c) = .ok c := by
  obtain ⟨hn, hl, hk⟩ := getConfig_kw_lookup ht hdom
  have hs : Selects dq (getConfig c) c.place (.ty t) := ⟨rfl, Or.inr (by simp [getConfig, ht])⟩
  rw [mkConfig_spec hd hs hn]
  have hb : ¬ BothAxes (getConfig c).kw := by
    rintro ⟨h1, h2⟩
    rw [Kw.get, hl] at h1 h2
    rcases hax with h | h <;> simp [h] at h1 h2
  refine ⟨ho, hb, fun k h => (hk k).1 h, ?_⟩
  obtain ⟨ty, pl, sc, af, qn, conf⟩ := c
  simp only at ht
  subst ht
  simp only [CfgObj.mk.injEq, true_and]
  refine ⟨rfl, rfl, rfl, ?_⟩
  funext k
  have hget : ∀ k, (getConfig ⟨some t, pl, sc, af, qn, conf⟩).kw.get k = (conf k).getD .none := by
    intro k; rw [Kw.get, hl]
  simp only [hget, hl] at *
  split_ifs with g1 g2
  · obtain ⟨rfl, g⟩ := g1
    rcases hax with h | h
    · simp [h] at g
    · exact h
  · obtain ⟨rfl, g⟩ := g2
    rcases hax with h | h
    · exact h
    · simp [h] at g
  · cases h : conf k with
    | some v => rfl
    | none =>
      have h1 : k ∉ keysOf t := by rw [← hdom]; simp [h]
      have h2 := hd t pl k
      cases h3 : defs (t, pl) k with
      | none => rfl
      | some v => rw [h3] at h2; simp [h1] at h2

/-- **C20** (partial) `from_config(get_config())` of every `QuantizerConfig` the constructor accepts gives back exactly the
same config, whatever the defaults are at the time of loading — except when both axis lists are set in it.
Missing: exactly that case, which the defaults produce, `C20_float_bias_violated`. -/
theorem C20_roundtrip_partial (dq dq' : Place → QArg) (defs defs' : Key → Dict) (hd : WFDefs defs) (hd' : WFDefs defs')
    (a : CfgArgs) (hn : Distinct a.kw) (c : CfgObj) (hc : mkConfig dq defs a = .ok c)
    (hax : c.ty = none ∨ c.conf "homogeneous_axis" = some .none ∨ c.conf "heterogeneous_axis" = some .none) :
    mkConfig dq' defs' (getConfig c) = .ok c := by
  -- options of an accepted config are legal
  have hsel : ∃ p q, Selects dq a p q := by
    cases hp : a.place with
    | none => simp [mkConfig, hp] at hc
    | some p =>
      by_cases h : a.qtype = .default
      · exact ⟨p, dq p, hp, Or.inl ⟨h, rfl⟩⟩
      · exact ⟨p, a.qtype, hp, Or.inr ⟨h, rfl⟩⟩
  obtain ⟨p, q, hs⟩ := hsel
  have hq' : (if a.qtype = .default then dq p else a.qtype) = q := by
    rcases hs.2 with ⟨h1, h2⟩ | ⟨h1, h2⟩
    · simp [h1, h2]
    · rw [if_neg h1]; exact h2
  cases q with
  | default =>
    simp only [mkConfig, hs.1, hq'] at hc
    split_ifs at hc
  | other =>
    simp only [mkConfig, hs.1, hq'] at hc
    split_ifs at hc
  | dummy =>
    have ho : OptsOk a := by
      simp only [mkConfig, hs.1, hq'] at hc
      split_ifs at hc with h1 h2 h3
      refine ⟨h1, ?_, ?_⟩
      · intro r hr h; rw [hr] at h2; simp [h] at h2
      · intro r hr; rw [hr] at h3; simpa using h3
    have := C21_dummy_accepts_anything dq defs a p hs ho
    rw [this] at hc
    simp only [Except.ok.injEq] at hc
    subst hc
    exact C21_dummy_accepts_anything dq' defs' _ p ⟨rfl, Or.inr ⟨by simp [getConfig], rfl⟩⟩ ho
  | ty t =>
    have hsp := (mkConfig_spec hd hs hn c).1 hc
    have ht : c.ty = some t := by rw [hsp.2.2.2]
    have hax' : c.conf "homogeneous_axis" = some .none ∨ c.conf "heterogeneous_axis" = some .none := by
      rcases hax with h | h
      · rw [ht] at h; simp at h
      · exact h
    refine mkConfig_full hd' c t ht (mkConfig_dom hd hs hn hc) hax' ?_
    have ho := hsp.1
    rw [hsp.2.2.2]
    exact ho

/-- Any config in which the user chose an axis list, and every default config except `('float','bias')`, meets the
condition of `C20_roundtrip_partial`. -/
theorem C20_condition_met :
    (∀ (dq : Place → QArg) (defs : Key → Dict) (a : CfgArgs) (p : Place) (t : QT) (c : CfgObj), WFDefs defs →
      Selects dq a p (.ty t) → Distinct a.kw → mkConfig dq defs a = .ok c →
      (a.kw.get "homogeneous_axis" ≠ .none ∨ a.kw.get "heterogeneous_axis" ≠ .none) →
      c.conf "homogeneous_axis" = some .none ∨ c.conf "heterogeneous_axis" = some .none) ∧
    (∀ t p, (t, p) ≠ (QT.float, Place.bias) →
      initDefs (t, p) "homogeneous_axis" = some .none ∨ initDefs (t, p) "heterogeneous_axis" = some .none) := by
  constructor
  · intro dq defs a p t c hd hs hn hc h
    have := C21_content dq defs hd a p t hs hn c hc
    rcases h with h | h
    · exact Or.inr (this.2.2.2.2.2.2.1 h)
    · exact Or.inl (this.2.2.2.2.2.2.2.1 h)
  · intro t p h
    cases t <;> cases p <;> first | exact absurd rfl h | (left; decide +kernel) | (right; decide +kernel)

theorem mkConfig_both (dq : Place → QArg) (defs : Key → Dict) (a : CfgArgs) (p : Place) (t : QT)
    (hs : Selects dq a p (.ty t)) (ho : OptsOk a) (hb : BothAxes a.kw) : mkConfig dq defs a = .error .assertion := by
  obtain ⟨hp, hq⟩ := hs
  have hq' : (if a.qtype = .default then dq p else a.qtype) = .ty t := by
    rcases hq with ⟨h1, h2⟩ | ⟨h1, h2⟩ <;> simp [h1, h2]
  obtain ⟨h1, h2, h3⟩ := ho
  unfold mkConfig
  simp only [hp, hq']
  rw [if_neg h1, if_neg, if_neg]
  · rcases normalizeAxes_spec a.kw with ⟨-, -, h⟩ | ⟨h, -⟩
    · rw [h]
    · exact absurd h (by rw [not_or]; exact hb)
  · cases hq : a.qnoise with
    | none => simp
    | some r => have := h3 r hq; simp; exact ⟨this.1, this.2⟩
  · cases ha : a.affine with
    | none => simp
    | some r => simpa using h2 r ha

/-- Error of a constructor call, if any. -/
def errOf {α} : Except Err α → Option Err
  | .error e => some e
  | .ok _ => none

/-- **C20** is false for the shipped default of `('float', 'bias')`: both axis lists are `()` (config.py L199-206); the
config is accepted, its own `get_config()` is rejected, and the quantizer it describes cannot even be constructed. -/
theorem C20_float_bias_violated :
    errOf (mkConfig initDq initDefs ⟨.ty .float, some .bias, none, none, none, []⟩) = none ∧
    (∀ c, mkConfig initDq initDefs ⟨.ty .float, some .bias, none, none, none, []⟩ = .ok c →
      mkConfig initDq initDefs (getConfig c) = .error .assertion ∧
      c.conf "homogeneous_axis" = some (.axes []) ∧ c.conf "heterogeneous_axis" = some (.axes [])) ∧
    Mapper.valid ⟨some [], some []⟩ = false := by
  refine ⟨by decide +kernel, ?_, rfl⟩
  intro c hc
  have hn : Distinct ([] : Kw) := by simp [Distinct]
  have hs : Selects initDq ⟨.ty .float, some .bias, none, none, none, []⟩ .bias (.ty .float) :=
    ⟨rfl, Or.inr ⟨by simp, rfl⟩⟩
  have hdom := mkConfig_dom wf_initDefs hs hn hc
  obtain ⟨e1, -, e3, e4, e5, -, -, -, e9⟩ := C21_content _ _ wf_initDefs _ _ _ hs hn c hc
  have ha1 : c.conf "homogeneous_axis" = some (.axes []) := by
    rw [e9 "homogeneous_axis" (by simp) (by simp) (by simp [Kw.get])]; decide +kernel
  have ha2 : c.conf "heterogeneous_axis" = some (.axes []) := by
    rw [e9 "heterogeneous_axis" (by simp) (by simp [Kw.get]) (by simp)]; decide +kernel
  refine ⟨?_, ha1, ha2⟩
  obtain ⟨hn', hl, hk⟩ := getConfig_kw_lookup e1 hdom
  have hnb : (getConfig c).kw.get "homogeneous_axis" ≠ .none ∧ (getConfig c).kw.get "heterogeneous_axis" ≠ .none := by
    simp [Kw.get, hl, ha1, ha2]
  refine mkConfig_both _ _ _ c.place .float ⟨rfl, Or.inr (by simp [getConfig, e1])⟩ ?_ hnb
  refine ⟨?_, ?_, ?_⟩
  · simp [getConfig, e3]
  · simp [getConfig, e4]
  · simp [getConfig, e5]

/-! ### Sugar configs -/

/-- Common part of the two sugar classes: rebuilding from `getConfigHard` writes back the four fixed entries. -/
theorem hard_rebuild {dq : Place → QArg} {defs : Key → Dict} (hd : WFDefs defs) (c : CfgObj) (t : QT) (ht : c.ty = some t)
    (hk0 : "k0" ∈ keysOf t) (hdom : ∀ k, (c.conf k).isSome ↔ k ∈ keysOf t)
    (hax : c.conf "homogeneous_axis" = some .none ∨ c.conf "heterogeneous_axis" = some .none)
    (sc qn) (aff : Option (ℚ × ℚ)) (ho : OptsOk { getConfig c with affine := aff }) (hsc : c.scaler = sc) (hqn : c.qnoise = qn)
    (v1 v2 v3 v4 : Val) :
    mkConfig dq defs { getConfigHard c with
      kw := [("k0", v1), ("ic", v2), ("i0", v3), ("overflow_mode", v4)] ++
        (getConfigHard c).kw.filter (fun p => p.1 ≠ "i0")
      affine := aff } =
    .ok ⟨some t, c.place, sc, aff, qn, fun k =>
      if k = "k0" then some v1 else if k = "ic" then some v2 else if k = "i0" then some v3
      else if k = "overflow_mode" then some v4 else c.conf k⟩ := by
  obtain ⟨hn, hl, hk⟩ := getConfig_kw_lookup ht hdom
  set kw : Kw := [("k0", v1), ("ic", v2), ("i0", v3), ("overflow_mode", v4)] ++
        (getConfigHard c).kw.filter (fun p => p.1 ≠ "i0") with hkw
  set rest := (getConfigHard c).kw.filter (fun p => decide (p.1 ≠ "i0")) with hrest
  have hr : ∀ k, k ∈ rest.map Prod.fst → k ∈ keysOf t ∧ k ≠ "k0" ∧ k ≠ "ic" ∧ k ≠ "i0" ∧ k ≠ "overflow_mode" := by
    intro k hk'
    obtain ⟨p, hp, rfl⟩ := List.mem_map.1 hk'
    rw [hrest] at hp
    simp only [getConfigHard, List.mem_filter, decide_eq_true_eq] at hp
    exact ⟨(hk p.1).1 (List.mem_map_of_mem hp.1.1), hp.1.2.2.1, hp.1.2.1, hp.2, hp.1.2.2.2.2⟩
  have hrn : (rest.map Prod.fst).Nodup := by
    rw [hrest]; simp only [getConfigHard, List.filter_filter]
    exact (List.Nodup.sublist (List.Sublist.map _ List.filter_sublist) hn)
  have hrl : ∀ k, k ≠ "k0" → k ≠ "ic" → k ≠ "i0" → k ≠ "overflow_mode" → rest.lookup k = c.conf k := by
    intro k h1 h2 h3 h4
    cases h : c.conf k with
    | none =>
      rw [lookup_none_iff]
      intro hm
      have := (hdom k).2 (hr k hm).1
      simp [h] at this
    | some v =>
      apply lookup_of_mem hrn
      rw [hrest]
      simp only [getConfigHard, List.mem_filter, decide_eq_true_eq]
      exact ⟨⟨lookup_mem (by rw [hl, h]), h2, h1, h3, h4⟩, h3⟩
  have hnod : Distinct kw := by
    unfold Distinct
    rw [hkw, List.map_append, List.nodup_append]
    refine ⟨by simp, hrn, ?_⟩
    intro a ha b hb
    have := hr b hb
    simp at ha
    rintro rfl
    rcases ha with rfl | rfl | rfl | rfl <;> simp at this
  have hlook : ∀ k, kw.lookup k = if k = "k0" then some v1 else if k = "ic" then some v2 else if k = "i0" then some v3
      else if k = "overflow_mode" then some v4 else c.conf k := by
    intro k
    rw [hkw]
    by_cases h1 : k = "k0"
    · subst h1; rfl
    by_cases h2 : k = "ic"
    · subst h2; rfl
    by_cases h3 : k = "i0"
    · subst h3; rfl
    by_cases h4 : k = "overflow_mode"
    · subst h4; rfl
    rw [if_neg h1, if_neg h2, if_neg h3, if_neg h4, ← hrl k h1 h2 h3 h4]
    have b1 : (k == "k0") = false := by simpa using h1
    have b2 : (k == "ic") = false := by simpa using h2
    have b3 : (k == "i0") = false := by simpa using h3
    have b4 : (k == "overflow_mode") = false := by simpa using h4
    simp only [List.cons_append, List.nil_append, List.lookup_cons, b1, b2, b3, b4]
  have hic : "ic" ∈ keysOf t ∧ "i0" ∈ keysOf t ∧ "overflow_mode" ∈ keysOf t := by
    cases t
    · decide
    · decide
    · exact absurd hk0 (by decide)
  have hget : ∀ k, kw.get k = (if k = "k0" then some v1 else if k = "ic" then some v2 else if k = "i0" then some v3
      else if k = "overflow_mode" then some v4 else c.conf k).getD .none := fun k => by rw [Kw.get, hlook]
  have hs : Selects dq { getConfigHard c with kw := kw, affine := aff } c.place (.ty t) :=
    ⟨rfl, Or.inr (by simp [getConfigHard, getConfig, ht])⟩
  have hg1 : kw.get "homogeneous_axis" = (c.conf "homogeneous_axis").getD .none := by rw [hget]; rfl
  have hg2 : kw.get "heterogeneous_axis" = (c.conf "heterogeneous_axis").getD .none := by rw [hget]; rfl
  have := (mkConfig_spec hd hs hnod ⟨some t, c.place, sc, aff, qn, fun k =>
      if k = "k0" then some v1 else if k = "ic" then some v2 else if k = "i0" then some v3
      else if k = "overflow_mode" then some v4 else c.conf k⟩).2 (by
    refine ⟨?_, ?_, ?_, ?_⟩
    · exact ho
    · rintro ⟨h1, h2⟩
      simp only at h1 h2
      rw [hg1] at h1; rw [hg2] at h2
      rcases hax with h | h <;> simp [h] at h1 h2
    · intro k hk'
      simp only [hkw, List.map_append, List.mem_append] at hk'
      rcases hk' with h | h
      · simp at h
        rcases h with rfl | rfl | rfl | rfl
        · exact hk0
        · exact hic.1
        · exact hic.2.1
        · exact hic.2.2
      · exact (hr k h).1
    · simp only [CfgObj.mk.injEq, true_and]
      refine ⟨by simp [getConfigHard, getConfig, hsc], by simp [getConfigHard, getConfig, hqn], ?_⟩
      funext k
      rw [hg1, hg2, hlook]
      by_cases g1 : k = "heterogeneous_axis" ∧ (c.conf "homogeneous_axis").getD .none ≠ .none
      · rw [if_pos g1]
        obtain ⟨rfl, g⟩ := g1
        rcases hax with h | h
        · simp [h] at g
        · exact h
      rw [if_neg g1]
      by_cases g2 : k = "homogeneous_axis" ∧ (c.conf "heterogeneous_axis").getD .none ≠ .none
      · rw [if_pos g2]
        obtain ⟨rfl, g⟩ := g2
        rcases hax with h | h
        · exact h
        · simp [h] at g
      rw [if_neg g2]
      split_ifs <;> try rfl
      cases h : c.conf k with
      | some v => rfl
      | none =>
        have h1 : k ∉ keysOf t := by rw [← hdom]; simp [h]
        have h2 := hd t c.place k
        cases h3 : defs (t, c.place) k with
        | none => rfl
        | some v => rw [h3] at h2; simp [h1] at h2)
  exact this

end HGQ
