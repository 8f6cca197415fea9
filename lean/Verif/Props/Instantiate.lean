import Verif.Model.Instantiate
import Verif.Props.Config
import Mathlib.Tactic

/-! # C86: an accepted quantizer config can be turned into a quantizer -/
namespace HGQ

namespace Spec
/-- A bit-width value: an initializer or a number. -/
def WidthVal (kind : ℕ → ObjKind) (v : Val) : Prop := v.isInit kind = true ∨ (∃ q, v = .num q) ∨ (∃ b, v = .bool b)
/-- A number. -/
def NumVal (v : Val) (q : ℚ) : Prop := v = .num q ∨ (v = .bool true ∧ q = 1) ∨ (v = .bool false ∧ q = 0)
/-- The keep-negative flag: 0 or 1 (or a boolean), after truncation. -/
def FlagVal (v : Val) : Prop := ∃ q, NumVal v q ∧ -1 < q ∧ q < 2
/-- A width value or infinity. -/
def SpeedVal (kind : ℕ → ObjKind) (v : Val) : Prop := WidthVal kind v ∨ v = .str "inf"
/-- One axis list is given and the other is not, or a mapper is given. -/
def AxesOk (d : Dict) : Prop :=
  d.getV "bw_mapper" ≠ .none ∨ ¬ (d.getV "homogeneous_axis" = .none ↔ d.getV "heterogeneous_axis" = .none)
/-- The sizes: `k0` a flag and the total number of bits (`b0`, or `i0 + f0`) non-negative, unless one of them is an initializer. -/
def SizesOk (kind : ℕ → ObjKind) (t : QT) (d : Dict) : Prop :=
  match t with
  | .kbi => SpeedVal kind (d.getV "k0") ∧ SpeedVal kind (d.getV "b0") ∧ SpeedVal kind (d.getV "i0") ∧
      ((∀ k ∈ ["k0", "b0", "i0"], (d.getV k).isInit kind = false) → FlagVal (d.getV "k0") ∧ ∃ b, NumVal (d.getV "b0") b ∧ 0 ≤ b)
  | .kif => SpeedVal kind (d.getV "k0") ∧ SpeedVal kind (d.getV "i0") ∧ SpeedVal kind (d.getV "f0") ∧
      ((∀ k ∈ ["k0", "i0", "f0"], (d.getV k).isInit kind = false) →
        FlagVal (d.getV "k0") ∧ ∃ i f, NumVal (d.getV "i0") i ∧ NumVal (d.getV "f0") f ∧ 0 ≤ i + f)
  | .float => True
/-- Modes are strings; constraints and regularizers are constraints and regularizers (or `None`). -/
def OthersOk (kind : ℕ → ObjKind) (t : QT) (d : Dict) : Prop :=
  (∃ s, d.getV "round_mode" = .str s) ∧ (∃ s, d.getV "overflow_mode" = .str s) ∧ SpeedVal kind (d.getV "i_decay_speed") ∧
  ∀ x ∈ (match t with | .kbi => ["b", "i"] | _ => ["f", "i"]),
    (d.getV (x ++ "c")).isConstraintOrNone kind = true ∧ (d.getV (x ++ "r")).isRegularizerOrNone kind = true
end Spec
open Spec

theorem assertE_ok (b : Bool) (u : Unit) : assertE b = .ok u ↔ b = true := by cases b <;> simp [assertE]

theorem bind_ok_iff {α β} (x : Except Err α) (f : α → Except Err β) (y : β) : (x >>= f) = .ok y ↔ ∃ a, x = .ok a ∧ f a = .ok y := by
  cases x <;> simp [bind, Except.bind]

theorem bind_unit_ok (x : Except Err Unit) {β} (f : Unit → Except Err β) (y : β) :
    (x >>= f) = .ok y ↔ x = .ok () ∧ f () = .ok y := by
  rw [bind_ok_iff]
  constructor
  · rintro ⟨⟨⟩, h⟩; exact h
  · intro h; exact ⟨(), h⟩

theorem checkStr_ok (v : Val) : checkStr v = .ok () ↔ ∃ s, v = .str s := by cases v <;> simp [checkStr]

theorem checkFloat_ok (kind : ℕ → ObjKind) (v : Val) : checkFloat kind v = .ok () ↔ SpeedVal kind v := by
  unfold checkFloat SpeedVal WidthVal
  cases v with
  | none => simp [Val.isInit, Val.toFloat, Except.map]
  | num q => simp [Val.isInit, Val.toFloat, Except.map]
  | bool b => simp [Val.isInit, Val.toFloat, Except.map]
  | str s => by_cases h : s = "inf" <;> simp [Val.isInit, Val.toFloat, Except.map, h]
  | axes l => simp [Val.isInit, Val.toFloat, Except.map]
  | con c => simp [Val.isInit, Val.toFloat, Except.map]
  | obj n => by_cases h : kind n = .initializer <;> simp [Val.isInit, Val.toFloat, Except.map, h]

theorem asNum_ok (v : Val) (q : ℚ) : v.asNum = .ok q ↔ NumVal v q := by
  unfold NumVal
  cases v with
  | bool b => cases b <;> simp [Val.asNum] <;> tauto
  | _ => simp [Val.asNum]

theorem tdiv_flag (q : ℚ) : (q.num.tdiv q.den = 0 ∨ q.num.tdiv q.den = 1) ↔ -1 < q ∧ q < 2 := by
  have hd : (0 : ℤ) < q.den := by exact_mod_cast q.den_pos
  have hq : q = q.num / q.den := (Rat.num_div_den q).symm
  have hdq : (0 : ℚ) < q.den := by exact_mod_cast q.den_pos
  have h1 : -1 < q ↔ -(q.den : ℤ) < q.num := by
    conv_lhs => rw [hq, lt_div_iff₀ hdq]
    rw [show (-1 : ℚ) * q.den = ((-(q.den : ℤ) : ℤ) : ℚ) by push_cast; ring]
    exact Int.cast_lt
  have h2 : q < 2 ↔ q.num < 2 * (q.den : ℤ) := by
    conv_lhs => rw [hq, div_lt_iff₀ hdq]
    rw [show (2 : ℚ) * q.den = ((2 * (q.den : ℤ) : ℤ) : ℚ) by push_cast; ring]
    exact Int.cast_lt
  rw [h1, h2]
  rcases le_or_gt 0 q.num with hn | hn
  · rw [Int.tdiv_eq_ediv_of_nonneg hn]
    have e1 := Int.mul_ediv_add_emod q.num q.den
    have e2 := Int.emod_lt_of_pos q.num hd
    have e3 := Int.emod_nonneg q.num hd.ne'
    constructor
    · rintro (h | h) <;> rw [h] at e1 <;> constructor <;> linarith
    · rintro ⟨_, h⟩
      have : q.num / q.den < 2 := Int.ediv_lt_of_lt_mul hd (by linarith)
      have : 0 ≤ q.num / q.den := Int.ediv_nonneg hn hd.le
      omega
  · have e : q.num.tdiv q.den = -((-q.num) / q.den) := by
      rw [← Int.tdiv_eq_ediv_of_nonneg (by omega : 0 ≤ -q.num), Int.neg_tdiv, neg_neg]
    have h0 : 0 ≤ (-q.num) / q.den := Int.ediv_nonneg (by omega) hd.le
    rw [e]
    constructor
    · rintro (h | h)
      · have : (-q.num) / q.den = 0 := by omega
        have e1 := Int.mul_ediv_add_emod (-q.num) q.den
        have e2 := Int.emod_lt_of_pos (-q.num) hd
        rw [this] at e1
        constructor <;> linarith
      · omega
    · rintro ⟨h, _⟩
      left
      rw [Int.ediv_eq_zero_of_lt (by omega) (by omega)]; rfl

theorem toInt_flag (v : Val) : (∃ k, v.toInt = .ok k ∧ (k = 0 ∨ k = 1)) ↔ FlagVal v := by
  unfold FlagVal NumVal
  cases v with
  | num q =>
    simp only [Val.toInt, Except.ok.injEq, exists_eq_left', Val.num.injEq, reduceCtorEq, false_and, or_false]
    exact tdiv_flag q
  | bool b => cases b <;> simp [Val.toInt] <;> norm_num
  | _ => simp [Val.toInt]

theorem checkWidths_false (kind : ℕ → ObjKind) (k a b : Val) :
    checkWidths kind k a b false = .ok () ↔
      ((k.isInit kind = false ∧ a.isInit kind = false ∧ b.isInit kind = false) →
        FlagVal k ∧ ∃ x, NumVal a x ∧ 0 ≤ x) := by
  unfold checkWidths
  by_cases h : k.isInit kind = false ∧ a.isInit kind = false ∧ b.isInit kind = false
  · obtain ⟨h1, h2, h3⟩ := h
    simp only [h1, h2, h3, Bool.not_false, Bool.and_self, if_true, bind_ok_iff, true_imp_iff, and_self, Bool.false_eq_true, if_false,
      assertE_ok, decide_eq_true_eq, exists_const]
    rw [← toInt_flag]
    simp only [← asNum_ok]
    constructor
    · rintro ⟨k', hk, hk', x, hx, h0⟩; exact ⟨⟨k', hk, hk'⟩, x, hx, h0⟩
    · rintro ⟨⟨k', hk, hk'⟩, x, hx, h0⟩; exact ⟨k', hk, hk', x, hx, h0⟩
  · have : (!k.isInit kind && !a.isInit kind && !b.isInit kind) = false := by
      cases h1 : k.isInit kind <;> cases h2 : a.isInit kind <;> cases h3 : b.isInit kind <;> simp_all
    rw [this]
    simp only [Bool.false_eq_true, if_false, pure, Except.pure, true_iff]
    intro h'; exact absurd h' h

theorem checkWidths_true (kind : ℕ → ObjKind) (k a b : Val) :
    checkWidths kind k a b true = .ok () ↔
      ((k.isInit kind = false ∧ a.isInit kind = false ∧ b.isInit kind = false) →
        FlagVal k ∧ ∃ x y, NumVal a x ∧ NumVal b y ∧ 0 ≤ x + y) := by
  unfold checkWidths
  by_cases h : k.isInit kind = false ∧ a.isInit kind = false ∧ b.isInit kind = false
  · obtain ⟨h1, h2, h3⟩ := h
    simp only [h1, h2, h3, Bool.not_false, Bool.and_self, if_true, bind_ok_iff, true_imp_iff, and_self,
      assertE_ok, decide_eq_true_eq, exists_const]
    rw [← toInt_flag]
    simp only [← asNum_ok]
    constructor
    · rintro ⟨k', hk, hk', x, hx, y, hy, h0⟩; exact ⟨⟨k', hk, hk'⟩, x, y, hx, hy, h0⟩
    · rintro ⟨⟨k', hk, hk'⟩, x, y, hx, hy, h0⟩; exact ⟨k', hk, hk', x, hx, y, hy, h0⟩
  · have : (!k.isInit kind && !a.isInit kind && !b.isInit kind) = false := by
      cases h1 : k.isInit kind <;> cases h2 : a.isInit kind <;> cases h3 : b.isInit kind <;> simp_all
    rw [this]
    simp only [Bool.false_eq_true, if_false, pure, Except.pure, true_iff]
    intro h'; exact absurd h' h

theorem baseInit_ok (t : QT) (d : Dict) (m : MapperOf) :
    baseInit t d = .ok m ↔ t ≠ .float ∧ AxesOk d ∧
      m = if d.getV "bw_mapper" ≠ .none then .shared (d.getV "bw_mapper")
        else .own (d.getV "heterogeneous_axis") (d.getV "homogeneous_axis") := by
  have hk : ((keysOf t).all fun k => (namedParams t ++ basePops ++ kerasLayerKw).contains k) = decide (t ≠ .float) := by
    cases t <;> decide +kernel
  unfold baseInit AxesOk
  by_cases hm : d.getV "bw_mapper" = .none
  · simp only [hm, ne_eq, not_true_eq_false, if_false, bind_unit_ok, assertE_ok, hk, false_or]
    by_cases ht : t = .float
    · simp [ht]
    · simp only [ht, not_false_eq_true, decide_true, if_true, pure, Except.pure, Except.ok.injEq, true_and]
      by_cases h1 : d.getV "heterogeneous_axis" = .none <;> by_cases h2 : d.getV "homogeneous_axis" = .none <;>
        simp [h1, h2, eq_comm]
  · simp only [hm, ne_eq, not_false_eq_true, if_true, hk, true_or, true_and]
    by_cases ht : t = .float
    · simp [ht, pure, Except.pure, bind, Except.bind]
    · simp [ht, pure, Except.pure, bind, Except.bind, eq_comm]

/-- What the quantizer of a config is. -/
def Spec.QuantizerOf (c : CfgObj) (t : QT) (q : QInst) : Prop :=
  q.ty = some t ∧
  q.mapper = some (if c.conf.getV "bw_mapper" ≠ .none then .shared (c.conf.getV "bw_mapper")
    else .own (c.conf.getV "heterogeneous_axis") (c.conf.getV "homogeneous_axis")) ∧
  ∀ k, q.args k = if k ∈ namedParams t then c.conf k else none

/-- **C86**, criterion: a fixed-point config yields a quantizer if and only if its sizes, axes and other entries are legal, and the
quantizer has exactly the values of the config. -/
theorem C86_fixed_partial (kind : ℕ → ObjKind) (c : CfgObj) (t : QT) (ht : c.ty = some t) (hf : t ≠ .float) (q : QInst) :
    getQuantizer kind c = .ok q ↔ SizesOk kind t c.conf ∧ AxesOk c.conf ∧ OthersOk kind t c.conf ∧ QuantizerOf c t q := by
  have hq : ∀ m : MapperOf, (QuantizerOf c t q ∧ m = (if c.conf.getV "bw_mapper" ≠ .none then .shared (c.conf.getV "bw_mapper")
    else .own (c.conf.getV "heterogeneous_axis") (c.conf.getV "homogeneous_axis"))) ↔
      ((⟨some t, some m, fun k => if (namedParams t).contains k then c.conf k else none⟩ : QInst) = q ∧
      m = (if c.conf.getV "bw_mapper" ≠ .none then .shared (c.conf.getV "bw_mapper")
    else .own (c.conf.getV "heterogeneous_axis") (c.conf.getV "homogeneous_axis"))) := by
    intro m
    refine and_congr_left fun hm => ?_
    unfold QuantizerOf
    rw [← hm]
    obtain ⟨ty, mp, args⟩ := q
    simp only [QInst.mk.injEq, List.contains_iff_mem]
    constructor
    · rintro ⟨h1, h2, h3⟩; exact ⟨h1.symm, h2.symm, (funext fun k => (h3 k).symm)⟩
    · rintro ⟨h1, h2, h3⟩; exact ⟨h1.symm, h2.symm, fun k => by rw [← h3]⟩
  unfold getQuantizer OthersOk SizesOk
  rw [ht]
  cases t with
  | float => exact absurd rfl hf
  | kbi =>
    simp only [bind_ok_iff (baseInit _ _), bind_unit_ok, baseInit_ok, checkWidths_false, checkFloat_ok, checkStr_ok, assertE_ok, pure,
      Except.pure, Except.ok.injEq, List.forall_mem_cons, List.not_mem_nil, false_imp_iff, implies_true, and_true, ne_eq, reduceCtorEq,
      not_false_eq_true, true_and]
    constructor
    · rintro ⟨m, ⟨hax, hm⟩, h1, h2, h3, h4, h5, h6, h7, h8, h9, h10, h11, h12⟩
      exact ⟨⟨h2, h3, h4, h1⟩, hax, ⟨h6, h7, h5, ⟨h8, h10⟩, h9, h11⟩, ((hq m).2 ⟨h12, hm⟩).1⟩
    · rintro ⟨⟨h2, h3, h4, h1⟩, hax, ⟨h6, h7, h5, ⟨h8, h10⟩, h9, h11⟩, h12⟩
      exact ⟨_, ⟨hax, rfl⟩, h1, h2, h3, h4, h5, h6, h7, h8, h9, h10, h11, ((hq _).1 ⟨h12, rfl⟩).1⟩
  | kif =>
    simp only [bind_ok_iff (baseInit _ _), bind_unit_ok, baseInit_ok, checkWidths_true, checkFloat_ok, checkStr_ok, assertE_ok, pure,
      Except.pure, Except.ok.injEq, List.forall_mem_cons, List.not_mem_nil, false_imp_iff, implies_true, and_true, ne_eq, reduceCtorEq,
      not_false_eq_true, true_and]
    constructor
    · rintro ⟨m, ⟨hax, hm⟩, h1, h2, h3, h4, h5, h6, h7, h8, h9, h10, h11, h12⟩
      exact ⟨⟨h2, h3, h4, h1⟩, hax, ⟨h6, h7, h5, ⟨h8, h10⟩, h9, h11⟩, ((hq m).2 ⟨h12, hm⟩).1⟩
    · rintro ⟨⟨h2, h3, h4, h1⟩, hax, ⟨h6, h7, h5, ⟨h8, h10⟩, h9, h11⟩, h12⟩
      exact ⟨_, ⟨hax, rfl⟩, h1, h2, h3, h4, h5, h6, h7, h8, h9, h10, h11, ((hq _).1 ⟨h12, rfl⟩).1⟩

/-- **C86 violated**: no floating-point config whatsoever yields a quantizer, whatever its values (`is_weight` reaches Keras' `Layer`).
-/
theorem C86_float_violated (kind : ℕ → ObjKind) (c : CfgObj) (ht : c.ty = some .float) : ¬ ∃ q, getQuantizer kind c = .ok q := by
  rintro ⟨q, hq⟩
  unfold getQuantizer at hq
  rw [ht] at hq
  simp only [bind_ok_iff (baseInit _ _), baseInit_ok] at hq
  obtain ⟨m, ⟨h, _⟩, _⟩ := hq
  exact h rfl

/-- A legal value of one keyword of a fixed-point config. -/
def Spec.LegalKw (kind : ℕ → ObjKind) (k : String) (v : Val) : Prop :=
  if k = "k0" then v.isInit kind = true ∨ FlagVal v
  else if k = "b0" then v.isInit kind = true ∨ ∃ q, NumVal v q ∧ 0 ≤ q
  else if k = "i0" ∨ k = "f0" then v.isInit kind = true ∨ ∃ q, NumVal v q
  else if k = "i_decay_speed" then SpeedVal kind v
  else if k = "round_mode" ∨ k = "overflow_mode" then ∃ s, v = .str s
  else if k = "bc" ∨ k = "ic" ∨ k = "fc" then v.isConstraintOrNone kind = true
  else if k = "br" ∨ k = "ir" ∨ k = "fr" then v.isRegularizerOrNone kind = true
  else if k = "homogeneous_axis" ∨ k = "heterogeneous_axis" then v ≠ .none
  else True

theorem legal_default (kind : ℕ → ObjKind) (hk1 : kind 1 = .regularizer) (t : QT) (p : Place) (hf : t ≠ .float) (k : String)
    (hax : k ≠ "homogeneous_axis" ∧ k ≠ "heterogeneous_axis") (v : Val) (hv : initDefs (t, p) k = some v) : LegalKw kind k v := by
  have hm : k ∈ keysOf t := (wf_initDefs t p k).1 (by rw [hv]; rfl)
  cases t with
  | float => exact absurd rfl hf
  | kbi =>
    simp only [keysOf, commonKeys, List.cons_append, List.nil_append, List.mem_cons, List.not_mem_nil, or_false] at hm
    rcases hm with rfl | rfl | rfl | rfl | rfl | rfl | rfl | rfl | rfl | rfl | rfl | rfl | rfl | rfl | rfl <;>
      cases p <;> (delta initDefs at hv; simp [Dict.ofList, initCommon, List.lookup] at hv; subst hv) <;>
      simp [LegalKw, FlagVal, NumVal, SpeedVal, WidthVal, Val.isConstraintOrNone, Val.isRegularizerOrNone, Val.isInit, hk1] at hax ⊢ <;>
      norm_num
  | kif =>
    simp only [keysOf, commonKeys, List.cons_append, List.nil_append, List.mem_cons, List.not_mem_nil, or_false] at hm
    rcases hm with rfl | rfl | rfl | rfl | rfl | rfl | rfl | rfl | rfl | rfl | rfl | rfl | rfl | rfl | rfl <;>
      cases p <;> (delta initDefs at hv; simp [Dict.ofList, initCommon, List.lookup] at hv; subst hv) <;>
      simp [LegalKw, FlagVal, NumVal, SpeedVal, WidthVal, Val.isConstraintOrNone, Val.isRegularizerOrNone, Val.isInit, hk1] at hax ⊢ <;>
      norm_num

theorem legal_entry {kind : ℕ → ObjKind} (hk1 : kind 1 = .regularizer) {a : CfgArgs} {p : Place} {t : QT} (hf : t ≠ .float)
    (hs : Selects initDq a p (.ty t)) (hn : Distinct a.kw) {c : CfgObj} (hc : mkConfig initDq initDefs a = .ok c)
    (hkw : ∀ k v, (k, v) ∈ a.kw → LegalKw kind k v) (k : String) (hk : k ∈ keysOf t)
    (hax : k ≠ "homogeneous_axis" ∧ k ≠ "heterogeneous_axis") : LegalKw kind k (c.conf.getV k) := by
  obtain ⟨_, _, _, _, _, h1, _, _, h4⟩ := C21_content initDq initDefs wf_initDefs a p t hs hn c hc
  by_cases hm : k ∈ a.kw.map Prod.fst
  · obtain ⟨⟨k', v⟩, hkv, rfl⟩ := List.mem_map.1 hm
    rw [Dict.getV, h1 _ _ hkv]
    exact hkw _ _ hkv
  · have e := h4 k hm (fun h => absurd h hax.2) (fun h => absurd h hax.1)
    have hs := (wf_initDefs t p k).2 hk
    obtain ⟨v, hv⟩ := Option.isSome_iff_exists.1 hs
    rw [Dict.getV, e, hv]
    exact legal_default kind hk1 t p hf k hax v hv

theorem numVal_width {kind : ℕ → ObjKind} {v : Val} {q : ℚ} (h : NumVal v q) : SpeedVal kind v := by
  rcases h with h | ⟨h, _⟩ | ⟨h, _⟩ <;> exact Or.inl (Or.inr (by simp [h]))

theorem numVal_unique {v : Val} {q q' : ℚ} (h : NumVal v q) (h' : NumVal v q') : q = q' := by
  rw [← asNum_ok] at h h'
  rw [h] at h'
  simpa using h'

/-- **C86 (partial: fixed point)**: under the defaults of the library, every accepted fixed-point argument list whose keywords have legal
values (and, for `kif`, a non-negative total `i0 + f0`) gives a config that yields a quantizer with the values of the config.  Missing:
floating point, where it is false, and an axis list given explicitly as `None`. -/
theorem C86_accepted_partial (kind : ℕ → ObjKind) (hk1 : kind 1 = .regularizer) (a : CfgArgs) (p : Place) (t : QT) (hf : t ≠ .float)
    (hs : Selects initDq a p (.ty t)) (hn : Distinct a.kw) (c : CfgObj) (hc : mkConfig initDq initDefs a = .ok c)
    (hkw : ∀ k v, (k, v) ∈ a.kw → LegalKw kind k v)
    (htot : t = .kif → ∀ i f, NumVal (c.conf.getV "i0") i → NumVal (c.conf.getV "f0") f → 0 ≤ i + f) :
    ∃ q, getQuantizer kind c = .ok q ∧ QuantizerOf c t q := by
  obtain ⟨hty, _, _, _, _, h1, h2, h3, h4⟩ := C21_content initDq initDefs wf_initDefs a p t hs hn c hc
  have hleg := legal_entry hk1 hf hs hn hc hkw
  have hax : AxesOk c.conf := by
    right
    have hnone : ∀ k : String, a.kw.get k = .none → (k = "homogeneous_axis" ∨ k = "heterogeneous_axis") → k ∉ a.kw.map Prod.fst := by
      intro k hg hk hm
      obtain ⟨⟨k', v⟩, hkv, rfl⟩ := List.mem_map.1 hm
      have hl := lookup_of_mem hn hkv
      have := hkw _ _ hkv
      rw [Kw.get, hl] at hg
      simp only [Option.getD_some] at hg
      rcases hk with rfl | rfl <;> simp [LegalKw, hg] at this
    have hval : ∀ k : String, a.kw.get k ≠ .none → c.conf k = some (a.kw.get k) := by
      intro k hg
      cases hl : a.kw.lookup k with
      | none => rw [Kw.get, hl] at hg; exact absurd rfl hg
      | some v => rw [h1 k v (lookup_mem hl), Kw.get, hl]; rfl
    by_cases g1 : a.kw.get "homogeneous_axis" = .none
    · by_cases g2 : a.kw.get "heterogeneous_axis" = .none
      · have e1 := h4 "homogeneous_axis" (hnone _ g1 (Or.inl rfl)) (by simp) (fun _ => g2)
        have e2 := h4 "heterogeneous_axis" (hnone _ g2 (Or.inr rfl)) (fun _ => g1) (by simp)
        rw [Dict.getV, Dict.getV, e1, e2]
        cases t with
        | float => exact absurd rfl hf
        | kbi => cases p <;> (delta initDefs; simp [Dict.ofList, initCommon, List.lookup])
        | kif => cases p <;> (delta initDefs; simp [Dict.ofList, initCommon, List.lookup])
      · rw [Dict.getV, Dict.getV, h3 g2, hval _ g2]
        simp [g2]
    · rw [Dict.getV, Dict.getV, h2 g1, hval _ g1]
      simp [g1]
  have hinit : ∀ v : Val, v.isInit kind = true → SpeedVal kind v := fun v h => Or.inl (Or.inl h)
  have hflag : ∀ v : Val, FlagVal v → SpeedVal kind v := fun v ⟨q, hq, _⟩ => numVal_width hq
  have hw : ∃ q, QuantizerOf c t q := ⟨⟨some t, _, fun k => if k ∈ namedParams t then c.conf k else none⟩, rfl, rfl, fun k => rfl⟩
  obtain ⟨q, hq⟩ := hw
  refine ⟨q, (C86_fixed_partial kind c t hty hf q).2 ⟨?_, hax, ?_, hq⟩, hq⟩
  · cases t with
    | float => exact absurd rfl hf
    | kbi =>
      have l1 := hleg "k0" (by decide) (by decide)
      have l2 := hleg "b0" (by decide) (by decide)
      have l3 := hleg "i0" (by decide) (by decide)
      simp only [LegalKw, if_true, String.reduceEq, if_false, or_true, true_or, or_false, false_or] at l1 l2 l3
      refine ⟨l1.elim (hinit _) (hflag _), l2.elim (hinit _) (fun ⟨x, hx, _⟩ => numVal_width hx),
        l3.elim (hinit _) (fun ⟨x, hx⟩ => numVal_width hx), fun h => ?_⟩
      have i1 := h "k0" (by simp)
      have i2 := h "b0" (by simp)
      rw [i1] at l1; rw [i2] at l2
      simp only [Bool.false_eq_true, false_or] at l1 l2
      exact ⟨l1, l2⟩
    | kif =>
      have l1 := hleg "k0" (by decide) (by decide)
      have l2 := hleg "i0" (by decide) (by decide)
      have l3 := hleg "f0" (by decide) (by decide)
      simp only [LegalKw, if_true, String.reduceEq, if_false, or_true, true_or, or_false, false_or] at l1 l2 l3
      refine ⟨l1.elim (hinit _) (hflag _), l2.elim (hinit _) (fun ⟨x, hx⟩ => numVal_width hx),
        l3.elim (hinit _) (fun ⟨x, hx⟩ => numVal_width hx), fun h => ?_⟩
      have i1 := h "k0" (by simp)
      have i2 := h "i0" (by simp)
      have i3 := h "f0" (by simp)
      rw [i1] at l1; rw [i2] at l2; rw [i3] at l3
      simp only [Bool.false_eq_true, false_or] at l1 l2 l3
      obtain ⟨x, hx⟩ := l2
      obtain ⟨y, hy⟩ := l3
      exact ⟨l1, x, y, hx, hy, htot rfl x y hx hy⟩
  · have l1 := hleg "round_mode" (by cases t <;> simp_all [keysOf]) (by decide)
    have l2 := hleg "overflow_mode" (by cases t <;> simp_all [keysOf]) (by decide)
    have l3 := hleg "i_decay_speed" (by cases t <;> simp_all [keysOf]) (by decide)
    simp only [LegalKw, String.reduceEq, if_true, if_false, or_true, true_or, or_false, false_or] at l1 l2 l3
    refine ⟨l1, l2, l3, fun x hx => ?_⟩
    cases t with
    | float => exact absurd rfl hf
    | kbi =>
      have m1 := hleg "bc" (by decide) (by decide)
      have m2 := hleg "br" (by decide) (by decide)
      have m3 := hleg "ic" (by decide) (by decide)
      have m4 := hleg "ir" (by decide) (by decide)
      simp only [LegalKw, String.reduceEq, if_true, if_false, or_true, true_or, or_false, false_or] at m1 m2 m3 m4
      rcases List.mem_cons.1 hx with rfl | hx
      · exact ⟨m1, m2⟩
      · obtain rfl := List.mem_singleton.1 hx
        exact ⟨m3, m4⟩
    | kif =>
      have m1 := hleg "fc" (by decide) (by decide)
      have m2 := hleg "fr" (by decide) (by decide)
      have m3 := hleg "ic" (by decide) (by decide)
      have m4 := hleg "ir" (by decide) (by decide)
      simp only [LegalKw, String.reduceEq, if_true, if_false, or_true, true_or, or_false, false_or] at m1 m2 m3 m4
      rcases List.mem_cons.1 hx with rfl | hx
      · exact ⟨m1, m2⟩
      · obtain rfl := List.mem_singleton.1 hx
        exact ⟨m3, m4⟩

/-- Kinds of objects in which object 1 is a regularizer (`MonoL1`). -/
def kindsExample : ℕ → ObjKind := fun n => if n = 1 then .regularizer else .other

/-- **C86 violated**: a config accepted with an axis list given as `None` and nothing else has no axes at all and yields no quantizer. -/
theorem C86_none_axis_violated (kind : ℕ → ObjKind) : ∃ c,
    mkConfig initDq initDefs ⟨.ty .kif, some .datalane, none, none, none, [("homogeneous_axis", .none)]⟩ = .ok c ∧
    ¬ ∃ q, getQuantizer kind c = .ok q := by
  refine ⟨_, rfl, ?_⟩
  rintro ⟨q, hq⟩
  rw [C86_fixed_partial kind _ .kif rfl (by decide)] at hq
  obtain ⟨_, hax, _⟩ := hq
  revert hax
  unfold AxesOk
  decide +kernel

/-- Concrete case of `C86_accepted_partial`: `QuantizerConfig('kbi', 'weight', b0=4, heterogeneous_axis=(-1,))`. -/
example : ∃ c q, mkConfig initDq initDefs ⟨.ty .kbi, some .weight, none, none, none, [("b0", .num 4), ("heterogeneous_axis", .axes [-1])]⟩
      = .ok c ∧ getQuantizer kindsExample c = .ok q ∧ q.args "b0" = some (.num 4) ∧ q.args "overflow_mode" = some (.str "SAT_SYM") ∧
      q.mapper = some (.own (.axes [-1]) .none) := by
  refine ⟨_, _, rfl, rfl, ?_⟩
  decide +kernel

/-- **C86**, two ways to make a quantizer: `Quantizer(q_type, place, **kw)` gives the config all and only the keywords a config knows, in
their order, and gives every other keyword to the layer; nothing is lost. -/
theorem C86_split_keywords (kw : Kw) :
    (∀ p, p ∈ (splitKw kw).1 ↔ p ∈ kw ∧ p.1 ∈ allQuantizerKeys) ∧ (∀ p, p ∈ (splitKw kw).2 ↔ p ∈ kw ∧ p.1 ∉ allQuantizerKeys) ∧
    (splitKw kw).1.Sublist kw ∧ (splitKw kw).2.Sublist kw ∧ ((splitKw kw).1 ++ (splitKw kw).2).Perm kw := by
  refine ⟨fun p => by simp [splitKw], fun p => by simp [splitKw], List.filter_sublist, List.filter_sublist, ?_⟩
  exact List.filter_append_perm _ kw

end HGQ
