import Verif.Model.Qkeras
import Verif.Lemmas.FixedPoint
import Verif.Spec.Grid
import Mathlib.Tactic

/-!
# C53 (quantized_bits as a callable), C68 (import side effects), C69 (keyword names), C70 (string round trip)
-/
namespace HGQ
open Spec

/-! ## C53 -/

/-- Sums of two powers of two: the maximum of the built quantizer is never that of the callable. -/
theorem two_pow_sum_ne (b i : ℤ) (hb : 1 ≤ b) : (2 : ℚ) ^ b - 2 ^ (-i) ≠ 2 ^ i - 2 ^ (-(b - i)) := by
  intro h
  have h0 : ∀ n : ℤ, (0 : ℚ) < 2 ^ n := two_zpow_pos
  have hmono : ∀ {m n : ℤ}, m ≤ n → (2 : ℚ) ^ m ≤ 2 ^ n := fun h => zpow_le_zpow_right₀ (by norm_num) h
  have hlt : ∀ {m n : ℤ}, m < n → (2 : ℚ) ^ m < 2 ^ n := fun h => zpow_lt_zpow_right₀ (by norm_num) h
  have hs : ∀ n : ℤ, (2 : ℚ) ^ (n + 1) = 2 * 2 ^ n := fun n => by rw [zpow_add_one₀ (by norm_num)]; ring
  have h' : (2 : ℚ) ^ b + 2 ^ (i - b) = 2 ^ i + 2 ^ (-i) := by
    have : -(b - i) = i - b := by ring
    rw [this] at h; linarith
  rcases le_or_gt 0 i with hi | hi
  · rcases lt_trichotomy b i with hbi | rfl | hbi
    · -- 1 ≤ b ≤ i - 1: both terms at most 2^(i-1)
      have e1 : (2 : ℚ) ^ b ≤ 2 ^ (i - 1) := hmono (by omega)
      have e2 : (2 : ℚ) ^ (i - b) ≤ 2 ^ (i - 1) := hmono (by omega)
      have e3 : (2 : ℚ) ^ i = 2 * 2 ^ (i - 1) := by rw [← hs]; congr 1; ring
      have := h0 (-i)
      linarith
    · have : (2 : ℚ) ^ (-b) < 2 ^ (b - b) := hlt (by omega)
      linarith
    · have e1 : (2 : ℚ) ^ (i + 1) ≤ 2 ^ b := hmono (by omega)
      rw [hs] at e1
      have e2 : (2 : ℚ) ^ (-i) ≤ 2 ^ i := hmono (by omega)
      have := h0 (i - b)
      linarith
  · rcases lt_trichotomy b (-i) with hbi | hbi | hbi
    · have e1 : (2 : ℚ) ^ b ≤ 2 ^ (-i - 1) := hmono (by omega)
      have e3 : (2 : ℚ) ^ (-i) = 2 * 2 ^ (-i - 1) := by rw [← hs]; congr 1; ring
      have e2 : (2 : ℚ) ^ (i - b) ≤ 2 ^ i := hmono (by omega)
      have := h0 (-i - 1)
      linarith
    · have : (2 : ℚ) ^ (i - b) < 2 ^ i := hlt (by omega)
      rw [← hbi] at h'
      linarith
    · have e1 : (2 : ℚ) ^ (-i + 1) ≤ 2 ^ b := hmono (by omega)
      rw [hs] at e1
      have e2 : (2 : ℚ) ^ i ≤ 2 ^ (-i) := hmono (by omega)
      have := h0 (i - b)
      linarith

theorem clip_hi (lo hi x : ℚ) (h : hi ≤ x) : clip lo hi x = hi := by
  simp only [clip]; exact min_eq_right (h.trans (le_max_left _ _))

/-- **C53 (partial).** If a noise factor of 1 and no scaler are given, calling a `quantized_bits` returns what the built quantizer
returns on every value that both of `(i, f) = (bits, integer)` and `(integer, bits - integer)` represent.
Missing: all other values and the default noise factor, see `C53_callable_violated`, `C53_default_violated`. -/
theorem C53_callable_partial (q : QBits) (hb : 1 ≤ q.bits) (hs : q.scaler = none) (hn : q.qnoise = some 1) (x : ℚ)
    (h1 : OnGrid q.integer x) (h2 : OnGrid (q.bits - q.integer) x)
    (r1 : qmin q.om q.keepNegative q.bits q.integer ≤ x ∧ x ≤ qmax q.bits q.integer)
    (r2 : qmin q.om q.keepNegative q.integer (q.bits - q.integer) ≤ x ∧ x ≤ qmax q.integer (q.bits - q.integer)) :
    q.call x = some ⟨x, x⟩ ∧ q.quantizer x = x := by
  have hr : ∀ f, OnGrid f x → roundAt .RND_CONV f x = x := fun f h => by
    obtain ⟨n, rfl⟩ := h
    unfold roundAt roundMant
    have : (n : ℚ) * 2 ^ (-f) * 2 ^ f = n := by rw [mul_assoc, ← zpow_add₀ (by norm_num)]; simp
    simp only [this]
    have : roundHalfEven (n : ℚ) = n := by simp [roundHalfEven]
    rw [this]
  have key : ∀ i f, OnGrid f x → qmin q.om q.keepNegative i f ≤ x → x ≤ qmax i f →
      stateless .RND_CONV q.om false q.keepNegative i f x = x := by
    intro i f hg hlo hhi
    have : stateless .RND_CONV q.om false q.keepNegative i f x = clip (qmin q.om q.keepNegative i f) (qmax i f) (roundAt .RND_CONV f x) := by
      unfold QBits.om; split <;> rfl
    rw [this, hr f hg]
    simp [clip, hlo, hhi]
  constructor
  · simp [QBits.call, hs, hn, key _ _ h1 r1.1 r1.2]
  · simp only [QBits.quantizer, quantizerCall, hs, hn, Flag.truthy, baseCall, key _ _ h2 r2.1 r2.2]
    have : kz q.keepNegative + q.integer + (q.bits - q.integer) > 0 := by
      have : 0 ≤ kz q.keepNegative := by unfold kz; split <;> norm_num
      omega
    rw [if_pos this]
    simp

example : (⟨true, 4, 1, false, none, some 1⟩ : QBits).call (3 / 2) = some ⟨3 / 2, 3 / 2⟩ ∧
    (⟨true, 4, 1, false, none, some 1⟩ : QBits).quantizer (3 / 2) = 3 / 2 := by decide +kernel

/-- **C53 violated** for every `quantized_bits` without scaler: on all large enough inputs the callable and the built quantizer
disagree (bits and integer are passed where integer and fractional bits are expected). -/
theorem C53_callable_violated (q : QBits) (hb : 1 ≤ q.bits) (hs : q.scaler = none) (hn : q.qnoise = some 1) :
    ∃ x0, ∀ x, x0 ≤ x → ∀ r, q.call x = some r → r.output ≠ q.quantizer x := by
  have hom : q.om ≠ .WRAP := by unfold QBits.om; split <;> simp
  refine ⟨max (qmax q.bits q.integer + 2 ^ (-q.integer)) (qmax q.integer (q.bits - q.integer) + 2 ^ (-(q.bits - q.integer))), ?_⟩
  intro x hx r hr
  have hx1 := (le_max_left _ _).trans hx
  have hx2 := (le_max_right _ _).trans hx
  have big : ∀ i f : ℤ, qmax i f + 2 ^ (-f) ≤ x → stateless .RND_CONV q.om false q.keepNegative i f x = qmax i f := by
    intro i f hx
    have h1 : qmax i f ≤ roundAt .RND_CONV f x := by
      unfold roundAt roundMant
      have hm := two_zpow_pos (-f)
      have : x * 2 ^ f - 1 ≤ (roundHalfEven (x * 2 ^ f) : ℚ) := by
        unfold roundHalfEven
        have := Int.lt_floor_add_one (x * 2 ^ f)
        simp only
        split_ifs <;> push_cast <;> linarith
      have h2 : (x * 2 ^ f - 1) * 2 ^ (-f) ≤ (roundHalfEven (x * 2 ^ f) : ℚ) * 2 ^ (-f) :=
        mul_le_mul_of_nonneg_right this hm.le
      have h3 : (x * 2 ^ f - 1) * 2 ^ (-f) = x - 2 ^ (-f) := by
        rw [sub_mul, mul_assoc, zpow_mul_neg]; ring
      simp only
      linarith
    have : stateless .RND_CONV q.om false q.keepNegative i f x = clip (qmin q.om q.keepNegative i f) (qmax i f) (roundAt .RND_CONV f x) := by
      unfold QBits.om; split <;> rfl
    rw [this, clip_hi _ _ _ h1]
  have hk : kz q.keepNegative + q.integer + (q.bits - q.integer) > 0 := by
    have : 0 ≤ kz q.keepNegative := by unfold kz; split <;> norm_num
    omega
  have e1 : r.output = qmax q.bits q.integer := by
    simp only [QBits.call, hs, hn, big _ _ hx1, ne_eq, not_true_eq_false, if_false, Option.some.injEq] at hr
    rw [← hr]
  have e2 : q.quantizer x = qmax q.integer (q.bits - q.integer) := by
    simp only [QBits.quantizer, quantizerCall, hs, hn, Flag.truthy, baseCall, big _ _ hx2, if_pos hk]
    simp
  rw [e1, e2]
  exact two_pow_sum_ne q.bits q.integer hb

/-- `quantized_bits(4, 1, qnoise_factor=1.0)` on 0.3: 0.5 instead of 0.25. -/
example : (⟨true, 4, 1, false, none, some 1⟩ : QBits).call (3 / 10) = some ⟨1 / 2, 3 / 10⟩ ∧
    (⟨true, 4, 1, false, none, some 1⟩ : QBits).quantizer (3 / 10) = 1 / 4 := by decide +kernel

/-- **C53 violated** by default: without a noise factor the call always raises, whatever the array. -/
theorem C53_default_violated (q : QBits) (hn : q.qnoise = none) (x : ℚ) : q.call x = none := by
  simp [QBits.call, hn]

/-- **C53 violated**: with a scaler other than 1 the caller's float32 array is divided in place, so every non-zero entry changes. -/
theorem C53_inplace_violated (q : QBits) (s : ℚ) (hs : q.scaler = some s) (h0 : 0 < s) (h1 : s ≠ 1) (x : ℚ) (hx : x ≠ 0) (r : QBitsResult)
    (h : q.call x = some r) : r.array ≠ x := by
  unfold QBits.call at h
  cases hq : q.qnoise with
  | none => simp [hq] at h
  | some n =>
    simp only [hq, hs, Option.some.injEq] at h
    rw [← h]
    simp only
    intro hc
    rw [div_eq_iff h0.ne'] at hc
    exact h1 (mul_left_cancel₀ hx (by linarith))

example : ∃ r, (⟨true, 4, 1, false, some 2, some 1⟩ : QBits).call 3 = some r ∧ r.array = 3 / 2 := ⟨_, rfl, by decide +kernel⟩

/-- **C53 (range properties).** For every `quantized_bits` without scaler the reported `min` and `max` are exactly those of the built
quantizer: its outputs lie between them and both are attained. -/
theorem C53_min_max_props (q : QBits) :
    q.maxProp = qmax q.integer (q.bits - q.integer) ∧ q.minProp = qmin q.om q.keepNegative q.integer (q.bits - q.integer) := by
  refine ⟨rfl, ?_⟩
  unfold QBits.minProp QBits.om QBits.maxProp qmin kq
  cases q.keepNegative <;> cases q.symmetric <;> simp

/-! ## C68 -/

/-- **C68 violated.** After `import qkeras.qlayers`, every HGQ layer has EBOPs disabled and its input and output quantizers are
enabled exactly if a config object is passed — whatever flags the user passes and whatever the global configuration says; with the
default configuration and no config objects this differs from what the same constructor call gave before the import. -/
theorem C68_import_violated (g : FlagGlobals) (a : FlagArgs) (iqConf oqConf : Bool) :
    resolveFlags g (qkerasFlags iqConf oqConf a) = ⟨iqConf, oqConf, false⟩ ∧
    resolveFlags ⟨true, false, true⟩ (qkerasFlags false false ⟨none, none, none⟩) ≠ resolveFlags ⟨true, false, true⟩ ⟨none, none, none⟩ := by
  exact ⟨rfl, by decide⟩

/-! ## C69 -/

/-- The quantizers of QKeras layers: long and short stem of their keyword names. -/
def Spec.stems : List (String × String) :=
  [("kernel", "k"), ("bias", "b"), ("output", "o"), ("input", "i"), ("exp_input", "exp_i"), ("exp_output", "exp_o"),
    ("inv_input", "inv_i"), ("inv_output", "inv_o")]

/-- Canonical keyword: `<long>_quantizer` and `<short>q` mean `<short>q_conf`, any other keyword means itself. -/
def Spec.canonName (k : String) : String :=
  match Spec.stems.find? (fun p => k = p.1 ++ "_quantizer" ∨ k = p.2 ++ "q") with
  | some p => p.2 ++ "q_conf"
  | none => k

theorem canonName_kwCanon (k : String) : Spec.canonName k = (kwCanon k).getD k := by
  unfold kwCanon
  split
  all_goals first
    | (subst_vars; decide +kernel)
    | skip
  have hnone : Spec.stems.find? (fun p => k = p.1 ++ "_quantizer" ∨ k = p.2 ++ "q") = none := by
    rw [List.find?_eq_none]
    intro p hp
    simp only [Spec.stems, List.mem_cons, List.not_mem_nil, or_false] at hp
    rcases hp with rfl | rfl | rfl | rfl | rfl | rfl | rfl | rfl <;>
      (simp only [decide_eq_true_eq]; rintro (h | h) <;> (revert h; assumption))
  unfold Spec.canonName
  rw [hnone]; rfl

theorem kwCanon_canon {k k' : String} (h : kwCanon k = some k') : kwCanon k' = none := by
  unfold kwCanon at h
  split at h <;> first | (injection h with h; subst h; decide) | simp at h

theorem kwCanon_ne {k k' : String} (h : kwCanon k = some k') : k ≠ k' := by
  rintro rfl
  rw [kwCanon_canon h] at h; simp at h

open Spec in
theorem renameKwargs_spec {V : Type} (r done d : List (String × V))
    (hp : d.Perm (done.map (fun p => (canonName p.1, p.2)) ++ r)) (hnd : ((done ++ r).map (·.1)).Nodup)
    (hdone : (done.map fun p => canonName p.1).Nodup) (hcn : ∀ p ∈ done, ∀ q ∈ r, kwCanon p.1 ≠ none → canonName p.1 ≠ q.1) :
    (∀ d', renameKwargs r d = some d' →
      ((done ++ r).map fun p => canonName p.1).Nodup ∧ d'.Perm ((done ++ r).map fun p => (canonName p.1, p.2))) ∧
    (((done ++ r).map fun p => canonName p.1).Nodup → ∃ d', renameKwargs r d = some d') := by
  induction r generalizing done d with
  | nil =>
    simp only [List.append_nil] at hp ⊢
    refine ⟨fun d' h => ?_, fun _ => ⟨d, rfl⟩⟩
    simp only [renameKwargs, Option.some.injEq] at h
    subst h
    exact ⟨hdone, hp⟩
  | cons kv r ih =>
    obtain ⟨k, v⟩ := kv
    have happ : done ++ (k, v) :: r = (done ++ [(k, v)]) ++ r := by simp
    rw [happ] at hnd ⊢
    have hkr : ∀ q ∈ r, q.1 ≠ k := by
      intro q hq he
      rw [List.map_append, List.nodup_append] at hnd
      exact hnd.2.2 k (by simp) q.1 (List.mem_map_of_mem hq) he.symm
    have hkd : ∀ q ∈ done, q.1 ≠ k := by
      intro q hq he
      rw [List.map_append, List.map_append, List.nodup_append, List.nodup_append] at hnd
      exact hnd.1.2.2 q.1 (List.mem_map_of_mem hq) k (by simp) he
    cases hc : kwCanon k with
    | none =>
      have hck : canonName k = k := by simp [canonName_kwCanon, hc]
      simp only [renameKwargs, hc]
      refine ih (done ++ [(k, v)]) d ?_ hnd ?_ ?_
      · simpa [hck] using hp
      · rw [List.map_append, List.nodup_append]
        refine ⟨hdone, by simp, ?_⟩
        intro a ha b hb
        simp only [List.map_cons, List.map_nil, List.mem_singleton] at hb
        subst hb
        obtain ⟨q, hq, rfl⟩ := List.mem_map.1 ha
        rw [hck]
        by_cases hq2 : kwCanon q.1 = none
        · have : canonName q.1 = q.1 := by simp [canonName_kwCanon, hq2]
          rw [this]; exact hkd q hq
        · exact hcn q hq (k, v) (List.mem_cons_self ..) hq2
      · intro p hp q hq hne
        rcases List.mem_append.1 hp with hp | hp
        · exact hcn p hp q (List.mem_cons_of_mem _ hq) hne
        · simp only [List.mem_singleton] at hp
          subst hp
          exact absurd hc hne
    | some k' =>
      have hck : canonName k = k' := by simp [canonName_kwCanon, hc]
      simp only [renameKwargs, hc]
      by_cases hcon : k' ∈ d.map (·.1)
      · have hcon' : (d.map (·.1)).contains k' = true := by simpa using hcon
        rw [if_pos hcon']
        refine ⟨by simp, fun hn => ?_⟩
        exfalso
        have : k' ∈ (done.map (fun p => (canonName p.1, p.2)) ++ (k, v) :: r).map (·.1) := by
          exact (hp.map (·.1)).mem_iff.1 hcon
        rw [List.map_append, List.map_append, List.nodup_append, List.nodup_append] at hn
        simp only [List.map_append, List.map_map, List.map_cons, List.mem_append, List.mem_cons] at this
        rcases this with h | rfl | h
        · obtain ⟨q, hq, he⟩ := List.mem_map.1 h
          exact hn.1.2.2 (canonName q.1) (List.mem_map.2 ⟨q, hq, rfl⟩) (canonName k) (by simp) (by rw [hck]; exact he)
        · exact kwCanon_ne hc rfl
        · obtain ⟨q, hq, rfl⟩ := List.mem_map.1 h
          have e : canonName q.1 = q.1 := by simp [canonName_kwCanon, kwCanon_canon hc]
          exact hn.2.2 (canonName k) (by simp) (canonName q.1) (List.mem_map.2 ⟨q, hq, rfl⟩) (by rw [e, hck])
      · have hcon' : ¬ ((d.map (·.1)).contains k' = true) := by simpa using hcon
        rw [if_neg hcon']
        have hnk : ∀ q ∈ done.map (fun p => (canonName p.1, p.2)) ++ (k, v) :: r, q.1 ≠ k' := by
          intro q hq he
          exact hcon ((hp.map (·.1)).mem_iff.2 (List.mem_map.2 ⟨q, hq, he⟩))
        refine ih (done ++ [(k, v)]) _ ?_ hnd ?_ ?_
        · -- the dictionary
          have e1 : (delKey k d).Perm (delKey k (done.map (fun p => (canonName p.1, p.2)) ++ (k, v) :: r)) := hp.filter _
          have e2 : delKey k (done.map (fun p => (canonName p.1, p.2)) ++ (k, v) :: r) = done.map (fun p => (canonName p.1, p.2)) ++ r := by
            unfold delKey
            rw [List.filter_append, List.filter_cons]
            simp only [ne_eq, not_true_eq_false, decide_false, Bool.false_eq_true, if_false]
            congr 1
            · refine List.filter_eq_self.2 fun q hq => ?_
              obtain ⟨p, hp', rfl⟩ := List.mem_map.1 hq
              simp only [decide_eq_true_eq]
              intro he
              by_cases hpn : kwCanon p.1 = none
              · have : canonName p.1 = p.1 := by simp [canonName_kwCanon, hpn]
                exact hkd p hp' (by rw [← this]; exact he)
              · exact hcn p hp' (k, v) (List.mem_cons_self ..) hpn he
            · exact List.filter_eq_self.2 fun q hq => by simpa using hkr q hq
          rw [e2] at e1
          simp only [List.map_append, List.map_cons, List.map_nil, hck]
          refine (e1.append_right _).trans ?_
          rw [List.append_assoc, List.append_assoc]
          exact List.Perm.append_left _ (List.perm_append_comm)
        · rw [List.map_append, List.nodup_append]
          refine ⟨hdone, by simp, ?_⟩
          intro a ha b hb
          simp only [List.map_cons, List.map_nil, List.mem_singleton] at hb
          subst hb
          obtain ⟨q, hq, rfl⟩ := List.mem_map.1 ha
          rw [hck]
          exact hnk (canonName q.1, q.2) (List.mem_append_left _ (List.mem_map.2 ⟨q, hq, rfl⟩))
        · intro p hp' q hq hne
          rcases List.mem_append.1 hp' with hp' | hp'
          · exact hcn p hp' q (List.mem_cons_of_mem _ hq) hne
          · simp only [List.mem_singleton] at hp'
            subst hp'
            rw [hck]
            exact Ne.symm (hnk q (by simp [hq]))

open Spec in
/-- **C69.** For every keyword dictionary: the QKeras constructor is accepted exactly if no two keywords mean the same parameter, and
then the layer receives exactly the given values under the canonical names. -/
theorem C69_keywords {V : Type} (kwargs : List (String × V)) (hnd : (kwargs.map (·.1)).Nodup) :
    ((renameKwargs kwargs kwargs).isSome ↔ (kwargs.map fun p => canonName p.1).Nodup) ∧
    ∀ d', renameKwargs kwargs kwargs = some d' → d'.Perm (kwargs.map fun p => (canonName p.1, p.2)) := by
  obtain ⟨h1, h2⟩ := renameKwargs_spec kwargs [] kwargs (by simp) (by simpa using hnd) (by simp) (by simp)
  simp only [List.nil_append] at h1 h2
  refine ⟨⟨fun h => ?_, fun h => ?_⟩, fun d' h => (h1 d' h).2⟩
  · obtain ⟨d', hd'⟩ := Option.isSome_iff_exists.1 h
    exact (h1 d' hd').1
  · obtain ⟨d', hd'⟩ := h2 h
    rw [hd']; rfl

example : renameKwargs [("units", 1), ("kernel_quantizer", 2), ("iq", 3)] [("units", 1), ("kernel_quantizer", 2), ("iq", 3)] =
      some [("units", 1), ("kq_conf", 2), ("iq_conf", 3)] ∧
    renameKwargs [("kq", 1), ("kernel_quantizer", 2)] [("kq", 1), ("kernel_quantizer", 2)] = none := by decide +kernel

/-! ## C70 -/

theorem splitChar_ne_nil (c : Char) (s : List Char) : splitChar c s ≠ [] := by
  induction s with
  | nil => simp [splitChar]
  | cons x r ih =>
    simp only [splitChar]
    split
    · simp
    · split <;> simp

theorem splitChar_append (c : Char) (a r : List Char) (ha : c ∉ a) : splitChar c (a ++ c :: r) = a :: splitChar c r := by
  induction a with
  | nil => simp [splitChar]
  | cons x a ih =>
    have hx : x ≠ c := fun h => ha (by simp [h])
    have ha' : c ∉ a := fun h => ha (by simp [h])
    simp only [List.cons_append, splitChar, if_neg hx, ih ha']

theorem splitChar_single (c : Char) (a : List Char) (ha : c ∉ a) : splitChar c a = [a] := by
  induction a with
  | nil => simp [splitChar]
  | cons x a ih =>
    have hx : x ≠ c := fun h => ha (by simp [h])
    have ha' : c ∉ a := fun h => ha (by simp [h])
    simp only [splitChar, if_neg hx, ih ha']

theorem dropWhile_none {p : Char → Bool} (s : List Char) (h : ∀ c ∈ s, p c = false) : s.dropWhile p = s := by
  cases s with
  | nil => rfl
  | cons a s => simp [List.dropWhile_cons, h a (List.mem_cons_self ..)]

theorem strip_blank (s : List Char) (h : ' ' ∉ s) : strip s = s ∧ strip (' ' :: s) = s := by
  have h1 : ∀ c ∈ s, decide (c = ' ') = false := fun c hc => by
    simp only [decide_eq_false_iff_not]
    rintro rfl
    exact h hc
  have h2 : ∀ c ∈ s.reverse, decide (c = ' ') = false := fun c hc => h1 c (by simpa using hc)
  constructor
  · simp only [strip, dropWhile_none s h1, dropWhile_none _ h2, List.reverse_reverse]
  · simp only [strip, List.dropWhile_cons, decide_true, if_true, dropWhile_none s h1, dropWhile_none _ h2, List.reverse_reverse]

theorem digit_notmem {c : Char} (hc : c.isDigit = false) (n : ℕ) : c ∉ Nat.toDigits 10 n := by
  intro h
  have := Nat.isDigit_of_mem_toDigits (by norm_num) (by norm_num) h
  rw [hc] at this; exact absurd this (by simp)

theorem toDigits_ne_nil (n : ℕ) : Nat.toDigits 10 n ≠ [] := by
  intro h
  have := Nat.length_toDigits_pos (b := 10) (n := n)
  rw [h] at this; simp at this

/-- Digits parse back to the number. -/
theorem parseVal_digits (pf : List Char → Option ℚ) (n : ℕ) : parseVal pf (Nat.toDigits 10 n) = some (.int n) := by
  have hne := toDigits_ne_nil n
  have hall : (Nat.toDigits 10 n).all Char.isDigit = true := by
    rw [List.all_eq_true]
    exact fun c hc => Nat.isDigit_of_mem_toDigits (by norm_num) (by norm_num) hc
  have hnot : ∀ s : List Char, (∃ c ∈ s, c.isDigit = false) → Nat.toDigits 10 n ≠ s := by
    rintro s ⟨c, hc, hd⟩ rfl
    exact digit_notmem hd n hc
  have hh : ∀ c : Char, c.isDigit = false → (Nat.toDigits 10 n).head? ≠ some c := by
    intro c hc h
    exact digit_notmem hc n (List.mem_of_mem_head? (by simp [h]))
  unfold parseVal
  rw [if_neg (hnot _ ⟨'N', by decide, by decide⟩), if_neg (hnot _ ⟨'T', by decide, by decide⟩),
    if_neg (hnot _ ⟨'F', by decide, by decide⟩), if_neg (fun h => hh '"' (by decide) h.1),
    if_neg (fun h => hh '\'' (by decide) h.1), if_pos ⟨hne, hall⟩, Nat.ofDigitChars_ten_toDigits]

theorem parseVal_bool (pf : List Char → Option ℚ) (b : Bool) : parseVal pf (showBool b) = some (.bool b) := by
  cases b <;> simp [parseVal, showBool] <;> decide

/-- What is required of Python's `str` and `float` for a scaler: no separator characters, not one of the literals, not all digits
(Python prints a decimal point or an exponent), and `float` reads it back. -/
def Spec.FloatText (pf : List Char → Option ℚ) (a : ℚ) (s : List Char) : Prop :=
  ',' ∉ s ∧ '=' ∉ s ∧ ' ' ∉ s ∧ s ≠ [] ∧ s ≠ "None".toList ∧ s ≠ "True".toList ∧ s ≠ "False".toList ∧
    s.head? ≠ some '"' ∧ s.head? ≠ some '\'' ∧ s.all Char.isDigit = false ∧ pf s = some a

theorem parseVal_float (pf : List Char → Option ℚ) (a : ℚ) (s : List Char) (h : Spec.FloatText pf a s) :
    parseVal pf s = some (.float a) := by
  obtain ⟨_, _, _, h4, h5, h6, h7, h8, h9, h10, h11⟩ := h
  unfold parseVal
  rw [if_neg h5, if_neg h6, if_neg h7, if_neg (fun h => h8 h.1), if_neg (fun h => h9 h.1), if_neg (by simp [h10]), h11]

/-- One keyword chunk. -/
theorem parseChunks_kw (pf : List Char → Option ℚ) (ended : Bool) (k v : List Char) (r : List (List Char)) (pv : PyVal)
    (as : List PyVal) (ks : List (List Char × PyVal)) (hk : ' ' ∉ k) (hk2 : '=' ∉ k) (hk3 : k ≠ []) (hv : ' ' ∉ v) (hv2 : '=' ∉ v)
    (hv3 : v ≠ []) (hpv : parseVal pf v = some pv) (hr : parseChunks pf true r = some (as, ks)) :
    parseChunks pf ended ((' ' :: k ++ '=' :: v) :: r) = some (as, (k, pv) :: ks) := by
  have hs : strip (' ' :: k ++ '=' :: v) = k ++ '=' :: v := by
    have := (strip_blank (k ++ '=' :: v) (by simp [hk, hv])).2
    simpa using this
  rw [parseChunks]
  simp only [hs]
  rw [if_neg (by simp), if_pos (by simp), splitChar_append '=' k v hk2, splitChar_single '=' v hv2]
  simp only [(strip_blank k hk).1, (strip_blank v hv).1, hk3, hv3, or_self, if_false, hpv, hr]

/-- One positional chunk, with or without a leading blank. -/
theorem parseChunks_pos (pf : List Char → Option ℚ) (v : List Char) (r : List (List Char)) (pv : PyVal)
    (as : List PyVal) (ks : List (List Char × PyVal)) (hv : ' ' ∉ v) (hv2 : '=' ∉ v)
    (hv3 : v ≠ []) (hpv : parseVal pf v = some pv) (hr : parseChunks pf false r = some (as, ks)) :
    parseChunks pf false (v :: r) = some (pv :: as, ks) ∧ parseChunks pf false ((' ' :: v) :: r) = some (pv :: as, ks) := by
  constructor <;> rw [parseChunks]
  · simp only [(strip_blank v hv).1]
    rw [if_neg hv3, if_neg hv2]
    simp [hpv, hr]
  · simp only [(strip_blank v hv).2]
    rw [if_neg hv3, if_neg hv2]
    simp [hpv, hr]

theorem showBool_chars (b : Bool) : ' ' ∉ showBool b ∧ ',' ∉ showBool b ∧ '=' ∉ showBool b ∧ showBool b ≠ [] := by
  cases b <;> decide

/-- The text of a non-negative `quantized_bits` splits at its commas. -/
theorem split_show (b i : ℕ) (sym kn st : Bool) (alpha : List Char) (a1 : ',' ∉ alpha) :
    splitChar ',' (Nat.toDigits 10 b ++ ", ".toList ++ Nat.toDigits 10 i ++ ", symmetric=".toList ++ showBool sym ++
      ", keep_negative=".toList ++ showBool kn ++ ", alpha=".toList ++ alpha ++ ", use_stochastic_rounding=".toList ++ showBool st) =
      [Nat.toDigits 10 b, ' ' :: Nat.toDigits 10 i, ' ' :: "symmetric".toList ++ '=' :: showBool sym,
        ' ' :: "keep_negative".toList ++ '=' :: showBool kn, ' ' :: "alpha".toList ++ '=' :: alpha,
        ' ' :: "use_stochastic_rounding".toList ++ '=' :: showBool st] := by
  have hd : ∀ n, ',' ∉ Nat.toDigits 10 n := fun n => digit_notmem (by decide) n
  have e : Nat.toDigits 10 b ++ ", ".toList ++ Nat.toDigits 10 i ++ ", symmetric=".toList ++ showBool sym ++
    ", keep_negative=".toList ++ showBool kn ++ ", alpha=".toList ++ alpha ++ ", use_stochastic_rounding=".toList ++ showBool st =
    Nat.toDigits 10 b ++ ',' :: ((' ' :: Nat.toDigits 10 i) ++ ',' :: ((' ' :: "symmetric".toList ++ '=' :: showBool sym) ++
      ',' :: ((' ' :: "keep_negative".toList ++ '=' :: showBool kn) ++ ',' :: ((' ' :: "alpha".toList ++ '=' :: alpha) ++
      ',' :: (' ' :: "use_stochastic_rounding".toList ++ '=' :: showBool st))))) := by
    simp
  rw [e, splitChar_append _ _ _ (hd b), splitChar_append _ _ _ (by simp [hd i]),
    splitChar_append _ _ _ (by simp [(showBool_chars sym).2.1]), splitChar_append _ _ _ (by simp [(showBool_chars kn).2.1]),
    splitChar_append _ _ _ (by simp [a1]), splitChar_single _ _ (by simp [(showBool_chars st).2.1])]

theorem parseArgs_show (pf : List Char → Option ℚ) (b i : ℕ) (sym kn st : Bool) (alpha : List Char) (pv : PyVal)
    (ha : ',' ∉ alpha ∧ '=' ∉ alpha ∧ ' ' ∉ alpha ∧ alpha ≠ []) (hpv : parseVal pf alpha = some pv) :
    parseArgs pf (Nat.toDigits 10 b ++ ", ".toList ++ Nat.toDigits 10 i ++ ", symmetric=".toList ++ showBool sym ++
      ", keep_negative=".toList ++ showBool kn ++ ", alpha=".toList ++ alpha ++ ", use_stochastic_rounding=".toList ++ showBool st) =
    some ([.int b, .int i], [("symmetric".toList, .bool sym), ("keep_negative".toList, .bool kn), ("alpha".toList, pv),
      ("use_stochastic_rounding".toList, .bool st)]) := by
  obtain ⟨a1, a2, a3, a4⟩ := ha
  have hd : ∀ n, '=' ∉ Nat.toDigits 10 n ∧ ' ' ∉ Nat.toDigits 10 n := fun n =>
    ⟨digit_notmem (by decide) n, digit_notmem (by decide) n⟩
  unfold parseArgs
  rw [split_show b i sym kn st alpha a1]
  have s6 := parseChunks_kw pf true "use_stochastic_rounding".toList (showBool st) [] (.bool st) [] [] (by decide) (by decide)
    (by decide) (showBool_chars st).1 (showBool_chars st).2.2.1 (showBool_chars st).2.2.2 (parseVal_bool pf st) rfl
  have s5 := parseChunks_kw pf true "alpha".toList alpha _ pv _ _ (by decide) (by decide) (by decide) a3 a2 a4 hpv s6
  have s4 := parseChunks_kw pf true "keep_negative".toList (showBool kn) _ (.bool kn) _ _ (by decide) (by decide) (by decide)
    (showBool_chars kn).1 (showBool_chars kn).2.2.1 (showBool_chars kn).2.2.2 (parseVal_bool pf kn) s5
  have s3 := parseChunks_kw pf false "symmetric".toList (showBool sym) _ (.bool sym) _ _ (by decide) (by decide) (by decide)
    (showBool_chars sym).1 (showBool_chars sym).2.2.1 (showBool_chars sym).2.2.2 (parseVal_bool pf sym) s4
  have s2 := (parseChunks_pos pf (Nat.toDigits 10 i) _ (.int i) _ _ (hd i).2 (hd i).1 (toDigits_ne_nil i) (parseVal_digits pf i) s3).2
  exact (parseChunks_pos pf (Nat.toDigits 10 b) _ (.int b) _ _ (hd b).2 (hd b).1 (toDigits_ne_nil b) (parseVal_digits pf b) s2).1

/-- A failing tail fails the whole parse, for a keyword chunk and for a positional one. -/
theorem parseChunks_tail_none (pf : List Char → Option ℚ) (ended : Bool) (c : List Char) (r : List (List Char))
    (h1 : parseChunks pf true r = none) (h2 : parseChunks pf false r = none) : parseChunks pf ended (c :: r) = none := by
  rw [parseChunks]
  simp only [h1, h2]
  split
  · rfl
  · split
    · split
      · split
        · rfl
        · split <;> simp_all
      · rfl
    · split
      · rfl
      · split <;> simp_all

theorem showInt_nat (n : ℕ) : showInt (n : ℤ) = Nat.toDigits 10 n := by
  simp [showInt]

/-- **C70 (partial).** For all widths `bits`, `integer ≥ 0`, flags and number `alpha` (as printed and read by Python): parsing the text of a
`quantized_bits` gives back exactly its arguments; without alpha it gives alpha = 1.  Missing: `integer < 0` (read as a float) and the
trainable kind (`C70_trainable_violated`). -/
theorem C70_string_partial (pf : List Char → Option ℚ) (showFloat : ℚ → List Char) (b i : ℕ) (sym kn st : Bool) (scaler : Option ℚ)
    (hf : ∀ a, scaler = some a → Spec.FloatText pf a (showFloat a)) :
    parseArgs pf (showQBits showFloat b i sym kn st false scaler) =
      some ([.int b, .int i], [("symmetric".toList, .bool sym), ("keep_negative".toList, .bool kn),
        ("alpha".toList, match scaler with | some a => .float a | none => .int 1), ("use_stochastic_rounding".toList, .bool st)]) := by
  unfold showQBits
  rw [showInt_nat, showInt_nat]
  cases scaler with
  | none =>
    have := parseArgs_show pf b i sym kn st "1".toList (.int 1) (by decide) (parseVal_digits pf 1)
    simpa using this
  | some a =>
    have h := hf a rfl
    have := parseArgs_show pf b i sym kn st (showFloat a) (.float a) ⟨h.1, h.2.1, h.2.2.1, h.2.2.2.1⟩ (parseVal_float pf a _ h)
    simpa using this

/-- **C70 violated** for `alpha='trainable_po2'`, whatever the widths and flags: the text cannot be parsed (Python's `float` rejects
the unquoted word). -/
theorem C70_trainable_violated (pf : List Char → Option ℚ) (showFloat : ℚ → List Char) (hpf : pf "trainable_po2".toList = none)
    (b i : ℕ) (sym kn st : Bool) : parseArgs pf (showQBits showFloat b i sym kn st true none) = none := by
  unfold showQBits parseArgs
  rw [showInt_nat, showInt_nat]
  simp only [if_true]
  rw [split_show b i sym kn st "trainable_po2".toList (by decide)]
  have hv : parseVal pf "trainable_po2".toList = none := by
    unfold parseVal
    rw [if_neg (by decide), if_neg (by decide), if_neg (by decide), if_neg (by decide), if_neg (by decide), if_neg (by decide), hpf]
  have s5 : ∀ e r, parseChunks pf e ((' ' :: "alpha".toList ++ '=' :: "trainable_po2".toList) :: r) = none := by
    intro e r
    have hs : strip (' ' :: "alpha".toList ++ '=' :: "trainable_po2".toList) = "alpha".toList ++ '=' :: "trainable_po2".toList := by
      decide +kernel
    rw [parseChunks]
    simp only [hs]
    rw [if_neg (by decide), if_pos (by decide), splitChar_append '=' _ _ (by decide), splitChar_single '=' _ (by decide)]
    simp only [(strip_blank "alpha".toList (by decide)).1, (strip_blank "trainable_po2".toList (by decide)).1, hv]
    split <;> rfl
  have s4 := fun e => parseChunks_tail_none pf e (' ' :: "keep_negative".toList ++ '=' :: showBool kn) _
    (s5 true [' ' :: "use_stochastic_rounding".toList ++ '=' :: showBool st])
    (s5 false [' ' :: "use_stochastic_rounding".toList ++ '=' :: showBool st])
  have s3 := fun e => parseChunks_tail_none pf e (' ' :: "symmetric".toList ++ '=' :: showBool sym) _ (s4 true) (s4 false)
  have s2 := fun e => parseChunks_tail_none pf e (' ' :: Nat.toDigits 10 i) _ (s3 true) (s3 false)
  exact parseChunks_tail_none pf false (Nat.toDigits 10 b) _ (s2 true) (s2 false)

example : parseArgs (fun s => if s = "0.5".toList then some (1 / 2) else none)
      (showQBits (fun _ => "0.5".toList) 8 2 true false false false (some (1 / 2))) =
    some ([.int 8, .int 2], [("symmetric".toList, .bool true), ("keep_negative".toList, .bool false),
      ("alpha".toList, .float (1 / 2)), ("use_stochastic_rounding".toList, .bool false)]) := by decide +kernel

end HGQ
