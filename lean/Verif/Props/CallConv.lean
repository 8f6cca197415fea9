import Verif.Model.CallConv
import Mathlib.Tactic

/-!
# C119: positional and keyword tensors
-/
namespace HGQ

namespace Spec

/-- `val p` is what the caller passed for parameter `p`: the positional value, the keyword value, or `None` if neither was given. -/
structure PassedAs (params : List String) (args : List TArg) (kw : List (String × TArg)) (val : String → TArg) : Prop where
  positional : ∀ (i : ℕ) p a, params[i]? = some p → args[i]? = some a → val p = a
  keyword : ∀ p a, (p, a) ∈ kw → val p = a
  omitted : ∀ p, (∀ i, params[i]? = some p → args.length ≤ i) → (∀ a, (p, a) ∉ kw) → val p = .none

/-- The Python call is well formed: not too many positional arguments, every keyword is a parameter not given positionally, none twice. -/
def WellFormed (params : List String) (args : List TArg) (kw : List (String × TArg)) : Prop :=
  args.length ≤ params.length ∧ (kw.map Prod.fst).Nodup ∧ ∀ k ∈ kw.map Prod.fst, k ∈ params.drop args.length

/-- One sample of a batch of this shape. -/
def OneSample (batch sample : List ℕ) : Prop := ∃ b rest, batch = b :: rest ∧ sample = 1 :: rest

/-- The shapes the EBOPs of a call must be computed from: those of one sample of the data tensors the layer works on.  Attention uses the query as value if no value is
given; the projecting layers know the shape of the projected value. -/
inductive Needs : CallLayer → (String → TArg) → List (List ℕ) → Prop
  | plain (val s t) : val "inputs" = .tensor s → OneSample s t → Needs .plain val [t]
  | masked (val s t) : val "inputs" = .tensor s → OneSample s t → Needs .masked val [t]
  | merge (val ss ts) : val "inputs" = .many ss → List.Forall₂ OneSample ss ts → Needs (.merge ss.length) val ts
  | selfAttention (val q t) : val "query" = .tensor q → OneSample q t → val "value" = .none → Needs .attention val [t, t]
  | attention (val q v t u) : val "query" = .tensor q → OneSample q t → val "value" = .tensor v → OneSample v u → Needs .attention val [t, u]
  | projected (val q t w) : val "query" = .tensor q → OneSample q t → Needs (.projected w) val [t, w]
  | recurrent (val s t) : val "sequences" = .tensor s → OneSample s t → Needs .recurrent val [t]

/-- Names of the parameters of the layers. -/
def paramNames : CallLayer → List String
  | .plain => ["inputs"]
  | .masked => ["inputs", "mask"]
  | .merge _ => ["inputs"]
  | .attention => ["query", "value", "key", "query_mask", "value_mask", "key_mask", "attention_mask"]
  | .projected _ => ["query", "value", "key", "query_mask", "value_mask", "key_mask", "attention_mask"]
  | .recurrent => ["sequences", "initial_state", "mask"]

/-- Ways of passing the arguments under which the EBOPs come out right. -/
def RightlyPassed : CallLayer → List TArg → List (List ℕ) → Prop
  | .attention, args, shapes => 1 ≤ args.length ∧ args.length ≤ 3 ∧ (∀ a ∈ args, ∃ s, a = .tensor s) ∧ (args.length = 1 → ∃ t, shapes = [t, t])
  | .projected _, args, _ => 1 ≤ args.length ∧ args.length ≤ 3 ∧ ∀ a ∈ args, ∃ s, a = .tensor s
  | _, args, _ => args.length = 1

end Spec
open Spec

theorem sampleShape_of {s t : List ℕ} (h : OneSample s t) : sampleShape s = t := by
  obtain ⟨b, rest, rfl, rfl⟩ := h; rfl

theorem map_sampleShape_of {ss ts : List (List ℕ)} (h : List.Forall₂ OneSample ss ts) : ss.map sampleShape = ts := by
  induction h with
  | nil => rfl
  | cons h _ ih => simp [sampleShape_of h, ih]

theorem params_paramNames (L : CallLayer) : L.call.params = paramNames L := by cases L <;> rfl

theorem trainCall_train (L : CallLayer) (cost : List (List ℕ) → ℚ) (args : List TArg) (kw : List (String × TArg)) (hw : WellFormed (paramNames L) args kw) :
    trainCall L true cost args kw = ((ebopsShapes args).bind (ebopsFrom L.ebops)).map fun s => some (cost s) := by
  unfold trainCall bindCall
  rw [params_paramNames, if_pos (show _ ∧ _ ∧ _ from hw)]
  rfl

theorem shape_iff (o : Option (List (List ℕ))) (shapes : List (List ℕ)) :
    (∀ cost : List (List ℕ) → ℚ, (o.map fun s => some (cost s)) = some (some (cost shapes))) ↔ o = some shapes := by
  constructor
  · intro h
    have h1 := h fun s => if s = shapes then 1 else 0
    cases o with
    | none => simp at h1
    | some s =>
      simp only [Option.map_some, if_true, Option.some.injEq] at h1
      by_cases hs : s = shapes
      · rw [hs]
      · rw [if_neg hs] at h1; norm_num at h1
  · rintro rfl cost; rfl

theorem mapM_none_of {a : TArg} {l : List TArg} (h : a ∈ l) (ha : ∀ s, a ≠ .tensor s) : l.mapM TArg.shape? = none := by
  induction l with
  | nil => simp at h
  | cons b l ih =>
    rw [List.mapM_cons]
    rcases List.mem_cons.1 h with rfl | h
    · cases a with
      | tensor s => exact absurd rfl (ha s)
      | none => rfl
      | many _ => rfl
    · rw [ih h]
      cases b <;> rfl

theorem ebopsShapes_tensors (q : List ℕ) (l : List (List ℕ)) : ebopsShapes ((q :: l).map .tensor) = some ((q :: l).map sampleShape) := by
  have : ∀ l : List (List ℕ), (l.map TArg.tensor).mapM TArg.shape? = some l := by
    intro l
    induction l with
    | nil => rfl
    | cons a l ih => rw [List.map_cons, List.mapM_cons, ih]; rfl
  unfold ebopsShapes
  rw [List.map_cons]
  simp only
  rw [← List.map_cons, this]
  rfl

theorem ebopsShapes_bad (q : List ℕ) (l : List TArg) {a : TArg} (h : a ∈ l) (ha : ∀ s, a ≠ .tensor s) : ebopsShapes (.tensor q :: l) = none := by
  unfold ebopsShapes
  simp only
  rw [mapM_none_of (List.mem_cons_of_mem _ h) ha]
  rfl

theorem exists_tensors {l : List TArg} (h : ∀ a ∈ l, ∃ s, a = .tensor s) : ∃ ss : List (List ℕ), l = ss.map .tensor := by
  induction l with
  | nil => exact ⟨[], rfl⟩
  | cons a l ih =>
    obtain ⟨s, rfl⟩ := h a (by simp)
    obtain ⟨ss, rfl⟩ := ih fun b hb => h b (by simp [hb])
    exact ⟨s :: ss, rfl⟩

theorem one_shape (q t : List ℕ) (args : List TArg) (ho : OneSample q t) (h0 : ∀ a, args[0]? = some a → .tensor q = a) :
    (ebopsShapes args).bind (ebopsFrom .one) = some [t] ↔ args.length = 1 := by
  cases args with
  | nil => simp [ebopsShapes]
  | cons a rest =>
    obtain rfl := h0 a (by simp)
    by_cases hall : ∀ a ∈ rest, ∃ s, a = TArg.tensor s
    · obtain ⟨ss, rfl⟩ := exists_tensors hall
      have := ebopsShapes_tensors q ss
      rw [List.map_cons] at this
      rw [this]
      cases ss with
      | nil => simp [ebopsFrom, sampleShape_of ho]
      | cons b ss => simp [ebopsFrom]
    · push Not at hall
      obtain ⟨a, ha, hs⟩ := hall
      rw [ebopsShapes_bad q rest ha hs]
      cases rest with
      | nil => simp at ha
      | cons b l => simp

theorem attention_shape (q t : List ℕ) (args : List TArg) (ho : OneSample q t) (shapes : List (List ℕ)) (sig : EbopsSig)
    (hsig : sig = .attention ∨ ∃ w, sig = .projected w) (h0 : ∀ a, args[0]? = some a → .tensor q = a) :
    (ebopsShapes args).bind (ebopsFrom sig) = some shapes ↔
      1 ≤ args.length ∧ args.length ≤ 3 ∧ (∀ a ∈ args, ∃ s, a = .tensor s) ∧
        ∀ ss : List (List ℕ), args = (q :: ss).map .tensor → ebopsFrom sig (t :: ss.map sampleShape) = some shapes := by
  cases args with
  | nil => simp [ebopsShapes]
  | cons a rest =>
    obtain rfl := h0 a (by simp)
    by_cases hall : ∀ a ∈ rest, ∃ s, a = TArg.tensor s
    · obtain ⟨ss, rfl⟩ := exists_tensors hall
      have h1 := ebopsShapes_tensors q ss
      rw [List.map_cons] at h1
      rw [h1, List.map_cons, sampleShape_of ho, Option.bind_some]
      constructor
      · intro h
        refine ⟨by simp, ?_, by simp, ?_⟩
        · rcases hsig with rfl | ⟨w, rfl⟩ <;>
          · match ss, h with
            | [], _ => simp
            | [_], _ => simp
            | [_, _], _ => simp
            | _ :: _ :: _ :: _, h => simp [ebopsFrom] at h
        · intro ss' hss
          have : ss = ss' := by
            have := (List.cons.inj hss).2
            exact List.map_injective_iff.2 (fun a b h => by injection h) this
          rw [← this]; exact h
      · rintro ⟨_, _, _, h⟩
        exact h ss rfl
    · push Not at hall
      obtain ⟨a, ha, hs⟩ := hall
      rw [ebopsShapes_bad q rest ha hs]
      simp only [Option.bind_none, reduceCtorEq, false_iff, not_and]
      intro _ _ h
      obtain ⟨s, h⟩ := h a (List.mem_cons_of_mem _ ha)
      exact absurd h (hs s)

/-- **C119, exactly.**  For every layer and every well-formed call that gives the layer its data: whatever the cost function, a training call reports the EBOPs of these
data if and only if the arguments were passed in one of the right ways. -/
theorem C119_iff (L : CallLayer) (args : List TArg) (kw : List (String × TArg)) (val : String → TArg) (shapes : List (List ℕ)) (hw : WellFormed (paramNames L) args kw)
    (hv : PassedAs (paramNames L) args kw val) (hs : Needs L val shapes) :
    (∀ cost, trainCall L true cost args kw = some (some (cost shapes))) ↔ RightlyPassed L args shapes := by
  have h1 : (∀ cost, trainCall L true cost args kw = some (some (cost shapes))) ↔ (ebopsShapes args).bind (ebopsFrom L.ebops) = some shapes := by
    rw [← shape_iff]
    exact forall_congr' fun cost => by rw [trainCall_train L cost args kw hw]
  rw [h1]
  have h0 : ∀ p, (paramNames L)[0]? = some p → ∀ a, args[0]? = some a → val p = a := fun p hp a ha => hv.positional 0 p a hp ha
  cases hs with
  | plain _ s t hq ho => exact one_shape s t args ho fun a ha => by rw [← hq]; exact h0 _ rfl a ha
  | masked _ s t hq ho => exact one_shape s t args ho fun a ha => by rw [← hq]; exact h0 _ rfl a ha
  | recurrent _ s t hq ho => exact one_shape s t args ho fun a ha => by rw [← hq]; exact h0 _ rfl a ha
  | merge _ ss _ hq ho =>
    have hlen : args.length ≤ 1 := hw.1
    match args, hlen with
    | [], _ => simp [ebopsShapes, RightlyPassed]
    | [a], _ =>
      obtain rfl : TArg.many ss = a := by rw [← hq]; exact h0 _ rfl a rfl
      simp only [ebopsShapes, Option.bind_some, CallLayer.ebops, ebopsFrom, RightlyPassed, List.length_singleton, iff_true]
      rw [← map_sampleShape_of ho]
      simp
  | selfAttention _ q t hq ho hval =>
    rw [show (CallLayer.attention).ebops = .attention from rfl,
      attention_shape q t args ho _ .attention (Or.inl rfl) (fun a ha => by rw [← hq]; exact h0 _ rfl a ha)]
    simp only [RightlyPassed]
    refine and_congr_right fun hl1 => and_congr_right fun hl3 => and_congr_right fun hall => ?_
    constructor
    · intro _ _; exact ⟨t, rfl⟩
    · intro _ ss hss
      cases ss with
      | nil => rfl
      | cons v ss =>
        have := hv.positional 1 "value" (.tensor v) rfl (by rw [hss]; rfl)
        rw [hval] at this
        simp at this
  | attention _ q v t u hq ho hval hov =>
    rw [show (CallLayer.attention).ebops = .attention from rfl,
      attention_shape q t args ho _ .attention (Or.inl rfl) (fun a ha => by rw [← hq]; exact h0 _ rfl a ha)]
    simp only [RightlyPassed]
    refine and_congr_right fun hl1 => and_congr_right fun hl3 => and_congr_right fun hall => ?_
    obtain ⟨tl, rfl⟩ := exists_tensors hall
    cases tl with
    | nil => simp at hl1
    | cons a tl =>
      have ha : TArg.tensor q = .tensor a := by rw [← hq]; exact h0 _ rfl _ rfl
      obtain rfl : q = a := by injection ha
      have huniq : ∀ ss : List (List ℕ), (q :: tl).map TArg.tensor = (q :: ss).map .tensor → ss = tl := by
        intro ss hss
        have := List.map_injective_iff.2 (fun a b (h : TArg.tensor a = .tensor b) => by injection h) hss
        exact ((List.cons.inj this).2).symm
      cases tl with
      | nil =>
        constructor
        · intro h _
          have := h [] rfl
          simp only [List.map_nil, ebopsFrom, Option.some.injEq, List.cons.injEq, and_true, true_and] at this
          exact ⟨t, by rw [this]⟩
        · intro h ss hss
          obtain ⟨t', ht'⟩ := h (by simp)
          rw [huniq ss hss]
          simp only [List.cons.injEq, and_true] at ht'
          obtain ⟨rfl, rfl⟩ := ht'
          rfl
      | cons b tl =>
        refine iff_of_true ?_ (by simp)
        intro ss hss
        rw [huniq ss hss]
        have hb := hv.positional 1 "value" (.tensor b) rfl rfl
        rw [hval] at hb
        obtain rfl : v = b := by injection hb
        rw [List.map_cons, sampleShape_of hov]
        match tl, hl3 with
        | [], _ => rfl
        | [_], _ => rfl
        | _ :: _ :: _, h => simp at h; omega
  | projected _ q t w hq ho =>
    rw [show (CallLayer.projected w).ebops = .projected w from rfl,
      attention_shape q t args ho _ (.projected w) (Or.inr ⟨w, rfl⟩) (fun a ha => by rw [← hq]; exact h0 _ rfl a ha)]
    simp only [RightlyPassed]
    refine and_congr_right fun hl1 => ?_
    constructor
    · rintro ⟨a, b, _⟩; exact ⟨a, b⟩
    · rintro ⟨hl3, hall⟩
      refine ⟨hl3, hall, fun ss hss => ?_⟩
      rw [hss] at hl3
      match ss, hl3 with
      | [], _ => rfl
      | [_], _ => rfl
      | [_, _], _ => rfl
      | _ :: _ :: _ :: _, h => simp at h; omega

/-- **C119 (partial).**  Data tensors passed positionally, everything else by keyword: the EBOPs are right; and outside training every well-formed call works. -/
theorem C119_positional_partial (L : CallLayer) (args : List TArg) (kw : List (String × TArg)) (val : String → TArg) (shapes : List (List ℕ))
    (hw : WellFormed (paramNames L) args kw) (hv : PassedAs (paramNames L) args kw val) (hs : Needs L val shapes) (cost : List (List ℕ) → ℚ) :
    trainCall L false cost args kw = some none ∧
    (args.length = 1 → L ≠ .attention → trainCall L true cost args kw = some (some (cost shapes))) ∧
    (∀ q v, L = .attention → args = [.tensor q, .tensor v] → trainCall L true cost args kw = some (some (cost shapes))) ∧
    (∀ q, L = .attention → args = [.tensor q] → (∀ a, ("value", a) ∉ kw) → trainCall L true cost args kw = some (some (cost shapes))) := by
  have hiff := C119_iff L args kw val shapes hw hv hs
  refine ⟨?_, ?_, ?_, ?_⟩
  · unfold trainCall bindCall
    rw [params_paramNames, if_pos (show _ ∧ _ ∧ _ from hw)]
    rfl
  · intro hl hL
    refine hiff.2 ?_ cost
    cases hs with
    | plain => exact hl
    | masked => exact hl
    | merge => exact hl
    | recurrent => exact hl
    | selfAttention => exact absurd rfl hL
    | attention => exact absurd rfl hL
    | projected _ q t w hq =>
      refine ⟨hl.ge, by omega, ?_⟩
      intro a ha
      obtain ⟨b, rfl⟩ := List.length_eq_one_iff.1 hl
      have := hv.positional 0 "query" b rfl rfl
      rw [hq] at this
      exact ⟨q, by rw [List.mem_singleton.1 ha, this]⟩
  · rintro q v rfl rfl
    exact hiff.2 ⟨by simp, by simp, by simp, by simp⟩ cost
  · rintro q rfl rfl hno
    refine hiff.2 ⟨by simp, by simp, by simp, fun _ => ?_⟩ cost
    cases hs with
    | selfAttention _ _ t => exact ⟨t, rfl⟩
    | attention _ q v t u _ _ hval _ =>
      have := hv.omitted "value" (fun i hi => by
        match i, hi with
        | 0, hi => simp [paramNames] at hi
        | i + 1, _ => simp) hno
      rw [hval] at this
      simp at this

/-- **C119 violated:** a call that passes all its tensors by keyword works outside training and raises in training, for every layer. -/
theorem C119_keyword_violated (L : CallLayer) (kw : List (String × TArg)) (cost : List (List ℕ) → ℚ) (hw : WellFormed (paramNames L) [] kw) :
    trainCall L false cost [] kw = some none ∧ trainCall L true cost [] kw = none := by
  refine ⟨?_, ?_⟩
  · unfold trainCall bindCall
    rw [params_paramNames, if_pos (show _ ∧ _ ∧ _ from hw)]
    rfl
  · rw [trainCall_train L cost [] kw hw]; rfl

/-- **C119 violated (attention):** with the value passed by keyword the cost is computed as if the value had the shape of the query. -/
theorem C119_value_keyword_violated (q v : List ℕ) (cost : List (List ℕ) → ℚ) :
    trainCall .attention true cost [.tensor q] [("value", .tensor v)] = some (some (cost [1 :: q.drop 1, 1 :: q.drop 1])) ∧
    trainCall .attention true cost [.tensor q, .tensor v] [] = some (some (cost [1 :: q.drop 1, 1 :: v.drop 1])) := by
  constructor <;> rfl

/-- **C119 violated (None, masks, states):** a positional `None`, a positional mask or a positional initial state make a training call raise. -/
theorem C119_positional_violated (cost : List (List ℕ) → ℚ) :
    (∀ q v, trainCall .attention false cost [.tensor q, .none, .tensor v] [] = some none ∧ trainCall .attention true cost [.tensor q, .none, .tensor v] [] = none) ∧
    (∀ q v k m, trainCall .attention false cost [.tensor q, .tensor v, .tensor k, .tensor m] [] = some none ∧
      trainCall .attention true cost [.tensor q, .tensor v, .tensor k, .tensor m] [] = none) ∧
    (∀ x h, trainCall .recurrent false cost [.tensor x, .many h] [] = some none ∧ trainCall .recurrent true cost [.tensor x, .many h] [] = none) ∧
    (∀ x h, trainCall .recurrent false cost [.tensor x, .tensor h] [] = some none ∧ trainCall .recurrent true cost [.tensor x, .tensor h] [] = none) := by
  refine ⟨fun q v => ⟨rfl, rfl⟩, fun q v k m => ⟨rfl, rfl⟩, fun x h => ⟨rfl, rfl⟩, fun x h => ⟨rfl, rfl⟩⟩

/-- Cross attention on batches of 32, query length 5, value length 7, mask by keyword: hypotheses hold, the EBOPs are right. -/
example : WellFormed (paramNames .attention) [.tensor [32, 5, 4], .tensor [32, 7, 4]] [("attention_mask", .tensor [32, 5, 7])] ∧
    Needs .attention (fun p => if p = "query" then .tensor [32, 5, 4] else if p = "value" then .tensor [32, 7, 4] else if p = "attention_mask" then .tensor [32, 5, 7] else .none)
      [[1, 5, 4], [1, 7, 4]] := by
  refine ⟨by unfold WellFormed; decide +kernel, ?_⟩
  exact Needs.attention _ [32, 5, 4] [32, 7, 4] _ _ (by decide +kernel) ⟨_, _, rfl, rfl⟩ (by decide +kernel) ⟨_, _, rfl, rfl⟩

end HGQ
