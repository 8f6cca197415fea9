import Verif.Model.CtorArgs
import Mathlib.Tactic

/-! # C121: constructor arguments arrive -/
namespace HGQ

namespace Spec
variable {V : Type}

/-- The constructor uses the name `n` itself and does not hand it on. -/
def Keeps (c : Ctor V) (n : String) : Prop :=
  n ∈ c.pops ∨ ((∃ p ∈ c.params, p.1 = n) ∨ ∃ p ∈ c.popFirst, p.1 = n) ∧ ∃ a ∈ c.skip, SkipAlt.matches n a = true

/-- The constructor decides the value of `n` itself. -/
def Sets (c : Ctor V) (n : String) : Prop := (∃ p ∈ c.fixed, p.1 = n) ∨ ∃ p ∈ c.overwrite, p.1 = n

/-- The constructor names `n` in its signature (or pops it from the keyword arguments). -/
def Names (c : Ctor V) (n : String) : Prop := (∃ p ∈ c.params, p.1 = n) ∨ ∃ p ∈ c.popFirst, p.1 = n

/-- A constructor as written in this library: `self` is skipped, parameter names are distinct ordinary names. -/
structure CtorOk (c : Ctor V) : Prop where
  skipsSelf : ∃ a ∈ c.skip, SkipAlt.matches "self" a = true
  ordinary : ∀ n, Names c n → n ≠ "self" ∧ isDunder n = false
  disjoint : ∀ p ∈ c.params, ∀ q ∈ c.popFirst, p.1 ≠ q.1
  sets : ∀ n, Sets c n → n ≠ "self" ∧ isDunder n = false
end Spec
open Spec

variable {V : Type}

theorem ctor_lookup_filter_key (l : List (String × V)) (f : String → Bool) (n : String) :
    (l.filter fun p => f p.1).lookup n = if f n then l.lookup n else none := by
  induction l with
  | nil => simp
  | cons p l ih =>
    obtain ⟨k, v⟩ := p
    by_cases hk : n = k
    · subst hk
      by_cases hf : f n = true
      · simp [List.filter_cons, hf]
      · have hf' : f n = false := by simpa using hf
        rw [List.filter_cons, if_neg (by simpa using hf), ih, hf']; simp
    · have hkb : (n == k) = false := by simpa using hk
      by_cases hf : f k = true
      · rw [List.filter_cons, if_pos (by simpa using hf)]
        simp only [List.lookup_cons, hkb, ih]
      · rw [List.filter_cons, if_neg (by simpa using hf), ih]
        simp only [List.lookup_cons, hkb]

theorem ctor_lookup_isSome_iff (l : List (String × V)) (n : String) : (l.lookup n).isSome = true ↔ ∃ p ∈ l, p.1 = n := by
  induction l with
  | nil => simp
  | cons p l ih =>
    obtain ⟨k, v⟩ := p
    by_cases hk : n = k
    · subst hk; simp
    · have hkb : (n == k) = false := by simpa using hk
      simp only [List.lookup_cons, hkb, ih, List.mem_cons, exists_eq_or_imp]
      constructor
      · exact Or.inr
      · rintro (h | h)
        · exact absurd h.symm hk
        · exact h

theorem ctor_lookup_none_iff (l : List (String × V)) (n : String) : l.lookup n = none ↔ ∀ p ∈ l, p.1 ≠ n := by
  rw [← Option.not_isSome_iff_eq_none, ctor_lookup_isSome_iff]
  push Not
  rfl

theorem lookup_named (ps : List (String × Option V)) (d : List (String × V)) (h : ∀ p ∈ ps, (Ctor.param d p).isNone = false) (n : String) :
    (ps.filterMap fun p => (Ctor.param d p).map fun v => (p.1, v)).lookup n = (ps.lookup n).bind fun dv => (d.lookup n).or dv := by
  induction ps with
  | nil => simp
  | cons p ps ih =>
    obtain ⟨k, dv⟩ := p
    have h0 := h (k, dv) (by simp)
    cases hv : Ctor.param d (k, dv) with
    | none => rw [hv] at h0; simp at h0
    | some v =>
      rw [List.filterMap_cons]
      simp only [hv, Option.map_some]
      by_cases hk : n = k
      · subst hk
        simp only [List.lookup_cons_self, Option.bind_some]
        simp only [Ctor.param] at hv
        exact hv.symm
      · have hkb : (n == k) = false := by simpa using hk
        simp only [List.lookup_cons, hkb]
        exact ih fun p hp => h p (List.mem_cons_of_mem _ hp)

theorem ctor_lookup_map_val {W : Type} (l : List (String × V)) (g : String × V → W) (n : String) :
    ((l.map fun p => (p.1, g p)).lookup n).isSome = (l.lookup n).isSome := by
  induction l with
  | nil => rfl
  | cons p l ih =>
    obtain ⟨k, v⟩ := p
    by_cases hk : n = k
    · subst hk; simp
    · have hkb : (n == k) = false := by simpa using hk
      simp only [List.map_cons, List.lookup_cons, hkb, ih]

/-- What a successful constructor call hands to its parent, for an ordinary name it neither keeps nor sets. -/
theorem call_forwards (selfV clsV : V) (c : Ctor V) (hc : CtorOk c) (d r : List (String × V)) (h : c.call selfV clsV d = some r) (n : String)
    (hn : isDunder n = false) (hself : n ≠ "self") (hk : ¬ Keeps c n) (hs : ¬ Sets c n) :
    (∀ v, d.lookup n = some v → r.lookup n = some v) ∧
    (d.lookup n = none → (r.lookup n).isSome = true → Names c n) ∧
    (d.lookup n = none → ∀ dv, c.params.lookup n = some (some dv) → r.lookup n = some dv) := by
  unfold Ctor.call at h
  simp only at h
  split_ifs at h with h1 h2
  simp only [Option.some.injEq] at h
  subst h
  simp only [Bool.or_eq_true, List.any_eq_true, Bool.and_eq_true, not_or, not_exists] at h1
  obtain ⟨⟨hnoself, hparams⟩, -⟩ := h1
  have hparams' : ∀ p ∈ c.params, (Ctor.param d p).isNone = false := fun p hp => by
    have := hparams p
    simp only [hp, true_and] at this
    rw [← Bool.not_eq_true]; exact this
  have hfix : c.fixed.lookup n = none := by
    rw [ctor_lookup_none_iff]; intro p hp he; exact hs (Or.inl ⟨p, hp, he⟩)
  have hov : c.overwrite.lookup n = none := by
    rw [ctor_lookup_none_iff]; intro p hp he; exact hs (Or.inr ⟨p, hp, he⟩)
  have hpops : c.pops.contains n = false := by
    rw [← Bool.not_eq_true, List.contains_iff_mem]
    exact fun hp => hk (Or.inl hp)
  have hdun : ∀ m, m = n → isDunder m = false := fun m hm => hm ▸ hn
  have e0 : ∀ l : List (String × V), (l.filter fun p => !c.pops.contains p.1).lookup n = l.lookup n := by
    intro l; rw [ctor_lookup_filter_key l (fun k => !c.pops.contains k)]; simp only [hpops, Bool.not_false, if_true]
  have e1 : ∀ l : List (String × V), (l.filter fun p => !isDunder p.1).lookup n = l.lookup n := by
    intro l; rw [ctor_lookup_filter_key l (fun k => !isDunder k)]; simp only [hn, Bool.not_false, if_true]
  have hcls : n ≠ "__class__" := by rintro rfl; exact absurd hn (by decide)
  simp only [List.lookup_append, hfix, hov, Option.none_or, e0, gatherVars, e1]
  have hfilt := ctor_lookup_filter_key (("self", selfV) :: (c.params.filterMap fun p => (Ctor.param d p).map fun v => (p.1, v)) ++
      (c.popFirst.map fun p => (p.1, ((d.filter fun p => !(c.params.map Prod.fst).contains p.1).lookup p.1).getD p.2)) ++ [("__class__", clsV)])
      (fun k => !c.skip.any (SkipAlt.matches k)) n
  rw [hfilt]
  have hsb : (n == "self") = false := by simpa using hself
  have hcb : (n == "__class__") = false := by simpa using hcls
  have hrest : (d.filter fun p => !(c.params.map Prod.fst).contains p.1).lookup n = if (c.params.map Prod.fst).contains n then none else d.lookup n := by
    rw [ctor_lookup_filter_key d (fun k => !(c.params.map Prod.fst).contains k)]
    by_cases hx : (c.params.map Prod.fst).contains n = true
    · simp only [hx, Bool.not_true, Bool.false_eq_true, if_false, if_true]
    · have hx' : (c.params.map Prod.fst).contains n = false := by simpa using hx
      simp only [hx', Bool.not_false, Bool.false_eq_true, if_false, if_true]
  have hrest2 := ctor_lookup_filter_key (d.filter fun p => !(c.params.map Prod.fst).contains p.1) (fun k => !(c.popFirst.map Prod.fst).contains k) n
  rw [hrest2, hrest]
  simp only [List.cons_append, List.lookup_cons, hsb, List.lookup_append, lookup_named c.params d hparams', hcb, List.lookup_nil, Option.or_none]
  by_cases hp : ∃ p ∈ c.params, p.1 = n
  · -- a named parameter that is not kept
    have hskip : (c.skip.any (SkipAlt.matches n)) = false := by
      rw [← Bool.not_eq_true, List.any_eq_true]
      exact fun ⟨a, ha, hm⟩ => hk (Or.inr ⟨Or.inl hp, a, ha, hm⟩)
    have hps : (c.params.lookup n).isSome = true := by
      have : ∀ (ps : List (String × Option V)), (∃ p ∈ ps, p.1 = n) → (ps.lookup n).isSome = true := fun ps h => (ctor_lookup_isSome_iff ps n).2 h
      exact this _ hp
    obtain ⟨dv, hdv⟩ := Option.isSome_iff_exists.1 hps
    refine ⟨fun v hv => ?_, fun _ _ => Or.inl hp, fun hnone dv' hd' => ?_⟩
    · simp only [hskip, Bool.not_false, if_true, hdv, Option.bind_some, hv, Option.some_or]
    · simp only [hskip, Bool.not_false, if_true, hd', Option.bind_some, hnone, Option.none_or, Option.some_or]
  · have hps : c.params.lookup n = none := by
      have : ∀ (ps : List (String × Option V)), ¬ (∃ p ∈ ps, p.1 = n) → ps.lookup n = none := by
        intro ps h; rw [ctor_lookup_none_iff]; push Not at h; exact h
      exact this _ hp
    have hnc : (c.params.map Prod.fst).contains n = false := by
      rw [← Bool.not_eq_true, List.contains_iff_mem]
      intro hm
      obtain ⟨p, hp1, hp2⟩ := List.mem_map.1 hm
      exact hp ⟨p, hp1, hp2⟩
    by_cases hf : ∃ p ∈ c.popFirst, p.1 = n
    · have hskip : (c.skip.any (SkipAlt.matches n)) = false := by
        rw [← Bool.not_eq_true, List.any_eq_true]
        exact fun ⟨a, ha, hm⟩ => hk (Or.inr ⟨Or.inr hf, a, ha, hm⟩)
      refine ⟨fun v hv => ?_, fun _ _ => Or.inr hf, fun _ dv hd' => by rw [hps] at hd'; simp at hd'⟩
      have hlook : ∀ l : List (String × V), (∃ p ∈ l, p.1 = n) →
          (l.map fun p => (p.1, ((d.filter fun p => !(c.params.map Prod.fst).contains p.1).lookup p.1).getD p.2)).lookup n = some v := by
        intro l hl
        induction l with
        | nil => simp at hl
        | cons p l ih =>
          obtain ⟨k, w⟩ := p
          by_cases hkk : n = k
          · subst hkk
            simp only [List.map_cons, List.lookup_cons_self, hrest, hnc, Bool.false_eq_true, if_false, hv, Option.getD_some]
          · have hkb : (n == k) = false := by simpa using hkk
            simp only [List.map_cons, List.lookup_cons, hkb]
            refine ih ?_
            obtain ⟨p, hp1, hp2⟩ := hl
            rcases List.mem_cons.1 hp1 with rfl | hp1
            · exact absurd hp2.symm hkk
            · exact ⟨p, hp1, hp2⟩
      simp only [hskip, Bool.not_false, if_true, hps, Option.bind_none, Option.none_or, hlook _ hf, Option.some_or]
    · have hff : (c.popFirst.map fun p => (p.1, ((d.filter fun p => !(c.params.map Prod.fst).contains p.1).lookup p.1).getD p.2)).lookup n = none := by
        rw [ctor_lookup_none_iff]
        intro p hp1 hp2
        obtain ⟨q, hq1, rfl⟩ := List.mem_map.1 hp1
        exact hf ⟨q, hq1, hp2⟩
      have hfc : (c.popFirst.map Prod.fst).contains n = false := by
        rw [← Bool.not_eq_true, List.contains_iff_mem]
        intro hm
        obtain ⟨p, hp1, hp2⟩ := List.mem_map.1 hm
        exact hf ⟨p, hp1, hp2⟩
      simp only [hps, Option.bind_none, Option.none_or, hff, hnc, hfc, Bool.not_false, if_true, Bool.false_eq_true, if_false, ite_self]
      exact ⟨fun v hv => hv, fun hnone hsome => by rw [hnone] at hsome; simp at hsome, fun _ dv hd' => by simp at hd'⟩

/-- What a constructor does not hand on: `self`, `__class__`, names it keeps. -/
theorem call_withholds (selfV clsV : V) (c : Ctor V) (hc : CtorOk c) (d r : List (String × V)) (h : c.call selfV clsV d = some r) (n : String)
    (hs : ¬ Sets c n) (hk : isDunder n = true ∨ n = "self" ∨ Keeps c n) : r.lookup n = none := by
  unfold Ctor.call at h
  simp only at h
  split_ifs at h with h1 h2
  simp only [Option.some.injEq] at h
  subst h
  simp only [Bool.or_eq_true, List.any_eq_true, Bool.and_eq_true, not_or, not_exists] at h1
  obtain ⟨⟨hnoself, -⟩, -⟩ := h1
  have hfix : c.fixed.lookup n = none := by
    rw [ctor_lookup_none_iff]; intro p hp he; exact hs (Or.inl ⟨p, hp, he⟩)
  have hov : c.overwrite.lookup n = none := by
    rw [ctor_lookup_none_iff]; intro p hp he; exact hs (Or.inr ⟨p, hp, he⟩)
  simp only [List.lookup_append, hfix, hov, Option.none_or]
  rw [ctor_lookup_filter_key _ (fun k => !c.pops.contains k)]
  by_cases hpop : c.pops.contains n = true
  · simp only [hpop, Bool.not_true, Bool.false_eq_true, if_false]
  · have hpop' : c.pops.contains n = false := by simpa using hpop
    simp only [hpop', Bool.not_false, if_true, gatherVars]
    rw [ctor_lookup_filter_key _ (fun k => !isDunder k)]
    by_cases hdun : isDunder n = true
    · simp [hdun]
    · have hdun' : isDunder n = false := by simpa using hdun
      simp only [hdun', Bool.not_false, if_true]
      have hskip : c.skip.any (SkipAlt.matches n) = true := by
        rw [List.any_eq_true]
        rcases hk with hk | rfl | hk | ⟨-, hk⟩
        · exact absurd hk hdun
        · exact hc.skipsSelf
        · exact absurd (List.contains_iff_mem.2 hk) hpop
        · exact hk
      rw [List.lookup_append, ctor_lookup_filter_key _ (fun k => !c.skip.any (SkipAlt.matches k))]
      simp only [hskip, Bool.not_true, Bool.false_eq_true, if_false, Option.none_or]
      rw [ctor_lookup_filter_key _ (fun k => !(c.popFirst.map Prod.fst).contains k), ctor_lookup_filter_key _ (fun k => !(c.params.map Prod.fst).contains k)]
      rcases hk with hk | rfl | hk | ⟨hk, -⟩
      · exact absurd hk hdun
      · have : d.lookup "self" = none := by
          rw [← Option.not_isSome_iff_eq_none]; exact hnoself
        simp [this]
      · exact absurd (List.contains_iff_mem.2 hk) hpop
      · rcases hk with ⟨p, hp1, rfl⟩ | ⟨p, hp1, rfl⟩
        · have : (c.params.map Prod.fst).contains p.1 = true := List.contains_iff_mem.2 (List.mem_map_of_mem hp1)
          simp only [this, Bool.not_true, Bool.false_eq_true, if_false, ite_self]
        · have : (c.popFirst.map Prod.fst).contains p.1 = true := List.contains_iff_mem.2 (List.mem_map_of_mem hp1)
          simp only [this, Bool.not_true, Bool.false_eq_true, if_false]

/-- **C121**: in a constructor call that succeeds, an argument given by the user arrives with its value at the class behind the
chain (Keras' or the base layer's constructor), unless a class on the way keeps it for itself or sets it. -/
theorem C121_arrives_partial (selfV clsV : V) (cs : List (Ctor V)) (hcs : ∀ c ∈ cs, CtorOk c) (d r : List (String × V))
    (h : ctorChain selfV clsV cs d = some r) (n : String) (v : V) (hn : isDunder n = false) (hself : n ≠ "self")
    (hk : ∀ c ∈ cs, ¬ Keeps c n ∧ ¬ Sets c n) (hv : d.lookup n = some v) : r.lookup n = some v := by
  induction cs generalizing d with
  | nil => simp only [ctorChain, Option.some.injEq] at h; rw [← h]; exact hv
  | cons c cs ih =>
    simp only [ctorChain] at h
    cases hcall : c.call selfV clsV d with
    | none => rw [hcall] at h; simp at h
    | some d' =>
      rw [hcall] at h
      simp only [Option.bind_some] at h
      obtain ⟨h1, h2⟩ := hk c (by simp)
      exact ih (fun c hc => hcs c (List.mem_cons_of_mem _ hc)) d' h (fun c hc => hk c (List.mem_cons_of_mem _ hc))
        ((call_forwards selfV clsV c (hcs c (by simp)) d d' hcall n hn hself h1 h2).1 v hv)

theorem ctorChain_append (selfV clsV : V) (pre post : List (Ctor V)) (d : List (String × V)) :
    ctorChain selfV clsV (pre ++ post) d = (ctorChain selfV clsV pre d).bind (ctorChain selfV clsV post) := by
  induction pre generalizing d with
  | nil => simp [ctorChain]
  | cons c cs ih =>
    simp only [List.cons_append, ctorChain]
    cases c.call selfV clsV d with
    | none => rfl
    | some d' => simp only [Option.bind_some]; exact ih d'

/-- **C121**: an argument that a class keeps for itself has, in that class, the value the user gave. -/
theorem C121_kept_value (selfV clsV : V) (pre post : List (Ctor V)) (c : Ctor V) (hcs : ∀ c ∈ pre, CtorOk c) (d r : List (String × V))
    (h : ctorChain selfV clsV (pre ++ c :: post) d = some r) (n : String) (v : V) (hn : isDunder n = false) (hself : n ≠ "self")
    (hk : ∀ c ∈ pre, ¬ Keeps c n ∧ ¬ Sets c n) (hv : d.lookup n = some v) (dflt : Option V) :
    ∃ d', ctorChain selfV clsV pre d = some d' ∧ Ctor.param d' (n, dflt) = some v := by
  rw [ctorChain_append] at h
  cases hp : ctorChain selfV clsV pre d with
  | none => rw [hp] at h; simp at h
  | some d' =>
    exact ⟨d', rfl, by simp [Ctor.param, C121_arrives_partial selfV clsV pre hcs d d' hp n v hn hself hk hv]⟩

/-- **C121**: an argument the user does not give arrives with the default in the signature of the class the user called. -/
theorem C121_default (selfV clsV : V) (c : Ctor V) (cs : List (Ctor V)) (hcs : ∀ c' ∈ c :: cs, CtorOk c') (d r : List (String × V))
    (h : ctorChain selfV clsV (c :: cs) d = some r) (n : String) (dv : V) (hd : d.lookup n = none) (hdv : c.params.lookup n = some (some dv))
    (hk : ∀ c' ∈ c :: cs, ¬ Keeps c' n ∧ ¬ Sets c' n) : r.lookup n = some dv := by
  have hnames : Names c n := by
    have : ∀ (ps : List (String × Option V)), ps.lookup n = some (some dv) → ∃ p ∈ ps, p.1 = n := fun ps h =>
      (ctor_lookup_isSome_iff ps n).1 (by rw [h]; rfl)
    exact Or.inl (this _ hdv)
  obtain ⟨hself, hn⟩ := (hcs c (by simp)).ordinary n hnames
  simp only [ctorChain] at h
  cases hcall : c.call selfV clsV d with
  | none => rw [hcall] at h; simp at h
  | some d' =>
    rw [hcall] at h
    simp only [Option.bind_some] at h
    obtain ⟨h1, h2⟩ := hk c (by simp)
    exact C121_arrives_partial selfV clsV cs (fun c hc => hcs c (List.mem_cons_of_mem _ hc)) d' r h n dv hn hself
      (fun c hc => hk c (List.mem_cons_of_mem _ hc))
      ((call_forwards selfV clsV c (hcs c (by simp)) d d' hcall n hn hself h1 h2).2.2 hd dv hdv)

/-- **C121**: nothing else arrives: every name the class behind the chain receives was given by the user, or is a parameter of, or set by,
a class of the chain; `self` and `__class__` never arrive. -/
theorem C121_nothing_else (selfV clsV : V) (c : Ctor V) (cs : List (Ctor V)) (hcs : ∀ c' ∈ c :: cs, CtorOk c') (d r : List (String × V))
    (h : ctorChain selfV clsV (c :: cs) d = some r) (n : String) (hr : (r.lookup n).isSome = true) :
    isDunder n = false ∧ n ≠ "self" ∧ ((d.lookup n).isSome = true ∨ ∃ c' ∈ c :: cs, Names c' n ∨ Sets c' n) := by
  induction cs generalizing c d with
  | nil =>
    simp only [ctorChain] at h
    cases hcall : c.call selfV clsV d with
    | none => rw [hcall] at h; simp at h
    | some d' =>
      rw [hcall] at h
      simp only [Option.bind_some, Option.some.injEq] at h
      subst h
      have hok := hcs c (by simp)
      by_cases hs : Sets c n
      · exact ⟨(hok.sets n hs).2, (hok.sets n hs).1, Or.inr ⟨c, by simp, Or.inr hs⟩⟩
      · have hw := call_withholds selfV clsV c hok d d' hcall n hs
        have h1 : isDunder n = false := by
          by_contra hd
          rw [hw (Or.inl (by simpa using hd))] at hr; simp at hr
        have h2 : n ≠ "self" := by
          rintro rfl
          rw [hw (Or.inr (Or.inl rfl))] at hr; simp at hr
        have h3 : ¬ Keeps c n := fun hk => by
          rw [hw (Or.inr (Or.inr hk))] at hr; simp at hr
        refine ⟨h1, h2, ?_⟩
        cases hd : d.lookup n with
        | some v => exact Or.inl rfl
        | none => exact Or.inr ⟨c, by simp, Or.inl ((call_forwards selfV clsV c hok d d' hcall n h1 h2 h3 hs).2.1 hd hr)⟩
  | cons c2 cs ih =>
    rw [ctorChain] at h
    cases hcall : c.call selfV clsV d with
    | none => rw [hcall] at h; simp at h
    | some d' =>
      rw [hcall] at h
      simp only [Option.bind_some] at h
      obtain ⟨h1, h2, h3⟩ := ih c2 (fun c' hc' => hcs c' (List.mem_cons_of_mem _ hc')) d' h
      refine ⟨h1, h2, ?_⟩
      rcases h3 with h3 | ⟨c', hc', h3⟩
      · have hok := hcs c (by simp)
        by_cases hs : Sets c n
        · exact Or.inr ⟨c, by simp, Or.inr hs⟩
        · have hk : ¬ Keeps c n := fun hk => by
            rw [call_withholds selfV clsV c hok d d' hcall n hs (Or.inr (Or.inr hk))] at h3; simp at h3
          cases hd : d.lookup n with
          | some v => exact Or.inl rfl
          | none => exact Or.inr ⟨c, by simp, Or.inl ((call_forwards selfV clsV c hok d d' hcall n h1 h2 hk hs).2.1 hd h3)⟩
      · exact Or.inr ⟨c', List.mem_cons_of_mem _ hc', h3⟩

/-! ## The classes of the library -/

/-- Check of `CtorOk` on the names. -/
def ctorOkB (c : Ctor V) : Bool :=
  c.skip.any (SkipAlt.matches "self") &&
  ((c.params.map Prod.fst) ++ (c.popFirst.map Prod.fst)).all (fun n => n != "self" && !isDunder n) &&
  (c.params.map Prod.fst).all (fun n => !(c.popFirst.map Prod.fst).contains n) &&
  ((c.fixed.map Prod.fst) ++ (c.overwrite.map Prod.fst)).all (fun n => n != "self" && !isDunder n)

theorem ctorOk_of {c : Ctor V} (h : ctorOkB c = true) : CtorOk c := by
  simp only [ctorOkB, Bool.and_eq_true, List.any_eq_true, List.all_eq_true, List.mem_append, bne_iff_ne, Bool.not_eq_true', List.mem_map] at h
  obtain ⟨⟨⟨h1, h2⟩, h3⟩, h4⟩ := h
  refine ⟨h1, fun n hn => ?_, fun p hp q hq he => ?_, fun n hn => ?_⟩
  · refine h2 n ?_
    rcases hn with ⟨p, hp, rfl⟩ | ⟨p, hp, rfl⟩
    · exact Or.inl ⟨p, hp, rfl⟩
    · exact Or.inr ⟨p, hp, rfl⟩
  · have := h3 p.1 ⟨p, hp, rfl⟩
    rw [← Bool.not_eq_true, List.contains_iff_mem] at this
    exact this (he ▸ List.mem_map_of_mem hq)
  · refine h4 n ?_
    rcases hn with ⟨p, hp, rfl⟩ | ⟨p, hp, rfl⟩
    · exact Or.inl ⟨p, hp, rfl⟩
    · exact Or.inr ⟨p, hp, rfl⟩

/-- The constructors called for each class, in order. -/
def libraryChains (lit : String → V) : List (String × List (Ctor V)) :=
  [("QDense", [ctorQDense lit]), ("QEinsumDense", [ctorQEinsumDense lit]),
   ("QConv1D", [ctorQConv1D lit, ctorQBaseConv lit]), ("QConv2D", [ctorQConv2D lit, ctorQBaseConv lit]),
   ("QConv3D", [ctorQConv3D lit, ctorQBaseConv lit]), ("QBatchNormalization", [ctorQBatchNormalization lit]),
   ("QMultiHeadAttention", [ctorQMultiHeadAttention lit]),
   ("QMultiHeadAttentionT", [ctorQMultiHeadAttentionT lit, ctorQMultiHeadAttention lit]),
   ("QLinformerAttention", [ctorQLinformerAttention lit, ctorQMultiHeadAttention lit]),
   ("QLinformerAttentionT", [ctorQLinformerAttentionT lit, ctorQLinformerAttention lit, ctorQMultiHeadAttentionT lit, ctorQMultiHeadAttention lit]),
   ("QSALTAttention", [ctorQSALTAttention lit, ctorQMultiHeadAttention lit]),
   ("EarlyStoppingWithEbopsThres", [ctorEarlyStoppingWithEbopsThres lit]),
   ("FrozenFixedPointQuantizer", [ctorFrozenFixedPointQuantizer lit])]

/-- The same constructor with other values. -/
def Ctor.mapVal {W : Type} (f : V → W) (c : Ctor V) : Ctor W where
  params := c.params.map fun p => (p.1, p.2.map f)
  hasKwargs := c.hasKwargs
  popFirst := c.popFirst.map fun p => (p.1, f p.2)
  skip := c.skip
  pops := c.pops
  fixed := c.fixed.map fun p => (p.1, f p.2)
  overwrite := c.overwrite.map fun p => (p.1, f p.2)

theorem mkCtor_map (lit : String → V) (ps : List (String × Option String)) (k : Bool) (pf : List (String × String))
    (skip : List SkipAlt) (pops : List String) (fixed ow : List (String × String)) :
    mkCtor lit ps k pf skip pops fixed ow = (mkCtor id ps k pf skip pops fixed ow).mapVal lit := by
  simp only [mkCtor, Ctor.mapVal, List.map_map, Option.map_id_fun]
  rfl

/-- The library with defaults as text determines the library. -/
theorem library_map (lit : String → V) :
    libraryChains lit = (libraryChains (V := String) id).map fun e => (e.1, e.2.map (Ctor.mapVal lit)) := by
  simp only [libraryChains, List.map_cons, List.map_nil, ctorQDense, ctorQEinsumDense, ctorQConv1D, ctorQConv2D, ctorQConv3D, ctorQBaseConv,
    ctorQBatchNormalization, ctorQMultiHeadAttention, ctorQMultiHeadAttentionT, ctorQLinformerAttention, ctorQLinformerAttentionT,
    ctorQSALTAttention, ctorEarlyStoppingWithEbopsThres, ctorFrozenFixedPointQuantizer, ← mkCtor_map]

theorem ctorOkB_map {W : Type} (f : V → W) (c : Ctor V) : ctorOkB (c.mapVal f) = ctorOkB c := by
  have h1 : ∀ l : List (String × V), (l.map fun p => (p.1, f p.2)).map Prod.fst = l.map Prod.fst := by intro l; simp [List.map_map, Function.comp_def]
  have h2 : ∀ l : List (String × Option V), (l.map fun p => (p.1, p.2.map f)).map Prod.fst = l.map Prod.fst := by intro l; simp [List.map_map, Function.comp_def]
  simp only [ctorOkB, Ctor.mapVal, h1, h2]

/-- All constructors of the library are of the form the theorems ask for. -/
theorem library_ok (lit : String → V) : ∀ e ∈ libraryChains lit, ∀ c ∈ e.2, CtorOk c := by
  have h0 : (libraryChains (V := String) id).all (fun e => e.2.all ctorOkB) = true := by decide +kernel
  have h : (libraryChains lit).all (fun e => e.2.all ctorOkB) = true := by
    rw [library_map, List.all_map, ← h0]
    congr 1
    funext e
    simp only [Function.comp, List.all_map]
    congr 1
    funext c
    exact ctorOkB_map lit c
  intro e he c hc
  exact ctorOk_of (List.all_eq_true.1 (List.all_eq_true.1 h e he) c hc)

namespace Spec
/-- The arguments the classes of this library deal with themselves: quantizer configurations and parallelization in the layers; table and
projection options and the form of softmax in attention; the threshold of the callback. -/
def ownArguments : String → List String
  | "QDense" | "QEinsumDense" | "QConv1D" | "QConv2D" | "QConv3D" => ["kq_conf", "bq_conf", "parallelization_factor"]
  | "QBatchNormalization" => ["kq_conf", "bq_conf"]
  | "QMultiHeadAttention" => attention
  | "QMultiHeadAttentionT" => attention ++ tables
  | "QLinformerAttention" => attention ++ ["lin_kv_proj_dim", "share_kv_proj", "lin_kv_proj_mode"]
  | "QLinformerAttentionT" => attention ++ tables ++ ["lin_kv_proj_dim", "share_kv_proj", "lin_kv_proj_mode"]
  | "QSALTAttention" => attention ++ ["lin_kv_proj_dim", "share_kv_proj", "conv_size", "cluster_k_proj", "cluster_v_proj", "separate_conv"]
  | "EarlyStoppingWithEbopsThres" => ["ebops_threshold"]
  | _ => []
where
  attention : List String := ["qkvo_iq_conf", "qkvo_kq_conf", "qkvo_bq_conf", "qkvo_oq_conf", "softmax_iq_conf", "softmax_exp_iq_conf",
    "softmax_exp_oq_conf", "softmax_inv_iq_conf", "softmax_inv_oq_conf", "softmax_oq_conf", "stable_softmax",
    "softmax_allow_heterogeneous_table", "parallelization_factor", "fuse"]
  tables : List String := ["qkvo_toq_conf", "n_hl", "d_hl", "subnn_activation", "table_spec", "batch_norm", "bn_center", "bn_scale",
    "bn_momentum", "bn_epsilon"]

/-- Arguments whose value the class fixes. -/
def fixedArguments : String → List String
  | "QDense" | "QEinsumDense" => ["lora_rank"]
  | "QConv1D" | "QConv2D" | "QConv3D" => ["rank"]
  | "QMultiHeadAttentionT" | "QLinformerAttentionT" => ["fuse"]
  | _ => []
end Spec

/-- Check of the table of own arguments. -/
def ownB (cs : List (Ctor V)) (own fixed : List String) : Bool :=
  cs.all fun c =>
    c.pops.all own.contains &&
    ((c.params.map Prod.fst) ++ (c.popFirst.map Prod.fst)).all (fun n => !(c.skip.any (SkipAlt.matches n)) || own.contains n) &&
    ((c.fixed.map Prod.fst) ++ (c.overwrite.map Prod.fst)).all fixed.contains

theorem ownB_map {W : Type} (f : V → W) (cs : List (Ctor V)) (own fixed : List String) :
    ownB (cs.map (Ctor.mapVal f)) own fixed = ownB cs own fixed := by
  have h1 : ∀ l : List (String × V), (l.map fun p => (p.1, f p.2)).map Prod.fst = l.map Prod.fst := by intro l; simp [List.map_map, Function.comp_def]
  have h2 : ∀ l : List (String × Option V), (l.map fun p => (p.1, p.2.map f)).map Prod.fst = l.map Prod.fst := by intro l; simp [List.map_map, Function.comp_def]
  simp only [ownB, List.all_map]
  congr 1
  funext c
  simp only [Function.comp, Ctor.mapVal, h1, h2]

/-- Names a constructor keeps. -/
def keptNames (c : Ctor V) : List String :=
  c.pops ++ ((c.params.map Prod.fst) ++ (c.popFirst.map Prod.fst)).filter fun n => c.skip.any (SkipAlt.matches n)

theorem mem_keptNames (c : Ctor V) (n : String) : n ∈ keptNames c ↔ Keeps c n := by
  simp only [keptNames, Keeps, List.mem_append, List.mem_filter, List.mem_map, List.any_eq_true]

theorem keptNames_map {W : Type} (f : V → W) (c : Ctor V) : keptNames (c.mapVal f) = keptNames c := by
  have h1 : ∀ l : List (String × V), (l.map fun p => (p.1, f p.2)).map Prod.fst = l.map Prod.fst := by intro l; simp [List.map_map, Function.comp_def]
  have h2 : ∀ l : List (String × Option V), (l.map fun p => (p.1, p.2.map f)).map Prod.fst = l.map Prod.fst := by intro l; simp [List.map_map, Function.comp_def]
  simp only [keptNames, Ctor.mapVal, h1, h2]

/-- No name is kept by two constructors of a chain. -/
def disjB : List (Ctor V) → Bool
  | [] => true
  | c :: cs => (cs.all fun c' => (keptNames c').all fun n => !(keptNames c).contains n) && disjB cs

theorem disjB_map {W : Type} (f : V → W) (cs : List (Ctor V)) : disjB (cs.map (Ctor.mapVal f)) = disjB cs := by
  induction cs with
  | nil => rfl
  | cons c cs ih =>
    simp only [List.map_cons, disjB, ih, List.all_map]
    congr 2
    funext c'
    simp only [Function.comp, keptNames_map]

theorem disjB_split {pre post : List (Ctor V)} {c c' : Ctor V} (h : disjB (pre ++ c :: post) = true) (hc' : c' ∈ pre) (n : String)
    (h1 : Keeps c' n) (h2 : Keeps c n) : False := by
  induction pre with
  | nil => simp at hc'
  | cons a pre ih =>
    simp only [List.cons_append, disjB, Bool.and_eq_true, List.all_eq_true] at h
    rcases List.mem_cons.1 hc' with rfl | hc'
    · have := h.1 c (by simp) n ((mem_keptNames c n).2 h2)
      simp only [Bool.not_eq_true'] at this
      rw [← Bool.not_eq_true, List.contains_iff_mem] at this
      exact this ((mem_keptNames c' n).2 h1)
    · exact ih h.2 hc'

theorem library_disj (lit : String → V) : ∀ e ∈ libraryChains lit, disjB e.2 = true := by
  have h0 : ∀ e ∈ libraryChains (V := String) id, disjB e.2 = true := by decide +kernel
  intro e he
  rw [library_map] at he
  obtain ⟨e', he', rfl⟩ := List.mem_map.1 he
  rw [disjB_map]
  exact h0 e' he'

theorem library_own (lit : String → V) : ∀ e ∈ libraryChains lit, ∀ c ∈ e.2, ∀ n,
    (Keeps c n → n ∈ ownArguments e.1) ∧ (Sets c n → n ∈ fixedArguments e.1) := by
  have h0 : (libraryChains (V := String) id).all (fun e => ownB e.2 (ownArguments e.1) (fixedArguments e.1)) = true := by decide +kernel
  have h : (libraryChains lit).all (fun e => ownB e.2 (ownArguments e.1) (fixedArguments e.1)) = true := by
    rw [library_map, List.all_map, ← h0]
    congr 1
    funext e
    simp only [Function.comp, ownB_map]
  intro e he c hc n
  have h1 := List.all_eq_true.1 (List.all_eq_true.1 h e he) c hc
  simp only [Bool.and_eq_true, List.all_eq_true, List.mem_append, List.mem_map, List.contains_iff_mem, Bool.or_eq_true, Bool.not_eq_true'] at h1
  obtain ⟨⟨h2, h3⟩, h4⟩ := h1
  constructor
  · rintro (hp | ⟨hn, a, ha, hm⟩)
    · exact h2 n hp
    · rcases h3 n (by
        rcases hn with ⟨p, hp, rfl⟩ | ⟨p, hp, rfl⟩
        · exact Or.inl ⟨p, hp, rfl⟩
        · exact Or.inr ⟨p, hp, rfl⟩) with h5 | h5
      · rw [← Bool.not_eq_true, List.any_eq_true] at h5
        exact absurd ⟨a, ha, hm⟩ h5
      · exact h5
  · intro hs
    refine h4 n ?_
    rcases hs with ⟨p, hp, rfl⟩ | ⟨p, hp, rfl⟩
    · exact Or.inl ⟨p, hp, rfl⟩
    · exact Or.inr ⟨p, hp, rfl⟩

/-- **C121 for the library**: for every class built on `gather_vars_to_kwargs` and every argument the class does not deal with itself,
the value given by the user arrives at the constructor of Keras (or of the base layer) — every such argument, whether the class
names it or takes it through `**kwargs`. -/
theorem C121_library_partial (lit : String → V) (selfV clsV : V) (name : String) (cs : List (Ctor V)) (hcs : (name, cs) ∈ libraryChains lit)
    (d r : List (String × V)) (h : ctorChain selfV clsV cs d = some r) (n : String) (v : V) (hn : isDunder n = false)
    (hself : n ≠ "self") (hown : n ∉ ownArguments name) (hfix : n ∉ fixedArguments name) (hv : d.lookup n = some v) : r.lookup n = some v :=
  C121_arrives_partial selfV clsV cs (library_ok lit _ hcs) d r h n v hn hself
    (fun c hc => ⟨fun hk => hown ((library_own lit _ hcs c hc n).1 hk), fun hs => hfix ((library_own lit _ hcs c hc n).2 hs)⟩) hv

/-- **C121 for the library, own arguments**: an argument that a class of the chain deals with reaches that class with the user's value:
where a class keeps a name, no class before it does, and none before it sets it — except for `fuse`. -/
theorem C121_library_own (lit : String → V) (selfV clsV : V) (name : String) (pre post : List (Ctor V)) (c : Ctor V)
    (hcs : (name, pre ++ c :: post) ∈ libraryChains lit) (d r : List (String × V))
    (h : ctorChain selfV clsV (pre ++ c :: post) d = some r) (n : String) (v : V) (hn : isDunder n = false) (hself : n ≠ "self")
    (hk : Keeps c n) (hfix : n ∉ fixedArguments name) (hv : d.lookup n = some v) (dflt : Option V) :
    ∃ d', ctorChain selfV clsV pre d = some d' ∧ Ctor.param d' (n, dflt) = some v := by
  refine C121_kept_value selfV clsV pre post c (fun c hc => library_ok lit _ hcs c (by simp [hc])) d r h n v hn hself (fun c' hc' => ?_) hv dflt
  refine ⟨fun hk' => ?_, fun hs => hfix ((library_own lit _ hcs c' (by simp [hc']) n).2 hs)⟩
  exact disjB_split (library_disj lit _ hcs) hc' n hk' hk

/-- **C121, fixed arguments**: where a class fixes an argument, its parent receives the fixed value, and a user who passes that argument
himself gets an error (never a silently ignored value), unless the class names it as a parameter it keeps. -/
theorem C121_fixed (selfV clsV : V) (c : Ctor V) (hc : CtorOk c) (d : List (String × V)) (n : String) (fv : V) (hfv : c.fixed.lookup n = some fv)
    (hk : ¬ Keeps c n) (hov : c.overwrite.lookup n = none) :
    (∀ r, c.call selfV clsV d = some r → r.lookup n = some fv ∧ d.lookup n = none) ∧
    ((d.lookup n).isSome = true → c.call selfV clsV d = none) := by
  have hset : Sets c n := Or.inl ((ctor_lookup_isSome_iff _ n).1 (by rw [hfv]; rfl))
  obtain ⟨hself, hn⟩ := hc.sets n hset
  have key : ∀ r, c.call selfV clsV d = some r → r.lookup n = some fv ∧ d.lookup n = none := by
    intro r h
    have h' := h
    unfold Ctor.call at h
    simp only at h
    split_ifs at h with h1 h2
    simp only [Option.some.injEq] at h
    refine ⟨by rw [← h, List.lookup_append, hfv]; rfl, ?_⟩
    by_contra hd
    obtain ⟨v, hv⟩ := Option.ne_none_iff_exists'.1 hd
    let c' : Ctor V := { c with fixed := [] }
    have hc' : CtorOk c' := ⟨hc.skipsSelf, hc.ordinary, hc.disjoint, fun m hm => hc.sets m (by
      rcases hm with ⟨p, hp, -⟩ | hm
      · simp [c'] at hp
      · exact Or.inr hm)⟩
    have hcall : c'.call selfV clsV d = some (r.drop c.fixed.length) := by
      rw [← h, List.drop_left]
      unfold Ctor.call
      simp only [c', h1, List.any_nil, Bool.false_eq_true, if_false, List.nil_append]
    have hs' : ¬ Sets c' n := by
      rintro (⟨p, hp, -⟩ | ⟨p, hp, he⟩)
      · simp [c'] at hp
      · exact (ctor_lookup_none_iff _ n).1 hov p hp he
    have hf := (call_forwards selfV clsV c' hc' d _ hcall n hn hself hk hs').1 v hv
    rw [← h, List.drop_left] at hf
    obtain ⟨p, hp, he⟩ := (ctor_lookup_isSome_iff c.fixed n).1 (by rw [hfv]; rfl)
    refine h2 (List.any_eq_true.2 ⟨p, hp, ?_⟩)
    rw [he, hf]; rfl
  refine ⟨key, fun hd => ?_⟩
  cases h : c.call selfV clsV d with
  | none => rfl
  | some r => rw [(key r h).2] at hd; simp at hd

/-- **C121, dimensions of convolutions**: `QConv1D`, `QConv2D`, `QConv3D` always build a convolution of rank 1, 2, 3, whatever the user passes. -/
theorem C121_conv_rank (lit : String → V) (selfV clsV : V) (d r : List (String × V)) :
    (ctorChain selfV clsV [ctorQConv1D lit, ctorQBaseConv lit] d = some r → r.lookup "rank" = some (lit "1")) ∧
    (ctorChain selfV clsV [ctorQConv2D lit, ctorQBaseConv lit] d = some r → r.lookup "rank" = some (lit "2")) ∧
    (ctorChain selfV clsV [ctorQConv3D lit, ctorQBaseConv lit] d = some r → r.lookup "rank" = some (lit "3")) := by
  have hbase : CtorOk (ctorQBaseConv lit) := library_ok lit ("QConv1D", [ctorQConv1D lit, ctorQBaseConv lit]) (by simp [libraryChains]) _ (by simp)
  have key : ∀ (c : Ctor V) (v : V), c.fixed = [("rank", v)] →
      ctorChain selfV clsV [c, ctorQBaseConv lit] d = some r → r.lookup "rank" = some v := by
    intro c v hf h
    simp only [ctorChain] at h
    cases hcall : c.call selfV clsV d with
    | none => rw [hcall] at h; simp at h
    | some d' =>
      rw [hcall] at h
      simp only [Option.bind_some] at h
      have hd' : d'.lookup "rank" = some v := by
        unfold Ctor.call at hcall
        simp only at hcall
        split_ifs at hcall
        simp only [Option.some.injEq] at hcall
        rw [← hcall, hf]
        rfl
      refine C121_arrives_partial selfV clsV [ctorQBaseConv lit] (by simpa using hbase) d' r h "rank" v (by decide) (by decide) ?_ hd'
      intro c' hc'
      have hc'' : c' = ctorQBaseConv lit := by simpa using hc'
      subst hc''
      have hl := library_own lit ("QConv1D", [ctorQConv1D lit, ctorQBaseConv lit]) (by simp [libraryChains]) (ctorQBaseConv lit) (by simp) "rank"
      exact ⟨fun hk => absurd (hl.1 hk) (show "rank" ∉ ownArguments "QConv1D" by decide +kernel), fun hs => by
        rcases hs with ⟨p, hp, -⟩ | ⟨p, hp, -⟩ <;> simp [ctorQBaseConv, mkCtor] at hp⟩
  exact ⟨key _ _ rfl, key _ _ rfl, key _ _ rfl⟩

example : (ctorChain "self" "cls" [ctorQConv2D (V := String) id, ctorQBaseConv id] [("filters", "3"), ("kernel_size", "2")]).isSome = true ∧
    (ctorChain "self" "cls" [ctorQConv2D (V := String) id, ctorQBaseConv id] [("filters", "3"), ("kernel_size", "2"), ("rank", "3")]) = none := by
  decide +kernel

/-- **C121, unknown keywords**: a constructor without `**kwargs` refuses every keyword it does not name. -/
theorem C121_unknown_keyword (selfV clsV : V) (c : Ctor V) (hkw : c.hasKwargs = false) (d : List (String × V)) (n : String) (hd : ∃ p ∈ d, p.1 = n)
    (hn : ∀ p ∈ c.params, p.1 ≠ n) : c.call selfV clsV d = none := by
  obtain ⟨p, hp, rfl⟩ := hd
  have hmem : p ∈ d.filter fun p => !(c.params.map Prod.fst).contains p.1 := by
    refine List.mem_filter.2 ⟨hp, ?_⟩
    rw [Bool.not_eq_true', ← Bool.not_eq_true, List.contains_iff_mem]
    intro hm
    obtain ⟨q, hq, he⟩ := List.mem_map.1 hm
    exact hn q hq he
  have : (d.filter fun p => !(c.params.map Prod.fst).contains p.1).isEmpty = false := by
    rw [← Bool.not_eq_true, List.isEmpty_iff]
    intro h; rw [h] at hmem; simp at hmem
  unfold Ctor.call
  simp only [this, hkw, Bool.not_false, Bool.and_self, Bool.or_true, if_true]

example : (ctorEarlyStoppingWithEbopsThres (V := String) id).call "self" "cls" [("ebops_threshold", "100"), ("patience", "3")] ≠ none ∧
    (ctorEarlyStoppingWithEbopsThres (V := String) id).call "self" "cls" [("ebops_threshold", "100"), ("patient", "3")] = none := by
  decide +kernel

/-- **C121, popped keywords**: a keyword a constructor takes out of `**kwargs` first (and hands on) reaches the parent with the user's value,
or with its default. -/
theorem C121_popped (selfV clsV : V) (c : Ctor V) (hc : CtorOk c) (d r : List (String × V)) (h : c.call selfV clsV d = some r) (n : String) (dv : V)
    (hf : c.popFirst = [(n, dv)]) (hk : ¬ Keeps c n) (hs : ¬ Sets c n) : r.lookup n = some ((d.lookup n).getD dv) := by
  have hnames : Names c n := Or.inr ⟨(n, dv), by simp [hf], rfl⟩
  obtain ⟨hself, hn⟩ := hc.ordinary n hnames
  cases hd : d.lookup n with
  | some v => simpa using (call_forwards selfV clsV c hc d r h n hn hself hk hs).1 v hd
  | none =>
    unfold Ctor.call at h
    simp only at h
    split_ifs at h with h1 h2
    simp only [Option.some.injEq] at h
    subst h
    simp only [Bool.or_eq_true, List.any_eq_true, Bool.and_eq_true, not_or, not_exists] at h1
    obtain ⟨⟨-, hparams⟩, -⟩ := h1
    have hparams' : ∀ p ∈ c.params, (Ctor.param d p).isNone = false := fun p hp => by
      have := hparams p
      simp only [hp, true_and] at this
      rw [← Bool.not_eq_true]; exact this
    have hfix : c.fixed.lookup n = none := by
      rw [ctor_lookup_none_iff]; intro p hp he; exact hs (Or.inl ⟨p, hp, he⟩)
    have hov : c.overwrite.lookup n = none := by
      rw [ctor_lookup_none_iff]; intro p hp he; exact hs (Or.inr ⟨p, hp, he⟩)
    have hpops : c.pops.contains n = false := by
      rw [← Bool.not_eq_true, List.contains_iff_mem]
      exact fun hp => hk (Or.inl hp)
    have hskip : c.skip.any (SkipAlt.matches n) = false := by
      rw [← Bool.not_eq_true, List.any_eq_true]
      rintro ⟨a, ha, hm⟩
      exact hk (Or.inr ⟨hnames, a, ha, hm⟩)
    have hsb : (n == "self") = false := by simpa using hself
    have hpn : c.params.lookup n = none := by
      rw [ctor_lookup_none_iff]
      exact fun p hp he => hc.disjoint p hp (n, dv) (by simp [hf]) he
    have hrl : (d.filter fun p => !(c.params.map Prod.fst).contains p.1).lookup n = none := by
      rw [ctor_lookup_filter_key _ (fun k => !(c.params.map Prod.fst).contains k), hd, ite_self]
    simp only [List.lookup_append, hfix, hov, Option.none_or]
    rw [ctor_lookup_filter_key _ (fun k => !c.pops.contains k)]
    simp only [hpops, Bool.not_false, if_true, gatherVars]
    rw [ctor_lookup_filter_key _ (fun k => !isDunder k)]
    simp only [hn, Bool.not_false, if_true]
    rw [List.lookup_append, ctor_lookup_filter_key _ (fun k => !c.skip.any (SkipAlt.matches k))]
    simp only [hskip, Bool.not_false, if_true, List.cons_append, List.lookup_cons, hsb, List.lookup_append, hf, List.map_cons, List.map_nil, hrl,
      Option.getD_none, beq_self_eq_true]
    rw [lookup_named _ _ hparams', hpn]
    simp

/-- **C121, frozen quantizers**: a frozen quantizer is not trainable unless the user says so. -/
theorem C121_frozen_trainable (lit : String → V) (selfV clsV : V) (d r : List (String × V))
    (h : (ctorFrozenFixedPointQuantizer lit).call selfV clsV d = some r) : r.lookup "trainable" = some ((d.lookup "trainable").getD (lit "False")) := by
  have he : ("FrozenFixedPointQuantizer", [ctorFrozenFixedPointQuantizer lit]) ∈ libraryChains lit := by simp [libraryChains]
  have hl := library_own lit _ he (ctorFrozenFixedPointQuantizer lit) (by simp) "trainable"
  exact C121_popped selfV clsV _ (library_ok lit _ he _ (by simp)) d r h "trainable" (lit "False") rfl
    (fun hk => absurd (hl.1 hk) (show "trainable" ∉ ownArguments "FrozenFixedPointQuantizer" by decide +kernel))
    (fun hs => absurd (hl.2 hs) (show "trainable" ∉ fixedArguments "FrozenFixedPointQuantizer" by decide +kernel))

/-- **`fuse` is ignored by QMultiHeadAttentionT**: whatever the user passes as `fuse`, the attention constructor receives `'none'`. -/
theorem C121_fuse_violated (lit : String → V) (selfV clsV : V) (d r : List (String × V))
    (h : (ctorQMultiHeadAttentionT lit).call selfV clsV d = some r) : r.lookup "fuse" = some (lit "'none'") := by
  unfold Ctor.call at h
  simp only at h
  split_ifs at h
  simp only [Option.some.injEq] at h
  rw [← h]
  rfl

/-- A call with `fuse='qkv'` is accepted. -/
example : ((ctorQMultiHeadAttentionT (V := String) id).call "self" "cls" [("num_heads", "2"), ("key_dim", "4"), ("fuse", "'qkv'")]).isSome = true := by
  decide +kernel

/-- **Keywords of the form `__name__` are dropped**: to every constructor with `**kwargs` such a keyword can be added without any effect —
no error, and no constructor ever sees it — where a misspelt ordinary keyword reaches the constructor of Keras (`C121_library_partial`) and
raises there. -/
theorem C121_dunder_violated (selfV clsV : V) (c : Ctor V) (hc : CtorOk c) (hkw : c.hasKwargs = true) (d : List (String × V)) (n : String) (v : V)
    (hn : isDunder n = true) : c.call selfV clsV (d ++ [(n, v)]) = c.call selfV clsV d := by
  have hord : ∀ m, isDunder m = false → (d ++ [(n, v)]).lookup m = d.lookup m := by
    intro m hm
    have hmn : (m == n) = false := by
      rw [← Bool.not_eq_true, beq_iff_eq]; rintro rfl; rw [hn] at hm; simp at hm
    rw [List.lookup_append]
    simp [List.lookup_cons, hmn]
  have hpar : ∀ p ∈ c.params, Ctor.param (d ++ [(n, v)]) p = Ctor.param d p := by
    intro p hp
    simp only [Ctor.param, hord p.1 (hc.ordinary p.1 (Or.inl ⟨p, hp, rfl⟩)).2]
  have hnp : (c.params.map Prod.fst).contains n = false := by
    rw [← Bool.not_eq_true, List.contains_iff_mem]
    intro hm
    obtain ⟨p, hp, rfl⟩ := List.mem_map.1 hm
    have := (hc.ordinary p.1 (Or.inl ⟨p, hp, rfl⟩)).2
    rw [hn] at this; simp at this
  have hnf : (c.popFirst.map Prod.fst).contains n = false := by
    rw [← Bool.not_eq_true, List.contains_iff_mem]
    intro hm
    obtain ⟨p, hp, rfl⟩ := List.mem_map.1 hm
    have := (hc.ordinary p.1 (Or.inr ⟨p, hp, rfl⟩)).2
    rw [hn] at this; simp at this
  have hrest : ((d ++ [(n, v)]).filter fun p => !(c.params.map Prod.fst).contains p.1) =
      (d.filter fun p => !(c.params.map Prod.fst).contains p.1) ++ [(n, v)] := by
    rw [List.filter_append, List.filter_cons, if_pos (by simp only [hnp, Bool.not_false])]
    rfl
  have hlook : ∀ (l : List (String × V)) (m : String), isDunder m = false → (l ++ [(n, v)]).lookup m = l.lookup m := by
    intro l m hm
    have hmn : (m == n) = false := by
      rw [← Bool.not_eq_true, beq_iff_eq]; rintro rfl; rw [hn] at hm; simp at hm
    rw [List.lookup_append]
    simp [List.lookup_cons, hmn]
  have hany : (c.params.any fun p => (Ctor.param (d ++ [(n, v)]) p).isNone) = c.params.any fun p => (Ctor.param d p).isNone := by
    rw [Bool.eq_iff_iff, List.any_eq_true, List.any_eq_true]
    exact exists_congr fun p => and_congr_right fun hp => by rw [hpar p hp]
  have hnamed : (c.params.filterMap fun p => (Ctor.param (d ++ [(n, v)]) p).map fun v => (p.1, v)) =
      c.params.filterMap fun p => (Ctor.param d p).map fun v => (p.1, v) :=
    List.filterMap_congr fun p hp => by rw [hpar p hp]
  have hfirst : (c.popFirst.map fun p => (p.1, (((d.filter fun p => !(c.params.map Prod.fst).contains p.1) ++ [(n, v)]).lookup p.1).getD p.2)) =
      c.popFirst.map fun p => (p.1, ((d.filter fun p => !(c.params.map Prod.fst).contains p.1).lookup p.1).getD p.2) :=
    List.map_congr_left fun p hp => by rw [hlook _ p.1 (hc.ordinary p.1 (Or.inr ⟨p, hp, rfl⟩)).2]
  have hgather : ∀ locals rest : List (String × V), gatherVars c.skip locals (rest ++ [(n, v)]) = gatherVars c.skip locals rest := by
    intro locals rest
    simp only [gatherVars]
    rw [← List.append_assoc, List.filter_append _ [(n, v)]]
    simp [hn]
  unfold Ctor.call
  simp only [hkw, Bool.not_true, Bool.false_and, Bool.or_false]
  rw [hord "self" (by decide), hany, hrest, hnamed, hfirst]
  have hone : ([(n, v)].filter fun p : String × V => !(c.popFirst.map Prod.fst).contains p.1) = [(n, v)] := by
    rw [List.filter_cons, if_pos (by simp only [hnf, Bool.not_false])]
    rfl
  rw [List.filter_append (p := fun p : String × V => !(c.popFirst.map Prod.fst).contains p.1), hone, hgather]

example : isDunder "__units__" = true ∧ ((ctorQDense (V := String) id).call "self" "cls" [("units", "3"), ("__units__", "4")]).isSome = true := by
  decide +kernel

/-- A typical call of a layer three constructors deep: quantizer options stay, the rest arrives. -/
example : let r := (ctorChain "self" "cls" [ctorQLinformerAttentionT (V := String) id, ctorQLinformerAttention id, ctorQMultiHeadAttentionT id,
      ctorQMultiHeadAttention id] [("num_heads", "2"), ("key_dim", "4"), ("lin_kv_proj_dim", "8"), ("n_hl", "3"), ("name", "'a'"), ("dropout", "0.1"),
      ("enable_iq", "False")]).getD []
    r.lookup "num_heads" = some "2" ∧ r.lookup "name" = some "'a'" ∧ r.lookup "dropout" = some "0.1" ∧ r.lookup "enable_iq" = some "False" ∧
    r.lookup "n_hl" = none ∧ r.lookup "lin_kv_proj_dim" = none ∧ r.lookup "seed" = some "None" := by
  decide +kernel

end HGQ
