import Verif.Model.Graph
import Mathlib.Tactic

/-! # C45: graph replay and trace keys -/
namespace HGQ

/-- `val` is what the functional model computes: it agrees with the inputs and satisfies the equation of every operation. -/
def Spec.Solves {T V : Type} (inputs : List (T × V)) (nodes : List (GNode T V)) (val : T → V) : Prop :=
  (∀ p ∈ inputs, val p.1 = p.2) ∧ ∀ n ∈ nodes, n.isInput = false → n.produces.map val = n.fn (n.requires.map val)

/-- The graph is acyclic with respect to the depths Keras assigns: every tensor an operation needs is a model input or produced by
an operation of strictly larger depth. -/
def Spec.DepthOrdered {T V : Type} (inputs : List (T × V)) (byDepth : ℕ → List (GNode T V)) (maxDepth : ℕ) : Prop :=
  ∀ d ≤ maxDepth, ∀ n ∈ byDepth d, ∀ t ∈ n.requires,
    t ∈ inputs.map (·.1) ∨ ∃ d' ≤ maxDepth, d < d' ∧ ∃ n' ∈ byDepth d', n'.isInput = false ∧ t ∈ n'.produces

theorem assignAll_some {T V : Type} [DecidableEq T] (val : T → V) (ps : List (T × V)) (hps : ∀ p ∈ ps, val p.1 = p.2)
    (m : T → Option V) (hm : ∀ t v, m t = some v → v = val t) :
    (∀ t v, assignAll m ps t = some v → v = val t) ∧
    (∀ t, (t ∈ ps.map (·.1) ∨ (m t).isSome) → (assignAll m ps t).isSome) := by
  induction ps generalizing m with
  | nil => exact ⟨hm, fun t h => by simpa [assignAll] using h⟩
  | cons p ps ih =>
    have h1 := hps p (List.mem_cons_self ..)
    obtain ⟨i1, i2⟩ := ih (fun q hq => hps q (List.mem_cons_of_mem _ hq)) (fun t => if t = p.1 then some p.2 else m t) (by
      intro t v h
      by_cases ht : t = p.1
      · simp only [ht, if_true, Option.some.injEq] at h; rw [ht, h1, h]
      · simp only [ht, if_false] at h; exact hm t v h)
    refine ⟨i1, fun t h => i2 t ?_⟩
    by_cases ht : t = p.1
    · right; simp [ht]
    · simp only [List.map_cons, List.mem_cons, ht, false_or] at h
      rcases h with h | h
      · exact Or.inl h
      · right; simpa [ht] using h

theorem graph_mapM_some {T V : Type} (m : T → Option V) (val : T → V) (l : List T) (h : ∀ t ∈ l, m t = some (val t)) :
    l.mapM m = some (l.map val) := by
  induction l with
  | nil => rfl
  | cons a l ih =>
    rw [List.mapM_cons, h a (List.mem_cons_self ..), ih fun t ht => h t (List.mem_cons_of_mem _ ht)]; rfl

theorem zip_map_val {T V : Type} (val : T → V) (l : List T) : ∀ p ∈ l.zip (l.map val), val p.1 = p.2 := by
  induction l with
  | nil => simp
  | cons a l ih =>
    intro p hp
    rw [List.map_cons, List.zip_cons_cons] at hp
    rcases List.mem_cons.1 hp with rfl | hp
    · rfl
    · exact ih p hp

/-- The invariant of the loop. -/
theorem traceNodes_spec {T V : Type} [DecidableEq T] (val : T → V) (nodes : List (GNode T V)) (st : TraceState T V)
    (hst : ∀ t v, st.map t = some v → v = val t)
    (heq : ∀ n ∈ nodes, n.isInput = false → n.produces.map val = n.fn (n.requires.map val))
    (hav : ∀ (pre post : List (GNode T V)) (n : GNode T V), nodes = pre ++ n :: post → ∀ t ∈ n.requires,
      (st.map t).isSome ∨ ∃ n' ∈ pre, n'.isInput = false ∧ t ∈ n'.produces) :
    ∃ st', nodes.foldlM traceNode st = some st' ∧ (∀ t v, st'.map t = some v → v = val t) ∧
      (∀ t, (st.map t).isSome ∨ (∃ n ∈ nodes, n.isInput = false ∧ t ∈ n.produces) → (st'.map t).isSome) ∧
      st'.log = st.log ++ (nodes.filter (fun n => !n.isInput)).map fun n => (n.name, n.produces.map val) := by
  induction nodes generalizing st with
  | nil => exact ⟨st, rfl, hst, fun t h => by simpa using h, by simp⟩
  | cons n r ih =>
    have hreq : ∀ t ∈ n.requires, st.map t = some (val t) := by
      intro t ht
      rcases hav [] r n rfl t ht with h | ⟨n', hn', _⟩
      · obtain ⟨v, hv⟩ := Option.isSome_iff_exists.1 h
        rw [hv, hst t v hv]
      · simp at hn'
    have hargs := graph_mapM_some st.map val n.requires hreq
    cases hi : n.isInput with
    | true =>
      have hstep : traceNode st n = some st := by simp only [traceNode, hargs, hi, if_true]
      obtain ⟨st', a, b, c, d⟩ := ih st hst (fun m hm => heq m (List.mem_cons_of_mem _ hm)) (by
        intro pre post m he t ht
        rcases hav (n :: pre) post m (by rw [he]; rfl) t ht with h | ⟨n', hn', h1, h2⟩
        · exact Or.inl h
        · rcases List.mem_cons.1 hn' with rfl | hn'
          · rw [hi] at h1; exact absurd h1 (by simp)
          · exact Or.inr ⟨n', hn', h1, h2⟩)
      refine ⟨st', by rw [List.foldlM_cons, hstep]; exact a, b, fun t h => c t ?_, by rw [d]; simp [hi]⟩
      rcases h with h | ⟨n', hn', h1, h2⟩
      · exact Or.inl h
      · rcases List.mem_cons.1 hn' with rfl | hn'
        · rw [hi] at h1; exact absurd h1 (by simp)
        · exact Or.inr ⟨n', hn', h1, h2⟩
    | false =>
      have hout : n.fn (n.requires.map val) = n.produces.map val := (heq n (List.mem_cons_self ..) hi).symm
      set st1 : TraceState T V := ⟨assignAll st.map (n.produces.zip (n.produces.map val)), st.log ++ [(n.name, n.produces.map val)]⟩
      have hstep : traceNode st n = some st1 := by simp [traceNode, hargs, hi, hout, st1]
      have hz : ∀ p ∈ n.produces.zip (n.produces.map val), val p.1 = p.2 := by
        exact zip_map_val val n.produces
      have hdom : (n.produces.zip (n.produces.map val)).map (·.1) = n.produces := by
        rw [List.map_fst_zip]; simp
      obtain ⟨e1, e2⟩ := assignAll_some val _ hz st.map hst
      rw [hdom] at e2
      obtain ⟨st', a, b, c, d⟩ := ih st1 e1 (fun m hm => heq m (List.mem_cons_of_mem _ hm)) (by
        intro pre post m he t ht
        rcases hav (n :: pre) post m (by rw [he]; rfl) t ht with h | ⟨n', hn', h1, h2⟩
        · exact Or.inl (e2 t (Or.inr h))
        · rcases List.mem_cons.1 hn' with rfl | hn'
          · exact Or.inl (e2 t (Or.inl h2))
          · exact Or.inr ⟨n', hn', h1, h2⟩)
      refine ⟨st', by rw [List.foldlM_cons, hstep]; exact a, b, fun t h => c t ?_, ?_⟩
      · rcases h with h | ⟨n', hn', h1, h2⟩
        · exact Or.inl (e2 t (Or.inr h))
        · rcases List.mem_cons.1 hn' with rfl | hn'
          · exact Or.inl (e2 t (Or.inl h2))
          · exact Or.inr ⟨n', hn', h1, h2⟩
      · rw [d]; simp [hi, st1]

theorem mem_parseModel {T V : Type} (byDepth : ℕ → List (GNode T V)) (D : ℕ) (n : GNode T V) :
    n ∈ parseModel byDepth D ↔ ∃ d ≤ D, n ∈ byDepth d := by
  simp [parseModel, Nat.lt_succ_iff]

/-- In the listing, everything of larger depth comes before a node: by position. -/
theorem parseModel_prefix {T V : Type} (byDepth : ℕ → List (GNode T V)) (D : ℕ) (pre post : List (GNode T V)) (n : GNode T V)
    (h : parseModel byDepth D = pre ++ n :: post) :
    ∃ d ≤ D, n ∈ byDepth d ∧ ∀ d', d < d' → d' ≤ D → ∀ n' ∈ byDepth d', n' ∈ pre := by
  induction D generalizing pre with
  | zero =>
    refine ⟨0, le_rfl, ?_, fun d' h1 h2 => absurd h1 (by omega)⟩
    have : n ∈ parseModel byDepth 0 := by rw [h]; simp
    simpa [parseModel] using this
  | succ D ih =>
    have e : parseModel byDepth (D + 1) = byDepth (D + 1) ++ parseModel byDepth D := by
      unfold parseModel
      rw [List.range_succ, List.reverse_append]; simp
    rw [e] at h
    rcases List.append_eq_append_iff.1 h with ⟨a, h1, h2⟩ | ⟨a, h1, h2⟩
    · -- pre = byDepth (D+1) ++ a
      obtain ⟨d, hd, hm, hall⟩ := ih a h2
      refine ⟨d, by omega, hm, fun d' h3 h4 n' hn' => ?_⟩
      rw [h1]
      rcases Nat.lt_or_ge D d' with h5 | h5
      · have : d' = D + 1 := by omega
        subst this
        exact List.mem_append_left _ hn'
      · exact List.mem_append_right _ (hall d' h3 h5 n' hn')
    · -- byDepth (D+1) = pre ++ a
      cases a with
      | nil =>
        simp only [List.append_nil, List.nil_append] at h1 h2
        obtain ⟨d, hd, hm, hall⟩ := ih [] (by rw [List.nil_append]; exact h2.symm)
        refine ⟨d, by omega, hm, fun d' h3 h4 n' hn' => ?_⟩
        rcases Nat.lt_or_ge D d' with h5 | h5
        · have : d' = D + 1 := by omega
          subst this
          rw [← h1]; exact hn'
        · exact absurd (hall d' h3 h5 n' hn') (by simp)
      | cons m a =>
        simp only [List.cons_append, List.cons.injEq] at h2
        refine ⟨D + 1, le_rfl, ?_, fun d' h3 h4 => absurd h3 (by omega)⟩
        rw [h1, h2.1]; simp

open Spec in
/-- **C45 (values).** For every model graph acyclic with respect to its depths, every input, and the values `val` the functional
model computes: tracing succeeds, every model output is traced to its value in `val`, and the operations evaluated, in order, are
exactly the nodes of the model that are not input layers, each once, each with the result the functional model has there. -/
theorem C45_graph_replay {T V : Type} [DecidableEq T] (inputs : List (T × V)) (byDepth : ℕ → List (GNode T V)) (D : ℕ)
    (outputs : List T) (val : T → V) (hacyc : DepthOrdered inputs byDepth D) (hval : Solves inputs (parseModel byDepth D) val)
    (hout : ∀ t ∈ outputs, t ∈ inputs.map (·.1) ∨ ∃ n ∈ parseModel byDepth D, n.isInput = false ∧ t ∈ n.produces) :
    traceOutputs inputs (parseModel byDepth D) outputs = some (outputs.map val) ∧
    (traceModel inputs (parseModel byDepth D)).map (·.log) =
      some (((parseModel byDepth D).filter (fun n => !n.isInput)).map fun n => (n.name, n.produces.map val)) := by
  obtain ⟨h1, h2⟩ := hval
  obtain ⟨e1, e2⟩ := assignAll_some val inputs h1 (fun _ => none) (by simp)
  obtain ⟨st', a, b, c, d⟩ := traceNodes_spec val (parseModel byDepth D) ⟨assignAll (fun _ => none) inputs, []⟩ e1 h2 (by
    intro pre post n he t ht
    obtain ⟨dn, hd, hm, hall⟩ := parseModel_prefix byDepth D pre post n he
    rcases hacyc dn hd n hm t ht with h | ⟨d', hd', hlt, n', hn', h3, h4⟩
    · exact Or.inl (e2 t (Or.inl h))
    · exact Or.inr ⟨n', hall d' hlt hd' n' hn', h3, h4⟩)
  have hrun : traceModel inputs (parseModel byDepth D) = some st' := a
  refine ⟨?_, by rw [hrun]; simpa using d⟩
  unfold traceOutputs
  rw [hrun]
  refine graph_mapM_some st'.map val outputs fun t ht => ?_
  have hs : (st'.map t).isSome := c t (by
    rcases hout t ht with h | h
    · exact Or.inl (e2 t (Or.inl h))
    · exact Or.inr h)
  obtain ⟨v, hv⟩ := Option.isSome_iff_exists.1 hs
  rw [hv, b t v hv]

/-- A diamond: `y = x+1`, `z = 2x`, `w = y*z`, with `x = 3` at depths 3 (input layer), 2, 1, 0. -/
def exGraph : ℕ → List (GNode ℕ ℤ)
  | 3 => [⟨"in".toList, true, [], [0], fun _ => []⟩]
  | 2 => [⟨"y".toList, false, [0], [1], fun l => l.map (· + 1)⟩]
  | 1 => [⟨"z".toList, false, [0], [2], fun l => l.map (2 * ·)⟩]
  | 0 => [⟨"w".toList, false, [1, 2], [3], fun l => [l.foldl (· * ·) 1]⟩]
  | _ => []

example : Spec.DepthOrdered [(0, 3)] exGraph 3 ∧ Spec.Solves [(0, 3)] (parseModel exGraph 3) (fun t => [3, 4, 6, 24].getD t 0) ∧
    traceOutputs [(0, 3)] (parseModel exGraph 3) [3] = some [24] := by
  refine ⟨?_, ⟨by simp, ?_⟩, by decide +kernel⟩
  · intro d hd n hn t ht
    have hd' : d = 0 ∨ d = 1 ∨ d = 2 ∨ d = 3 := by omega
    rcases hd' with rfl | rfl | rfl | rfl <;> simp only [exGraph, List.mem_singleton] at hn <;> subst hn <;> simp at ht
    · rcases ht with rfl | rfl
      · exact Or.inr ⟨2, by omega, by omega, _, List.mem_singleton.2 rfl, rfl, by simp⟩
      · exact Or.inr ⟨1, by omega, by omega, _, List.mem_singleton.2 rfl, rfl, by simp⟩
    · subst ht; exact Or.inl (by simp)
    · subst ht; exact Or.inl (by simp)
  · intro n hn hi
    have : parseModel exGraph 3 = exGraph 3 ++ (exGraph 2 ++ (exGraph 1 ++ exGraph 0)) := by rfl
    rw [this] at hn
    simp only [exGraph, List.cons_append, List.nil_append, List.mem_cons, List.not_mem_nil, or_false] at hn
    rcases hn with rfl | rfl | rfl | rfl <;> simp_all

/-! ## Trace keys -/

theorem digits_no {c : Char} (hc : c.isDigit = false) (n : ℕ) : c ∉ Nat.toDigits 10 n := by
  intro h
  have := Nat.isDigit_of_mem_toDigits (by norm_num) (by norm_num) h
  rw [hc] at this; exact absurd this (by simp)

theorem digits_inj {m n : ℕ} (h : Nat.toDigits 10 m = Nat.toDigits 10 n) : m = n := by
  rw [← Nat.ofDigitChars_ten_toDigits (n := m), h, Nat.ofDigitChars_ten_toDigits]

/-- Splitting at the last occurrence of a character. -/
theorem append_sep_inj {c : Char} {a b d e : List Char} (hd : c ∉ d) (he : c ∉ e) (h : a ++ c :: d = b ++ c :: e) : a = b ∧ d = e := by
  rcases List.append_eq_append_iff.1 h with ⟨x, h1, h2⟩ | ⟨x, h1, h2⟩
  · cases x with
    | nil => simp at h1 h2; exact ⟨h1.symm, h2⟩
    | cons y x =>
      simp only [List.cons_append, List.cons.injEq] at h2
      exact absurd (by rw [h2.2]; simp) hd
  · cases x with
    | nil => simp at h1 h2; exact ⟨h1, h2.symm⟩
    | cons y x =>
      simp only [List.cons_append, List.cons.injEq] at h2
      exact absurd (by rw [h2.2]; simp) he

theorem hashName_inj {a b : List Char} {m n : ℕ} (h : hashName a m = hashName b n) : a = b ∧ m = n := by
  obtain ⟨h1, h2⟩ := append_sep_inj (digits_no (by decide) m) (digits_no (by decide) n) h
  exact ⟨h1, digits_inj h2⟩

/-- What a renamed list consists of: a fresh original name, or a name with a larger count than recorded. -/
theorem mem_renameAll (counter : List Char → Option ℕ) (names : List (List Char)) (x : List Char) (hx : x ∈ renameAll counter names) :
    (x ∈ names ∧ counter x = none) ∨ ∃ s ∈ names, ∃ n, x = hashName s n ∧ 1 ≤ n ∧ ∀ c, counter s = some c → c < n := by
  induction names generalizing counter with
  | nil => simp [renameAll] at hx
  | cons s r ih =>
    simp only [renameAll] at hx
    cases hc : counter s with
    | none =>
      simp only [hc, List.mem_cons] at hx
      rcases hx with rfl | hx
      · exact Or.inl ⟨List.mem_cons_self .., hc⟩
      · rcases ih _ hx with ⟨h1, h2⟩ | ⟨t, ht, n, h1, h2, h3⟩
        · by_cases hxs : x = s
          · simp [hxs] at h2
          · exact Or.inl ⟨List.mem_cons_of_mem _ h1, by simpa [hxs] using h2⟩
        · refine Or.inr ⟨t, List.mem_cons_of_mem _ ht, n, h1, h2, fun c hcc => ?_⟩
          by_cases hts : t = s
          · rw [hts, hc] at hcc; exact absurd hcc (by simp)
          · exact h3 c (by simpa [hts] using hcc)
    | some k =>
      simp only [hc, List.mem_cons] at hx
      rcases hx with rfl | hx
      · exact Or.inr ⟨s, List.mem_cons_self .., k + 1, rfl, by omega, fun c hcc => by rw [hc] at hcc; injection hcc with h; omega⟩
      · rcases ih _ hx with ⟨h1, h2⟩ | ⟨t, ht, n, h1, h2, h3⟩
        · by_cases hxs : x = s
          · simp [hxs] at h2
          · exact Or.inl ⟨List.mem_cons_of_mem _ h1, by simpa [hxs] using h2⟩
        · refine Or.inr ⟨t, List.mem_cons_of_mem _ ht, n, h1, h2, fun c hcc => ?_⟩
          by_cases hts : t = s
          · subst hts
            have := h3 (k + 1) (by simp)
            rw [hc] at hcc; injection hcc with h; omega
          · exact h3 c (by simpa [hts] using hcc)

theorem renameAll_nodup (all names : List (List Char)) (hsub : ∀ s ∈ names, s ∈ all)
    (hhash : ∀ a ∈ all, ∀ b ∈ all, ∀ n, 1 ≤ n → a ≠ hashName b n) (counter : List Char → Option ℕ) :
    (renameAll counter names).Nodup := by
  induction names generalizing counter with
  | nil => simp [renameAll]
  | cons s r ih =>
    have hs := hsub s (List.mem_cons_self ..)
    have hr : ∀ s ∈ r, s ∈ all := fun t ht => hsub t (List.mem_cons_of_mem _ ht)
    simp only [renameAll]
    cases hc : counter s with
    | none =>
      simp only
      refine List.nodup_cons.2 ⟨fun hm => ?_, ih hr _⟩
      rcases mem_renameAll _ r s hm with ⟨_, h2⟩ | ⟨t, ht, n, h1, h2, _⟩
      · simp at h2
      · exact hhash s hs t (hr t ht) n h2 h1
    | some k =>
      simp only
      refine List.nodup_cons.2 ⟨fun hm => ?_, ih hr _⟩
      rcases mem_renameAll _ r _ hm with ⟨h1, _⟩ | ⟨t, ht, n, h1, h2, h3⟩
      · exact hhash _ (hr _ h1) s hs (k + 1) (by omega) rfl
      · obtain ⟨rfl, rfl⟩ := hashName_inj h1
        have := h3 (k + 1) (by simp)
        omega

theorem renameAll_length (counter : List Char → Option ℕ) (names : List (List Char)) :
    (renameAll counter names).length = names.length := by
  induction names generalizing counter with
  | nil => rfl
  | cons s r ih => simp only [renameAll]; cases counter s <;> simp [ih]

/-- **C45 (keys, partial).** If no operation name contains `/` (Keras forbids it) and no operation is named like another one followed
by `#` and a number, then all keys of the trace are distinct: no entry is overwritten, however often layers are shared.
Missing: names with `#`, see `C45_keys_violated`. -/
theorem C45_keys_partial (ops : List (List Char × List (List Char))) (hslash : ∀ o ∈ ops, '/' ∉ o.1)
    (hstage : ∀ o ∈ ops, o.2.Nodup) (hhash : ∀ a ∈ ops, ∀ b ∈ ops, ∀ n, 1 ≤ n → a.1 ≠ hashName b.1 n) :
    (traceKeys ops).Nodup := by
  set names := renameAll (fun _ => none) (ops.map (·.1)) with hnames
  have hnd : names.Nodup := by
    refine renameAll_nodup (ops.map (·.1)) _ (fun _ h => h) ?_ _
    intro a ha b hb n hn
    obtain ⟨p, hp, rfl⟩ := List.mem_map.1 ha
    obtain ⟨q, hq, rfl⟩ := List.mem_map.1 hb
    exact hhash p hp q hq n hn
  have hns : ∀ x ∈ names, '/' ∉ x := by
    intro x hx
    rcases mem_renameAll _ _ x hx with ⟨h, _⟩ | ⟨s, hs, n, rfl, _, _⟩
    · obtain ⟨p, hp, rfl⟩ := List.mem_map.1 h; exact hslash p hp
    · obtain ⟨p, hp, rfl⟩ := List.mem_map.1 hs
      simp only [hashName, List.mem_append, List.mem_cons, not_or]
      exact ⟨hslash p hp, by decide, digits_no (by decide) n⟩
  unfold traceKeys
  rw [List.nodup_flatMap]
  constructor
  · intro p hp
    have h2 : p.2.Nodup := by
      have := (List.of_mem_zip hp).2
      obtain ⟨o, ho, h⟩ := List.mem_map.1 this
      rw [← h]; exact hstage o ho
    refine h2.map ?_
    intro a b hab
    simpa using hab
  · have hpw : (names.zip (ops.map (·.2))).Pairwise fun p q => p.1 ≠ q.1 := by
      have h1 : ((names.zip (ops.map (·.2))).map (·.1)) = names := by
        rw [List.map_fst_zip]; rw [hnames, renameAll_length]; simp
      have h2 : ((names.zip (ops.map (·.2))).map (·.1)).Nodup := by rw [h1]; exact hnd
      rwa [List.Nodup, List.pairwise_map] at h2
    refine hpw.imp_of_mem ?_
    intro p q hp hq hne x hxp hxq
    obtain ⟨k1, _, rfl⟩ := List.mem_map.1 hxp
    obtain ⟨k2, _, h⟩ := List.mem_map.1 hxq
    simp only [List.cons_append, List.cons.injEq, true_and] at h
    -- split at the first slash
    have n1 := hns p.1 (List.of_mem_zip hp).1
    have n2 := hns q.1 (List.of_mem_zip hq).1
    rcases List.append_eq_append_iff.1 h with ⟨a, h1, h2⟩ | ⟨a, h1, h2⟩
    · cases a with
      | nil => exact hne (by simpa using h1)
      | cons y a =>
        simp only [List.cons_append, List.cons.injEq] at h2
        rw [h1, ← h2.1] at n1; simp at n1
    · cases a with
      | nil => exact hne (by simpa using h1.symm)
      | cons y a =>
        simp only [List.cons_append, List.cons.injEq] at h2
        rw [h1, ← h2.1] at n2; simp at n2

/-- A shared layer `d` called three times and a layer `e`: six distinct keys. -/
example : traceKeys [("d".toList, ["post_iq".toList, "final".toList]), ("e".toList, ["final".toList]), ("d".toList, ["final".toList]),
      ("d".toList, ["final".toList])] =
    ["/d/post_iq".toList, "/d/final".toList, "/e/final".toList, "/d#1/final".toList, "/d#2/final".toList] := by decide +kernel

/-- **C45 violated** for names with `#`: a layer `a` called twice and a layer named `a#1` share a key. -/
theorem C45_keys_violated :
    traceKeys [("a".toList, ["final".toList]), ("a".toList, ["final".toList]), ("a#1".toList, ["final".toList])] =
      ["/a/final".toList, "/a#1/final".toList, "/a#1/final".toList] := by decide +kernel

/-- **C45 violated** for nested models with several inputs: the recorded call has one argument, the list, and the length check
fails — for every number of inputs but one. -/
theorem C45_nested_violated {V : Type} (vs : List V) : nestedArgsOk vs.length (functionalArgs vs) = true ↔ vs.length = 1 := by
  match vs with
  | [] => simp [functionalArgs, nestedArgsOk]
  | [v] => simp [functionalArgs, nestedArgsOk]
  | v :: w :: r => simp [functionalArgs, nestedArgsOk]

end HGQ
