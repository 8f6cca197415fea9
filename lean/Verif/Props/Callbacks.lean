import Verif.Model.Callbacks
import Mathlib.Tactic.Linarith
import Mathlib.Data.List.Nodup

/-! # C34–C36: StopIf, early stopping, Pareto front -/
namespace HGQ

/-! ## C34 -/
namespace Spec
/-- The last `m` checks of the history were all hits. -/
def LastHits (m : ℕ) (h : List Bool) : Prop := m ≤ h.length ∧ ∀ b ∈ h.drop (h.length - m), b = true
end Spec
open Spec

/-- Length of the run of hits at the end. -/
def trail (h : List Bool) : ℕ := (h.reverse.takeWhile id).length

theorem trail_append (h : List Bool) (b : Bool) : trail (h ++ [b]) = if b then trail h + 1 else 0 := by
  unfold trail; cases b <;> simp [List.takeWhile_cons]

theorem trail_le (h : List Bool) : trail h ≤ h.length := by
  unfold trail
  have := (List.takeWhile_sublist (l := h.reverse) id).length_le
  simpa using this

theorem lastHits_iff (m : ℕ) (h : List Bool) : LastHits m h ↔ m ≤ trail h := by
  induction h using List.reverseRecOn generalizing m with
  | nil => simp [LastHits, trail]
  | append_singleton h b ih =>
    rw [trail_append]
    cases m with
    | zero => simp [LastHits]
    | succ m =>
      have : LastHits (m + 1) (h ++ [b]) ↔ LastHits m h ∧ b = true := by
        unfold LastHits
        simp only [List.length_append, List.length_singleton, Nat.add_sub_add_right, Nat.add_le_add_iff_right]
        rw [List.drop_append_of_le_length (by omega)]
        simp only [List.mem_append, List.mem_singleton]
        constructor
        · rintro ⟨h1, h2⟩; exact ⟨⟨h1, fun x hx => h2 x (Or.inl hx)⟩, h2 b (Or.inr rfl)⟩
        · rintro ⟨⟨h1, h2⟩, h3⟩; exact ⟨h1, fun x hx => hx.elim (h2 x) (fun e => e ▸ h3)⟩
      rw [this, ih]
      cases b <;> simp

/-- **C34** (exact behaviour) After any history of checks (starting from a fresh callback) the stop flag is set iff at some
point the last `patience + 1` checks were all hits; a miss resets the count. -/
theorem C34_fires_iff_partial (patience : ℕ) (h : List Bool) :
    ((h.foldl (stopIfStep patience) ⟨0, false⟩).stop = true ↔ ∃ n, LastHits (patience + 1) (h.take n)) ∧
    (h.foldl (stopIfStep patience) ⟨0, false⟩).counter = trail h := by
  induction h using List.reverseRecOn with
  | nil => simp [LastHits, trail]
  | append_singleton h b ih =>
    rw [List.foldl_append]
    simp only [List.foldl_cons, List.foldl_nil]
    set s := h.foldl (stopIfStep patience) ⟨0, false⟩ with hs
    have hcnt : (stopIfStep patience s b).counter = trail (h ++ [b]) := by
      rw [trail_append]; unfold stopIfStep; cases b <;> simp [ih.2]
    refine ⟨?_, hcnt⟩
    have hex : (∃ n, LastHits (patience + 1) ((h ++ [b]).take n)) ↔
        (∃ n, LastHits (patience + 1) (h.take n)) ∨ LastHits (patience + 1) (h ++ [b]) := by
      constructor
      · rintro ⟨n, hn⟩
        rcases Nat.lt_or_ge h.length n with g | g
        · right; rwa [List.take_of_length_le (by simp; omega)] at hn
        · left; rw [List.take_append_of_le_length g] at hn; exact ⟨n, hn⟩
      · rintro (⟨n, hn⟩ | hn)
        · rcases Nat.lt_or_ge h.length n with g | g
          · rw [List.take_of_length_le (by omega)] at hn
            exact ⟨h.length, by rw [List.take_append_of_le_length (le_refl _), List.take_length]; exact hn⟩
          · exact ⟨n, by rw [List.take_append_of_le_length g]; exact hn⟩
        · exact ⟨h.length + 1, by rw [List.take_of_length_le (by simp)]; exact hn⟩
    rw [hex, ← ih.1, lastHits_iff, ← hcnt]
    unfold stopIfStep
    cases b with
    | false => simp
    | true =>
      simp only [if_true]
      by_cases g : s.counter + 1 > patience
      · simp only [g, if_true, true_iff]; right; omega
      · simp only [g, if_false]
        constructor
        · exact Or.inl
        · rintro (h | h)
          · exact h
          · omega

/-- **C34** is false as documented ("`patience_epochs=3`: stop when the condition holds for 3 consecutive epochs"): for every
patience `p ≥ 1`, after `p` consecutive hits and nothing else the training is not stopped. -/
theorem C34_off_by_one_violated (p : ℕ) (hp : 1 ≤ p) :
    LastHits p (List.replicate p true) ∧ ((List.replicate p true).foldl (stopIfStep p) ⟨0, false⟩).stop = false := by
  refine ⟨⟨by simp, by simp⟩, ?_⟩
  by_contra h
  rw [Bool.not_eq_false] at h
  obtain ⟨n, hn, -⟩ := (C34_fires_iff_partial p _).1.1 h
  simp at hn

/-! ## C35 -/

/-- **C35** For any inner early-stopping machine, any history and threshold: the inner state evolves exactly as in plain
early stopping; the stop flag is raised in an epoch iff plain early stopping requests it in that epoch and the EBOPs of that
epoch do not exceed the threshold; an already raised flag stays. -/
theorem C35_early_stopping {σ ι : Type} (es : ES σ ι) (thr : ℝ) (s : σ × Bool) (h : List (ι × ℝ)) :
    (h.foldl (esEbops es thr) s).1 = h.foldl (fun s i => (es.step s i.1).1) s.1 ∧
    ((h.foldl (esEbops es thr) s).2 = true ↔ s.2 = true ∨ ∃ (n : ℕ) (x : ι × ℝ), h[n]? = some x ∧ x.2 ≤ thr ∧
      (es.step ((h.take n).foldl (fun s i => (es.step s i.1).1) s.1) x.1).2 = true) := by
  induction h using List.reverseRecOn with
  | nil => simp
  | append_singleton h b ih =>
    simp only [List.foldl_append, List.foldl_cons, List.foldl_nil]
    set r := h.foldl (esEbops es thr) s with hr
    refine ⟨by simp only [esEbops, ih.1], ?_⟩
    have hsplit : (∃ (n : ℕ) (x : ι × ℝ), (h ++ [b])[n]? = some x ∧ x.2 ≤ thr ∧
        (es.step (((h ++ [b]).take n).foldl (fun s i => (es.step s i.1).1) s.1) x.1).2 = true) ↔
        (∃ (n : ℕ) (x : ι × ℝ), h[n]? = some x ∧ x.2 ≤ thr ∧
          (es.step ((h.take n).foldl (fun s i => (es.step s i.1).1) s.1) x.1).2 = true) ∨
        (b.2 ≤ thr ∧ (es.step (h.foldl (fun s i => (es.step s i.1).1) s.1) b.1).2 = true) := by
      constructor
      · rintro ⟨n, x, hx, h1, h2⟩
        have hn := (List.getElem?_eq_some_iff.1 hx).1
        simp at hn
        rcases Nat.lt_or_ge n h.length with g | g
        · left
          rw [List.getElem?_append_left g] at hx
          rw [List.take_append_of_le_length g.le] at h2
          exact ⟨n, x, hx, h1, h2⟩
        · right
          have : n = h.length := by omega
          subst this
          simp at hx
          subst hx
          rw [List.take_append_of_le_length (le_refl _), List.take_length] at h2
          exact ⟨h1, h2⟩
      · rintro (⟨n, x, hx, h1, h2⟩ | ⟨h1, h2⟩)
        · have g := (List.getElem?_eq_some_iff.1 hx).1
          exact ⟨n, x, by rw [List.getElem?_append_left g]; exact hx, h1, by rw [List.take_append_of_le_length g.le]; exact h2⟩
        · exact ⟨h.length, b, by simp, h1, by rw [List.take_append_of_le_length (le_refl _), List.take_length]; exact h2⟩
    rw [hsplit, ← or_assoc, ← ih.2]
    unfold esEbops
    simp only
    rw [ih.1]
    by_cases g : thr < b.2
    · rw [if_pos g]; simp [not_le.2 g]
    · rw [if_neg g]; simp [not_lt.1 g]

/-- Instance: an inner machine that requests a stop from the second epoch on; the first request is above threshold. -/
example : let es : ES ℕ Unit := ⟨fun n _ => (n + 1, decide (1 ≤ n))⟩
    (([((), 1), ((), 9)] : List (Unit × ℝ)).foldl (esEbops es 5) (0, false)).2 = false ∧
    (([((), 1), ((), 9), ((), 4)] : List (Unit × ℝ)).foldl (esEbops es 5) (0, false)).2 = true := by
  constructor <;> norm_num [esEbops]

/-! ## C36 -/
namespace Spec
/-- `a` is at least as good as `b` in every metric (`sides` says which direction is good). -/
def WeaklyDominates (sides a b : List ℚ) : Prop :=
  ∀ (i : ℕ) (s x y : ℚ), sides[i]? = some s → a[i]? = some x → b[i]? = some y → s * y ≤ s * x
/-- `a` is strictly better than `b` in every metric. -/
def StrictlyDominates (sides a b : List ℚ) : Prop :=
  ∀ (i : ℕ) (s x y : ℚ), sides[i]? = some s → a[i]? = some x → b[i]? = some y → s * y < s * x
end Spec

theorem zipAll {sides new old : List ℚ} (r : ℚ → ℚ → Prop) [DecidableRel r] :
    ((List.zipWith (· * ·) sides new).zip (List.zipWith (· * ·) sides old)).all (fun p => decide (r p.1 p.2)) = true ↔
    ∀ (i : ℕ) (s x y : ℚ), sides[i]? = some s → new[i]? = some x → old[i]? = some y → r (s * x) (s * y) := by
  rw [List.all_eq_true]
  constructor
  · intro h i s x y hs hx hy
    have hm : (s * x, s * y) ∈ (List.zipWith (· * ·) sides new).zip (List.zipWith (· * ·) sides old) := by
      apply List.mem_iff_getElem?.2
      refine ⟨i, ?_⟩
      rw [List.getElem?_zip_eq_some, List.getElem?_zipWith, List.getElem?_zipWith]
      simp [hs, hx, hy]
    simpa using h _ hm
  · intro h p hp
    obtain ⟨i, hi⟩ := List.mem_iff_getElem?.1 hp
    rw [List.getElem?_zip_eq_some, List.getElem?_zipWith_eq_some, List.getElem?_zipWith_eq_some] at hi
    obtain ⟨⟨s, x, hs, hx, e1⟩, ⟨s', y, hs', hy, e2⟩⟩ := hi
    rw [hs] at hs'
    cases hs'
    have := h i s x y hs hx hy
    rw [e1, e2] at this
    simpa using this

theorem allLe_iff (sides new old : List ℚ) : allLe sides new old = true ↔ WeaklyDominates sides old new := by
  unfold allLe
  rw [zipAll (fun a b => a ≤ b)]
  constructor
  · intro h i s x y hs hx hy; exact h i s y x hs hy hx
  · intro h i s x y hs hx hy; exact h i s y x hs hy hx

theorem allGt_iff (sides new old : List ℚ) : allGt sides new old = true ↔ StrictlyDominates sides new old := by
  unfold allGt
  rw [zipAll (fun a b => b < a)]
  rfl

theorem weak_refl (sides a : List ℚ) : WeaklyDominates sides a a := by
  intro i s x y _ hx hy; rw [hx] at hy; cases hy; exact le_refl _

theorem strict_weak {sides a b : List ℚ} (h : StrictlyDominates sides a b) : WeaklyDominates sides a b :=
  fun i s x y hs hx hy => (h i s x y hs hx hy).le

/-- Transitivity needs the middle vector to have all entries: metric vectors have as many entries as `sides`. -/
theorem weak_trans {sides a b c : List ℚ} (hb : b.length = sides.length) (h1 : WeaklyDominates sides a b)
    (h2 : WeaklyDominates sides b c) : WeaklyDominates sides a c := by
  intro i s x z hs hx hz
  have hi := (List.getElem?_eq_some_iff.1 hs).1
  have hy : b[i]? = some (b[i]'(by omega)) := List.getElem?_eq_getElem _
  exact (h2 i s _ z hs hy hz).trans (h1 i s x _ hs hx hy)

theorem removeAll_spec (files ps : List String) (hnd : ps.Nodup) (hsub : ∀ p ∈ ps, p ∈ files) :
    removeAll files ps = some (files.filter (fun f => f ∉ ps)) := by
  induction ps generalizing files with
  | nil => simp [removeAll]
  | cons p ps ih =>
    have h1 : p ∈ files := hsub p (by simp)
    rw [List.nodup_cons] at hnd
    simp only [removeAll, List.contains_iff_mem, h1, if_true]
    rw [ih _ hnd.2]
    · rw [List.filter_filter]
      congr 1
      apply List.filter_congr
      intro f _
      by_cases e : f = p <;> simp [e]
    · intro q hq
      simp only [List.mem_filter, decide_eq_true_eq]
      exact ⟨hsub q (by simp [hq]), by rintro rfl; exact hnd.1 hq⟩

/-- Invariant over histories. `seen` are the checkpoint candidates so far. -/
structure ParetoInv (sides : List ℚ) (seen : List (List ℚ × String)) (s : Pareto) : Prop where
  sub : ∀ e ∈ s.entries, e ∈ seen
  anti : s.entries.Pairwise (fun a b => ¬ WeaklyDominates sides a.1 b.1 ∧ ¬ StrictlyDominates sides b.1 a.1)
  cover : ∀ e ∈ seen, ∃ r ∈ s.entries, WeaklyDominates sides r.1 e.1
  names : (s.entries.map Prod.snd).Nodup
  files : s.files.Nodup ∧ ∀ f, f ∈ s.files ↔ f ∈ s.entries.map Prod.snd

theorem pareto_step (sides : List ℚ) (seen : List (List ℚ × String)) (s : Pareto) (h : ParetoInv sides seen s)
    (hl : ∀ e ∈ seen, e.1.length = sides.length) (m : List ℚ) (p : String)
    (hp : p ∉ seen.map Prod.snd) :
    ∃ s', paretoStep sides s m p = some s' ∧ ParetoInv sides (seen ++ [(m, p)]) s' := by
  unfold paretoStep
  by_cases hany : s.entries.any (fun e => allLe sides m e.1) = true
  · rw [if_pos hany]
    refine ⟨s, rfl, ?_, h.anti, ?_, h.names, h.files⟩
    · intro e he; exact List.mem_append_left _ (h.sub e he)
    · intro e he
      rcases List.mem_append.1 he with he | he
      · exact h.cover e he
      · simp at he
        subst he
        obtain ⟨r, hr, hle⟩ := List.any_eq_true.1 hany
        exact ⟨r, hr, (allLe_iff _ _ _).1 hle⟩
  · rw [if_neg hany]
    have hno : ∀ e ∈ s.entries, ¬ WeaklyDominates sides e.1 m := by
      intro e he hw
      exact hany (List.any_eq_true.2 ⟨e, he, (allLe_iff _ _ _).2 hw⟩)
    set rm := s.entries.filter (fun e => allGt sides m e.1) with hrm
    set keep := s.entries.filter (fun e => !allGt sides m e.1) with hkeep
    have hrmnd : ((rm.map Prod.snd).reverse).Nodup :=
      List.nodup_reverse.2 (List.Nodup.sublist (List.Sublist.map _ List.filter_sublist) h.names)
    have hsub : ∀ q ∈ (rm.map Prod.snd).reverse, q ∈ s.files := by
      intro q hq
      rw [List.mem_reverse] at hq
      obtain ⟨e, he, rfl⟩ := List.mem_map.1 hq
      exact (h.files.2 _).2 (List.mem_map_of_mem (List.mem_filter.1 he).1)
    simp only [removeAll_spec _ _ hrmnd hsub, Option.map_some]
    have hpne : p ∉ s.entries.map Prod.snd := by
      intro hc
      obtain ⟨e, he, rfl⟩ := List.mem_map.1 hc
      exact hp (List.mem_map_of_mem (h.sub e he))
    have hpf : p ∉ s.files.filter (fun f => f ∉ (rm.map Prod.snd).reverse) := by
      intro hc
      exact hpne ((h.files.2 p).1 (List.mem_filter.1 hc).1)
    have hkeepmem : ∀ e, e ∈ keep ↔ e ∈ s.entries ∧ ¬ StrictlyDominates sides m e.1 := by
      intro e
      rw [hkeep, List.mem_filter, ← allGt_iff]; simp
    refine ⟨_, rfl, ?_, ?_, ?_, ?_, ?_⟩
    · intro e he
      rcases List.mem_append.1 he with he | he
      · exact List.mem_append_left _ (h.sub e ((hkeepmem e).1 he).1)
      · exact List.mem_append_right _ he
    · simp only
      rw [List.pairwise_append]
      refine ⟨List.Pairwise.filter _ h.anti, by simp, ?_⟩
      intro a ha b hb
      simp at hb
      subst hb
      have := (hkeepmem a).1 ha
      exact ⟨hno a this.1, this.2⟩
    · intro e he
      rcases List.mem_append.1 he with he | he
      · obtain ⟨r, hr, hw⟩ := h.cover e he
        by_cases hs : StrictlyDominates sides m r.1
        · exact ⟨(m, p), by simp, weak_trans (hl r (h.sub r hr)) (strict_weak hs) hw⟩
        · exact ⟨r, List.mem_append_left _ ((hkeepmem r).2 ⟨hr, hs⟩), hw⟩
      · simp at he
        subst he
        exact ⟨(m, p), by simp, weak_refl _ _⟩
    · simp only [List.map_append, List.map_cons, List.map_nil]
      rw [List.nodup_append]
      refine ⟨List.Nodup.sublist (List.Sublist.map _ List.filter_sublist) h.names, by simp, ?_⟩
      intro a ha b hb
      simp at hb
      subst hb
      rintro rfl
      obtain ⟨e, he, hea⟩ := List.mem_map.1 ha
      exact hpne (List.mem_map.2 ⟨e, ((hkeepmem e).1 he).1, hea⟩)
    · simp only [List.contains_iff_mem, hpf, if_false]
      constructor
      · rw [List.nodup_append]
        refine ⟨h.files.1.filter _, by simp, ?_⟩
        intro a ha b hb
        simp at hb
        subst hb
        rintro rfl
        exact hpf ha
      · intro f
        simp only [List.mem_append, List.mem_filter, List.map_append, List.mem_singleton, List.map_cons, List.map_nil,
          decide_eq_true_eq, List.mem_reverse]
        refine or_congr_left ?_
        rw [h.files.2]
        constructor
        · rintro ⟨h1, h2⟩
          obtain ⟨e, he, rfl⟩ := List.mem_map.1 h1
          refine List.mem_map.2 ⟨e, (hkeepmem e).2 ⟨he, ?_⟩, rfl⟩
          intro hs
          exact h2 (List.mem_map.2 ⟨e, by rw [hrm, List.mem_filter]; exact ⟨he, (allGt_iff _ _ _).2 hs⟩, rfl⟩)
        · intro h1
          obtain ⟨e, he, rfl⟩ := List.mem_map.1 h1
          have hk := (hkeepmem e).1 he
          refine ⟨List.mem_map_of_mem hk.1, ?_⟩
          intro h2
          obtain ⟨e', he', hee⟩ := List.mem_map.1 h2
          rw [hrm, List.mem_filter] at he'
          have : e' = e := List.inj_on_of_nodup_map h.names he'.1 hk.1 hee
          subst this
          exact hk.2 ((allGt_iff _ _ _).1 he'.2)

/-- **C36** (partial) After any history of checkpoint candidates with distinct file names, starting empty: no exception; each
record was seen; of two records the later is not weakly dominated by the earlier, and the earlier is not strictly dominated
by the later; every candidate seen is weakly dominated by a record; the files on disk are exactly those of the records, one
each.  Missing: the earlier record may be weakly dominated by the later one, `C36_dominated_record_violated`, and colliding
names, `C36_collision_violated`. -/
theorem C36_front_partial (sides : List ℚ) (h : List (List ℚ × String)) (hl : ∀ e ∈ h, e.1.length = sides.length)
    (hn : (h.map Prod.snd).Nodup) :
    ∃ s, paretoRun sides ⟨[], []⟩ h = some s ∧ (∀ e ∈ s.entries, e ∈ h) ∧
      s.entries.Pairwise (fun a b => ¬ WeaklyDominates sides a.1 b.1 ∧ ¬ StrictlyDominates sides b.1 a.1) ∧
      (∀ e ∈ h, ∃ r ∈ s.entries, WeaklyDominates sides r.1 e.1) ∧
      s.files.Nodup ∧ (s.entries.map Prod.snd).Nodup ∧ (∀ f, f ∈ s.files ↔ f ∈ s.entries.map Prod.snd) := by
  have gen : ∀ (t seen : List (List ℚ × String)) (s : Pareto), ParetoInv sides seen s →
      (∀ e ∈ seen ++ t, e.1.length = sides.length) → ((seen ++ t).map Prod.snd).Nodup →
      ∃ s', paretoRun sides s t = some s' ∧ ParetoInv sides (seen ++ t) s' := by
    intro t
    induction t with
    | nil => intro seen s hi _ _; exact ⟨s, rfl, by simpa using hi⟩
    | cons a r ih =>
      intro seen s hi hlen hnod
      obtain ⟨m, p⟩ := a
      have hp : p ∉ seen.map Prod.snd := by
        rw [List.map_append, List.nodup_append] at hnod
        intro hc
        exact hnod.2.2 p hc p (by simp) rfl
      obtain ⟨s', hs', hi'⟩ := pareto_step sides seen s hi (fun e he => hlen e (by simp [he])) m p hp
      obtain ⟨s'', h1, h2⟩ := ih (seen ++ [(m, p)]) s' hi' (by simpa using hlen) (by simpa using hnod)
      exact ⟨s'', by simp only [paretoRun, hs', Option.bind_some]; exact h1, by simpa using h2⟩
  obtain ⟨s, h1, h2⟩ := gen h [] ⟨[], []⟩ ⟨by simp, by simp, by simp, by simp, by simp⟩ (by simpa using hl) (by simpa using hn)
  simp only [List.nil_append] at h2
  exact ⟨s, h1, h2.sub, h2.anti, h2.cover, h2.files.1, h2.names, h2.files.2⟩

/-- **C36** is false in general: metrics (1,1) then (2,1) (both to be maximised): the second improves one metric and ties
the other, but the first stays on the recorded "front". -/
theorem C36_dominated_record_violated :
    ∃ s a b, paretoRun [1, 1] ⟨[], []⟩ [([1, 1], "a"), ([2, 1], "b")] = some s ∧ a ∈ s.entries ∧ b ∈ s.entries ∧
      WeaklyDominates [1, 1] b.1 a.1 ∧ ¬ WeaklyDominates [1, 1] a.1 b.1 := by
  refine ⟨⟨[([1, 1], "a"), ([2, 1], "b")], ["a", "b"]⟩, ([1, 1], "a"), ([2, 1], "b"), ?_, by simp, by simp, ?_, ?_⟩
  · decide +kernel
  · rw [← allLe_iff]; decide +kernel
  · rw [← allLe_iff]; decide +kernel

/-- **C36** With a file name format that does not tell two epochs apart, two records share one file, and the next
improvement that removes both raises (second `os.remove` of the same path). -/
theorem C36_collision_violated :
    paretoRun [1, 1] ⟨[], []⟩ [([1, 2], "m.keras"), ([2, 1], "m.keras")] =
      some ⟨[([1, 2], "m.keras"), ([2, 1], "m.keras")], ["m.keras"]⟩ ∧
    paretoRun [1, 1] ⟨[], []⟩ [([1, 2], "m.keras"), ([2, 1], "m.keras"), ([3, 3], "n.keras")] = none := by
  decide +kernel

end HGQ
