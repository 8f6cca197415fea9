import Verif.Model.Config
import Mathlib.Data.List.Nodup
import Mathlib.Data.List.Lookmap
import Mathlib.Tactic.Push
import Mathlib.Tactic.Linarith

/-! # Helper lemmas on configs and scopes -/
namespace HGQ

theorem lookup_none_iff (kw : Kw) (k : String) : kw.lookup k = none ↔ k ∉ kw.map Prod.fst := by
  induction kw with
  | nil => simp
  | cons p r ih =>
    obtain ⟨k', v⟩ := p
    by_cases h : k = k'
    · subst h; simp [List.lookup_cons]
    · have : (k == k') = false := by simpa using h
      simp [List.lookup_cons, this, h]
      simpa using ih

theorem lookup_mem {kw : Kw} {k : String} {v : Val} (h : kw.lookup k = some v) : (k, v) ∈ kw := by
  induction kw with
  | nil => simp at h
  | cons p r ih =>
    obtain ⟨k', v'⟩ := p
    by_cases hk : k = k'
    · subst hk; simp [List.lookup_cons] at h; subst h; simp
    · have : (k == k') = false := by simpa using hk
      simp only [List.lookup_cons, this] at h
      exact List.mem_cons_of_mem _ (ih h)

theorem lookup_of_mem {kw : Kw} (hn : (kw.map Prod.fst).Nodup) {k : String} {v : Val} (h : (k, v) ∈ kw) :
    kw.lookup k = some v := by
  induction kw with
  | nil => simp at h
  | cons p r ih =>
    obtain ⟨k', v'⟩ := p
    simp only [List.map_cons, List.nodup_cons] at hn
    rcases List.mem_cons.1 h with heq | hr
    · obtain ⟨rfl, rfl⟩ := Prod.mk.inj heq; simp [List.lookup_cons]
    · have hne : k ≠ k' := by
        rintro rfl; exact hn.1 (List.mem_map.2 ⟨(k, v), hr, rfl⟩)
      have : (k == k') = false := by simpa using hne
      simp only [List.lookup_cons, this]
      exact ih hn.2 hr

theorem set_lookup (kw : Kw) (k : String) (v : Val) (k' : String) :
    (kw.set k v).lookup k' = if k' = k then some v else kw.lookup k' := by
  unfold Kw.set
  split_ifs with h hk hk
  · subst hk
    induction kw with
    | nil => simp at h
    | cons p r ih =>
      obtain ⟨a, b⟩ := p
      by_cases hab : a = k'
      · subst hab; simp [List.lookup_cons]
      · have hb : (a == k') = false := by simpa using hab
        have hb' : (k' == a) = false := by simpa using Ne.symm hab
        simp only [List.any_cons, hb, Bool.false_or] at h
        simp [List.lookup_cons, hab, hb']
        simpa using ih h
  · clear h
    induction kw with
    | nil => simp
    | cons p r ih =>
      obtain ⟨a, b⟩ := p
      by_cases hab : a = k
      · subst hab
        have : (k' == a) = false := by simpa using hk
        simp [List.lookup_cons, this]
        simpa using ih
      · by_cases hka : k' = a
        · subst hka; simp [List.lookup_cons, hab]
        · have : (k' == a) = false := by simpa using hka
          simp [List.lookup_cons, hab, this]
          simpa using ih
  · subst hk
    have : kw.lookup k' = none := by
      rw [lookup_none_iff]
      simp only [List.any_eq_true, beq_iff_eq, not_exists, not_and] at h
      simp only [List.mem_map, not_exists, not_and]
      exact h
    simp [List.lookup_append, this]
  · have : (k' == k) = false := by simpa using hk
    simp [List.lookup_append, List.lookup_cons, this]

theorem set_keys (kw : Kw) (k : String) (v : Val) :
    (kw.set k v).map Prod.fst = if k ∈ kw.map Prod.fst then kw.map Prod.fst else kw.map Prod.fst ++ [k] := by
  unfold Kw.set
  have hiff : kw.any (fun p => p.1 == k) = true ↔ k ∈ kw.map Prod.fst := by simp
  by_cases h : k ∈ kw.map Prod.fst
  · rw [if_pos (hiff.2 h), if_pos h, List.map_map]
    apply List.map_congr_left
    intro p _
    simp only [Function.comp]
    split_ifs with h'
    · exact (beq_iff_eq.1 h').symm
    · rfl
  · rw [if_neg (fun h' => h (hiff.1 h')), if_neg h]; simp

theorem set_nodup {kw : Kw} (hn : (kw.map Prod.fst).Nodup) (k : String) (v : Val) :
    ((kw.set k v).map Prod.fst).Nodup := by
  rw [set_keys]
  split_ifs with h
  · exact hn
  · rw [List.nodup_append]
    exact ⟨hn, by simp, by
      intro a ha b hb
      simp at hb
      subst hb
      rintro rfl
      exact h ha⟩

theorem set_mem_keys (kw : Kw) (k : String) (v : Val) (k' : String) :
    k' ∈ (kw.set k v).map Prod.fst ↔ k' = k ∨ k' ∈ kw.map Prod.fst := by
  rw [set_keys]
  split_ifs with h
  · constructor
    · exact Or.inr
    · rintro (rfl | h') <;> assumption
  · simp only [List.mem_append, List.mem_singleton]; tauto

/-- What the axis bookkeeping does. -/
theorem normalizeAxes_spec (kw : Kw) :
    (kw.get "homogeneous_axis" ≠ .none ∧ kw.get "heterogeneous_axis" ≠ .none ∧ normalizeAxes kw = .error .assertion) ∨
    ((kw.get "homogeneous_axis" = .none ∨ kw.get "heterogeneous_axis" = .none) ∧
      ∃ kw', normalizeAxes kw = .ok kw' ∧
      ((kw.map Prod.fst).Nodup → (kw'.map Prod.fst).Nodup) ∧
      (∀ k, k ∈ kw'.map Prod.fst → k ∈ kw.map Prod.fst ∨ k = "homogeneous_axis" ∨ k = "heterogeneous_axis") ∧
      (∀ k, k ∈ kw.map Prod.fst → k ∈ kw'.map Prod.fst) ∧
      ∀ k, kw'.lookup k =
        if k = "heterogeneous_axis" ∧ kw.get "homogeneous_axis" ≠ .none then some .none
        else if k = "homogeneous_axis" ∧ kw.get "heterogeneous_axis" ≠ .none then some .none
        else kw.lookup k) := by
  by_cases h1 : kw.get "homogeneous_axis" = .none
  · right
    refine ⟨Or.inl h1, ?_⟩
    by_cases h2 : kw.get "heterogeneous_axis" = .none
    · exact ⟨kw, by simp [normalizeAxes, h1, h2], id, fun k hk => Or.inl hk, fun k hk => hk, by simp [h1, h2]⟩
    · refine ⟨kw.set "homogeneous_axis" .none, by simp [normalizeAxes, h1, h2], fun hn => set_nodup hn _ _, ?_, ?_, ?_⟩
      · intro k hk; rw [set_mem_keys] at hk; tauto
      · intro k hk; rw [set_mem_keys]; exact Or.inr hk
      · intro k; rw [set_lookup]; simp [h1, h2]
  · by_cases h2 : kw.get "heterogeneous_axis" = .none
    · right
      refine ⟨Or.inr h2, kw.set "heterogeneous_axis" .none, ?_, fun hn => set_nodup hn _ _, ?_, ?_, ?_⟩
      · have : (kw.set "heterogeneous_axis" Val.none).get "heterogeneous_axis" = .none := by
          simp [Kw.get, set_lookup]
        simp [normalizeAxes, h1, h2, this]
      · intro k hk; rw [set_mem_keys] at hk; tauto
      · intro k hk; rw [set_mem_keys]; exact Or.inr hk
      · intro k; rw [set_lookup]; simp [h1, h2]
    · left; exact ⟨h1, h2, by simp [normalizeAxes, h1, h2]⟩

/-- The result of writing keywords into a dictionary. -/
def overlay (d : Dict) (kw : Kw) : Dict := fun k => match kw.lookup k with | some v => some v | none => d k

theorem applyStrict_spec (d : Dict) (kw : Kw) (hn : (kw.map Prod.fst).Nodup) :
    ((∀ k ∈ kw.map Prod.fst, (d k).isSome) ∧ applyStrict d kw = .ok (overlay d kw)) ∨
    ((∃ k ∈ kw.map Prod.fst, (d k).isSome = false) ∧ applyStrict d kw = .error .valueError) := by
  induction kw generalizing d with
  | nil => left; exact ⟨by simp, by simp [applyStrict]; rfl⟩
  | cons p r ih =>
    obtain ⟨k, v⟩ := p
    simp only [List.map_cons, List.nodup_cons] at hn
    by_cases hk : (d k).isSome
    · have hdom : ∀ k', ((d.set k v) k').isSome = (d k').isSome := by
        intro k'; unfold Dict.set; split_ifs with h
        · subst h; simp [hk]
        · rfl
      have e : applyStrict d ((k, v) :: r) = applyStrict (d.set k v) r := by simp [applyStrict, hk]
      rcases ih (d.set k v) hn.2 with ⟨h1, h2⟩ | ⟨⟨k', hk', h1⟩, h2⟩
      · left
        refine ⟨?_, ?_⟩
        · intro k' hk'
          rcases List.mem_cons.1 hk' with rfl | h
          · exact hk
          · rw [← hdom]; exact h1 k' h
        · rw [e, h2]; congr 1; funext k'
          unfold overlay Dict.set
          by_cases h : k' = k
          · subst h
            have : r.lookup k' = none := (lookup_none_iff r k').2 hn.1
            simp [List.lookup_cons, this]
          · have hb : (k' == k) = false := by simpa using h
            simp [List.lookup_cons, hb, h]
      · right
        exact ⟨⟨k', List.mem_cons_of_mem _ hk', by rw [← hdom]; exact h1⟩, by rw [e, h2]⟩
    · right
      exact ⟨⟨k, by simp, by simpa using hk⟩, by simp [applyStrict, hk]⟩

theorem applyPresent_eq (d : Dict) (kw : Kw) (hn : (kw.map Prod.fst).Nodup) (k : String) :
    applyPresent d kw k = if (d k).isSome then (match kw.lookup k with | some v => some v | none => d k) else none := by
  induction kw generalizing d with
  | nil => simp only [applyPresent, List.lookup_nil]; split_ifs with h <;> simp_all
  | cons p r ih =>
    obtain ⟨a, v⟩ := p
    simp only [List.map_cons, List.nodup_cons] at hn
    simp only [applyPresent]
    rw [ih _ hn.2]
    by_cases h : k = a
    · subst h
      have h0 : r.lookup k = none := (lookup_none_iff r k).2 hn.1
      by_cases hk : (d k).isSome
      · simp [hk, Dict.set, List.lookup_cons, h0]
      · simp [hk]
    · have hb : (k == a) = false := by simpa using h
      by_cases hk : (d a).isSome
      · simp [hk, Dict.set, h, List.lookup_cons, hb]
      · simp [hk, List.lookup_cons, hb]

theorem refKey_keyRef (k : Key) : refKey (keyRef k) = some k := by
  obtain ⟨a, b⟩ := k
  cases a <;> cases b <;> rfl

theorem keyRef_refKey {r : ℕ} {k : Key} (h : refKey r = some k) : keyRef k = r := by
  unfold refKey at h
  split at h <;> simp_all <;> subst h <;> rfl

theorem keyRef_lt (k : Key) : keyRef k < 12 := by
  obtain ⟨a, b⟩ := k
  cases a <;> cases b <;> decide

theorem refKey_none {r : ℕ} (h : 12 ≤ r) : refKey r = none := by
  unfold refKey
  split <;> first | omega | rfl

end HGQ
