import Verif.Props.Config

/-! # C22–C27, C56: scopes and constraints -/
namespace HGQ

namespace Spec
/-- No `with` statement is entered on a scope object that is already open (`o` = open objects). -/
def NoReenter (o : List ℕ) : Stmt → Prop
  | .skip => True
  | .seq a b => NoReenter o a ∧ NoReenter o b
  | .raise => True
  | .newCfg _ => True
  | .mutCfg _ _ _ => True
  | .withScope id s => id ∉ o ∧ NoReenter (id :: o) s
  | .tryExcept a b => NoReenter o a ∧ NoReenter o b

/-- What a scope means: in the named types and places, the named parameters that exist there take the scope's value. -/
def overrideDefs (sd : ScopeDef) (defs : Key → Dict) : Key → Dict := fun (t, p) k =>
  if t ∈ sd.types ∧ p ∈ sd.places ∧ (defs (t, p) k).isSome then
    match sd.kw.lookup k with
    | some v => some v
    | none => defs (t, p) k
  else defs (t, p) k
/-- What a scope means for the default types. -/
def overrideDq (sd : ScopeDef) (dq : Place → QArg) : Place → QArg := fun p =>
  match sd.dqt with
  | some t => if p ∈ sd.places then t else dq p
  | none => dq p

/-- Lexical ("reader") semantics: the defaults are passed down, never assigned; the state is only the user's configs
(their dictionaries and their number). -/
def lex (env : ℕ → ScopeDef) : Stmt → (Key → Dict) → (Place → QArg) → (ℕ → Dict) × ℕ → ((ℕ → Dict) × ℕ) × Bool
  | .skip, _, _, u => (u, false)
  | .seq a b, d, q, u =>
    let r := lex env a d q u
    if r.2 then r else lex env b d q r.1
  | .raise, _, _, u => (u, true)
  | .newCfg a, d, q, u =>
    match mkConfig q d a with
    | .ok c => ((fun r => if r = u.2 then c.conf else u.1 r, u.2 + 1), false)
    | .error _ => (u, true)
  | .mutCfg r k v, _, _, u =>
    if 12 ≤ r ∧ r < u.2 then ((fun r' => if r' = r then (u.1 r).set k v else u.1 r', u.2), false) else (u, false)
  | .withScope id s, d, q, u => lex env s (overrideDefs (env id) d) (overrideDq (env id) q) u
  | .tryExcept a b, d, q, u =>
    let r := lex env a d q u
    if r.2 then lex env b d q r.1 else r

/-- Two worlds' user configs agree with a lexical state. -/
def UserEq (w : World) (u : (ℕ → Dict) × ℕ) : Prop := w.next = u.2 ∧ ∀ r, 12 ≤ r → w.heap r = u.1 r
end Spec
open Spec

theorem applyPresent_dom (d : Dict) (kw : Kw) (k : String) : (applyPresent d kw k).isSome = (d k).isSome := by
  induction kw generalizing d with
  | nil => rfl
  | cons p r ih =>
    obtain ⟨a, v⟩ := p
    simp only [applyPresent]
    rw [ih]
    split_ifs with h
    · unfold Dict.set; split_ifs with h'
      · subst h'; simp [h]
      · rfl
    · rfl

theorem update_restores (d e : Dict) (h : ∀ k, (e k).isSome = (d k).isSome) : e.update d = d := by
  funext k
  unfold Dict.update
  have := h k
  cases hd : d k with
  | some v => rfl
  | none => rw [hd] at this; cases he : e k <;> simp_all

theorem enter_defs (sd : ScopeDef) (hn : Distinct sd.kw) (id : ℕ) (w : World) :
    (enter sd id w).defs = overrideDefs sd w.defs := by
  funext ⟨t, p⟩ k
  unfold World.defs enter overrideDefs
  simp only [refKey_keyRef]
  unfold ScopeDef.hits
  simp only
  by_cases h : t ∈ sd.types ∧ p ∈ sd.places
  · rw [if_pos (by simpa using h), applyPresent_eq _ _ hn]
    by_cases hk : (w.heap (keyRef (t, p)) k).isSome
    · rw [if_pos hk, if_pos ⟨h.1, h.2, hk⟩]; cases List.lookup k sd.kw <;> rfl
    · rw [if_neg hk, if_neg (by rintro ⟨-, -, g⟩; exact hk g)]
      exact (Option.not_isSome_iff_eq_none.1 hk).symm
  · rw [if_neg (by simpa using h), if_neg (by rintro ⟨g1, g2, -⟩; exact h ⟨g1, g2⟩)]

theorem enter_dq (sd : ScopeDef) (id : ℕ) (w : World) : (enter sd id w).dq = overrideDq sd w.dq := by
  funext p
  unfold enter overrideDq
  cases sd.dqt <;> simp

/-- Main induction for C22. -/
theorem exec_lex (env : ℕ → ScopeDef) (hd : ∀ id, Distinct (env id).kw) (s : Stmt) :
    ∀ (o : List ℕ) (w : World) (u : (ℕ → Dict) × ℕ), NoReenter o s → (∀ id, id ∉ o → w.scopes id = ScopeState.fresh) →
      12 ≤ w.next → UserEq w u →
      (exec env s w).1.defs = w.defs ∧ (exec env s w).1.dq = w.dq ∧ (exec env s w).1.scopes = w.scopes ∧
      12 ≤ (exec env s w).1.next ∧
      UserEq (exec env s w).1 (lex env s w.defs w.dq u).1 ∧ (exec env s w).2 = (lex env s w.defs w.dq u).2 := by
  induction s with
  | skip => intro o w u _ _ h2 h3; exact ⟨rfl, rfl, rfl, h2, h3, rfl⟩
  | raise => intro o w u _ _ h2 h3; exact ⟨rfl, rfl, rfl, h2, h3, rfl⟩
  | seq a b iha ihb =>
    intro o w u h0 h1 h2 h3
    obtain ⟨a1, a2, a3, a4, a5, a6⟩ := iha o w u h0.1 h1 h2 h3
    simp only [exec, lex]
    rw [← a6]
    split_ifs with he
    · exact ⟨a1, a2, a3, a4, a5, a6⟩
    · obtain ⟨b1, b2, b3, b4, b5, b6⟩ := ihb o (exec env a w).1 (lex env a w.defs w.dq u).1 h0.2 (by rw [a3]; exact h1) a4 a5
      rw [a1, a2] at b5 b6
      exact ⟨b1.trans a1, b2.trans a2, b3.trans a3, b4, b5, b6⟩
  | tryExcept a b iha ihb =>
    intro o w u h0 h1 h2 h3
    obtain ⟨a1, a2, a3, a4, a5, a6⟩ := iha o w u h0.1 h1 h2 h3
    simp only [exec, lex]
    rw [← a6]
    split_ifs with he
    · obtain ⟨b1, b2, b3, b4, b5, b6⟩ := ihb o (exec env a w).1 (lex env a w.defs w.dq u).1 h0.2 (by rw [a3]; exact h1) a4 a5
      rw [a1, a2] at b5 b6
      exact ⟨b1.trans a1, b2.trans a2, b3.trans a3, b4, b5, b6⟩
    · exact ⟨a1, a2, a3, a4, a5, a6⟩
  | newCfg a =>
    intro o w u _ _ h2 h3
    simp only [exec, lex]
    cases hm : mkConfig w.dq w.defs a with
    | error e => exact ⟨rfl, rfl, rfl, h2, h3, rfl⟩
    | ok c =>
      simp only
      refine ⟨?_, trivial, trivial, by omega, ⟨by simp [h3.1], ?_⟩, by first | rfl | simp⟩
      · funext k
        unfold World.defs
        simp only
        rw [if_neg]
        have := keyRef_lt k; omega
      · intro r hr
        simp only [h3.1]
        split_ifs
        · rfl
        · exact h3.2 r hr
  | mutCfg r k v =>
    intro o w u _ _ h2 h3
    simp only [exec, lex]
    simp only [← h3.1]
    split_ifs with h
    · refine ⟨?_, rfl, rfl, h2, ⟨rfl, ?_⟩, rfl⟩
      · funext k'
        unfold World.defs
        simp only
        rw [if_neg]
        have := keyRef_lt k'; omega
      · intro r' hr'
        simp only
        split_ifs with e
        · rw [h3.2 r h.1]
        · exact h3.2 r' hr'
    · exact ⟨rfl, rfl, rfl, h2, h3, rfl⟩
  | withScope id body ih =>
    intro o w u h0 h1 h2 h3
    have hf : w.scopes id = ScopeState.fresh := h1 id h0.1
    have henter : ∀ j, j ∉ id :: o → (enter (env id) id w).scopes j = ScopeState.fresh := by
      intro j hj
      simp only [List.mem_cons, not_or] at hj
      unfold enter
      simp only [if_neg hj.1]
      exact h1 j hj.2
    have hu : UserEq (enter (env id) id w) u := by
      refine ⟨h3.1, ?_⟩
      intro r hr
      unfold enter
      simp only [refKey_none hr]
      exact h3.2 r hr
    obtain ⟨b1, b2, b3, b4, b5, b6⟩ := ih (id :: o) (enter (env id) id w) u h0.2 henter h2 hu
    have ed := enter_defs (env id) (hd id) id w
    have eq := enter_dq (env id) id w
    simp only [exec, lex]
    rw [ed, eq] at b5 b6
    set w2 := (exec env body (enter (env id) id w)).1 with hw2
    have hst : w2.scopes id = (enter (env id) id w).scopes id := by rw [b3]
    have hst' : (enter (env id) id w).scopes id =
        ⟨fun k => if (env id).hits k then some (w.defs k) else none, (env id).dqt.map (fun _ => w.dq)⟩ := by
      unfold enter
      simp only [if_true, hf, ScopeState.fresh]
      cases (env id).dqt <;> rfl
    rw [hst'] at hst
    refine ⟨?_, ?_, ?_, b4, ?_, b6⟩
    · funext k
      unfold World.defs exitS
      simp only [refKey_keyRef, hst]
      have hb := congrFun b1 k
      by_cases hh : (env id).hits k = true
      · simp only [if_pos hh]
        apply update_restores
        intro x
        unfold World.defs at hb
        rw [hb]
        unfold enter
        simp only [refKey_keyRef, if_pos hh]
        exact applyPresent_dom _ _ _
      · simp only [if_neg hh]
        unfold World.defs at hb
        rw [hb]
        unfold enter
        simp only [refKey_keyRef, if_neg hh]
    · unfold exitS
      simp only [hst]
      cases hq : (env id).dqt with
      | some t => rfl
      | none =>
        simp only [Option.map_none]
        rw [b2, eq]
        funext p
        simp [overrideDq, hq]
    · funext j
      unfold exitS
      simp only
      split_ifs with hj
      · rw [hj, hf]
      · rw [b3]
        unfold enter
        simp [hj]
    · refine ⟨b5.1, ?_⟩
      intro r hr
      unfold exitS
      simp only [refKey_none hr]
      exact b5.2 r hr

/-- **C22** For every program that creates and changes configs, raises and catches exceptions, and opens scopes in any
nesting without re-entering an open scope object: afterwards all default tables, default types and scope objects are as
before, and the configs created (their contents, number, and whether an exception escapes) are those of the lexical
semantics, in which the innermost scope wins for the types, places and keys it names and nothing else changes. -/
theorem C22_scopes_restore (env : ℕ → ScopeDef) (hd : ∀ id, Distinct (env id).kw) (s : Stmt) (w : World)
    (hs : NoReenter [] s) (hf : ∀ id, w.scopes id = ScopeState.fresh) (hn : 12 ≤ w.next) :
    (exec env s w).1.defs = w.defs ∧ (exec env s w).1.dq = w.dq ∧ (exec env s w).1.scopes = w.scopes ∧
    UserEq (exec env s w).1 (lex env s w.defs w.dq (w.heap, w.next)).1 ∧
    (exec env s w).2 = (lex env s w.defs w.dq (w.heap, w.next)).2 := by
  obtain ⟨a, b, c, -, d, e⟩ := exec_lex env hd s [] w (w.heap, w.next) hs (fun id _ => hf id) hn ⟨rfl, fun _ _ => rfl⟩
  exact ⟨a, b, c, d, e⟩

/-- Program state at import. -/
def initWorld : World := ⟨fun r => match refKey r with | some k => initDefs k | none => fun _ => none, 12, initDq,
  fun _ => ScopeState.fresh⟩

theorem initWorld_defs : initWorld.defs = initDefs := by
  funext k; unfold World.defs initWorld; simp only [refKey_keyRef]

/-- Two scopes: 0 sets `f0=3` for kif/datalane; 1 sets `f0=5`, `i0=1` for all kif and makes `kbi` the default type. -/
def exEnv : ℕ → ScopeDef
  | 0 => ⟨[.kif], [.datalane], none, [("f0", .num 3)]⟩
  | _ => ⟨[.kif], [.weight, .bias, .table, .datalane], some (.ty .kbi), [("f0", .num 5), ("i0", .num 1)]⟩

/-- A nested program with an exception meets the hypotheses and sees the innermost values. -/
example :
    let s : Stmt := .tryExcept (.withScope 1 (.seq (.withScope 0 (.newCfg ⟨.ty .kif, some .datalane, none, none, none, []⟩)) .raise))
      (.newCfg ⟨.default, some .datalane, none, none, none, []⟩)
    NoReenter [] s ∧ (∀ id, Distinct (exEnv id).kw) ∧
    (exec exEnv s initWorld).1.heap 12 "f0" = some (.num 3) ∧ (exec exEnv s initWorld).1.heap 12 "i0" = some (.num 1) ∧
    (exec exEnv s initWorld).1.heap 13 "f0" = some (.num 6) ∧ (exec exEnv s initWorld).1.heap 13 "i0" = some (.num 2) := by
  refine ⟨by simp [NoReenter], ?_, ?_⟩
  · intro id
    unfold exEnv; split <;> simp [Distinct]
  · decide +kernel

/-- **C23** is false: entering a `QuantizerConfigScope` object twice never restores — after both exits the defaults still
are what they are inside the scope, whatever the scope and the defaults were. -/
theorem C23_quantizer_scope_violated (env : ℕ → ScopeDef) (hd : ∀ id, Distinct (env id).kw) (id : ℕ) (w : World)
    (hf : w.scopes id = ScopeState.fresh) :
    (exec env (.withScope id (.withScope id .skip)) w).1.defs = overrideDefs (env id) w.defs ∧
    (exec env (.withScope id (.withScope id .skip)) w).1.dq = overrideDq (env id) w.dq := by
  have hdom : ∀ (d : Dict) (k : String), (applyPresent d (env id).kw k).isSome = (d k).isSome :=
    fun d k => applyPresent_dom _ _ _
  constructor
  · rw [← enter_defs (env id) (hd id) id w]
    funext k
    simp only [exec]
    unfold World.defs exitS
    simp only [refKey_keyRef, if_true]
    unfold enter
    simp only [refKey_keyRef, if_true, ScopeState.fresh]
    unfold World.defs
    simp only [refKey_keyRef, hf, ScopeState.fresh]
    by_cases h : (env id).hits k = true
    · simp only [if_pos h]
      apply update_restores
      intro x; rw [hdom]
    · simp only [if_neg h]
  · rw [← enter_dq (env id) id w]
    simp only [exec]
    unfold exitS
    simp only [if_true]
    unfold enter
    simp only [if_true, ScopeState.fresh]
    simp only [hf, ScopeState.fresh]
    cases (env id).dqt <;> rfl

/-- **C23** (partial) Using one scope object again after it was left, any number of times and with any bodies that do not
enter it, does restore.  Missing: entering it while it is open, `C23_quantizer_scope_violated`. -/
theorem C23_sequential_partial (env : ℕ → ScopeDef) (hd : ∀ id, Distinct (env id).kw) (id : ℕ) (bodies : List Stmt) (w : World)
    (hb : ∀ b ∈ bodies, NoReenter [id] b) (hf : ∀ id, w.scopes id = ScopeState.fresh) (hn : 12 ≤ w.next) :
    let s := bodies.foldr (fun b s => Stmt.seq (.withScope id b) s) .skip
    (exec env s w).1.defs = w.defs ∧ (exec env s w).1.dq = w.dq := by
  have : NoReenter [] (bodies.foldr (fun b s => Stmt.seq (.withScope id b) s) .skip) := by
    induction bodies with
    | nil => trivial
    | cons b r ih =>
      exact ⟨⟨by simp, hb b (by simp)⟩, ih (fun b' h' => hb b' (by simp [h']))⟩
  have h := C22_scopes_restore env hd _ w this hf hn
  exact ⟨h.1, h.2.1⟩

/-- The leak is visible: with scope 0 the default `f0` of kif data lanes is 3 afterwards instead of 6. -/
example : initDefs (.kif, .datalane) "f0" = some (.num 6) ∧
    (exec exEnv (.withScope 0 (.withScope 0 .skip)) initWorld).1.defs (.kif, .datalane) "f0" = some (.num 3) := by
  decide +kernel

/-! ## C24 -/
namespace Spec
/-- The program changes the user config `r` itself. -/
def Changes (r : ℕ) : Stmt → Prop
  | .mutCfg r' _ _ => r' = r
  | .seq a b => Changes r a ∨ Changes r b
  | .tryExcept a b => Changes r a ∨ Changes r b
  | .withScope _ s => Changes r s
  | _ => False
end Spec

/-- **C24** (i) A config keeps its content under every program that does not change that very config — whatever scopes it
opens (re-entered or not), configs it creates or changes, exceptions it raises.  (ii) Creating a config gives a new
dictionary with the content the constructor computed and changes no default and no other config.  (iii) Changing a config
changes no default and no other config. -/
theorem C24_snapshot (env : ℕ → ScopeDef) :
    (∀ (s : Stmt) (w : World) (r : ℕ), 12 ≤ r → r < w.next → ¬ Changes r s →
      (exec env s w).1.heap r = w.heap r ∧ r < (exec env s w).1.next) ∧
    (∀ (a : CfgArgs) (w : World) (c : CfgObj), mkConfig w.dq w.defs a = .ok c → 12 ≤ w.next →
      (exec env (.newCfg a) w).1.heap w.next = c.conf ∧ (exec env (.newCfg a) w).1.next = w.next + 1 ∧
      (exec env (.newCfg a) w).1.defs = w.defs ∧ (exec env (.newCfg a) w).1.dq = w.dq ∧
      ∀ r, r ≠ w.next → (exec env (.newCfg a) w).1.heap r = w.heap r) ∧
    (∀ (r : ℕ) (k : String) (v : Val) (w : World),
      (exec env (.mutCfg r k v) w).1.defs = w.defs ∧ (exec env (.mutCfg r k v) w).1.dq = w.dq ∧
      (∀ r', r' ≠ r → (exec env (.mutCfg r k v) w).1.heap r' = w.heap r') ∧
      (12 ≤ r → r < w.next → (exec env (.mutCfg r k v) w).1.heap r k = some v)) := by
  refine ⟨?_, ?_, ?_⟩
  · intro s
    induction s with
    | skip => intro w r h1 h2 _; exact ⟨rfl, h2⟩
    | raise => intro w r h1 h2 _; exact ⟨rfl, h2⟩
    | seq a b iha ihb =>
      intro w r h1 h2 h3
      simp only [Changes, not_or] at h3
      have ha := iha w r h1 h2 h3.1
      simp only [exec]
      split_ifs
      · exact ha
      · have hb := ihb (exec env a w).1 r h1 ha.2 h3.2
        exact ⟨hb.1.trans ha.1, hb.2⟩
    | tryExcept a b iha ihb =>
      intro w r h1 h2 h3
      simp only [Changes, not_or] at h3
      have ha := iha w r h1 h2 h3.1
      simp only [exec]
      split_ifs
      · have hb := ihb (exec env a w).1 r h1 ha.2 h3.2
        exact ⟨hb.1.trans ha.1, hb.2⟩
      · exact ha
    | newCfg a =>
      intro w r h1 h2 _
      simp only [exec]
      cases mkConfig w.dq w.defs a with
      | error e => exact ⟨rfl, h2⟩
      | ok c =>
        simp only
        exact ⟨by rw [if_neg (by omega)], by omega⟩
    | mutCfg r' k v =>
      intro w r h1 h2 h3
      simp only [Changes] at h3
      simp only [exec]
      split_ifs
      · exact ⟨by simp only; rw [if_neg (by omega)], h2⟩
      · exact ⟨rfl, h2⟩
    | withScope id s ih =>
      intro w r h1 h2 h3
      simp only [exec]
      have := ih (enter (env id) id w) r h1 h2 h3
      refine ⟨?_, this.2⟩
      unfold exitS
      simp only [refKey_none h1]
      rw [this.1]
      unfold enter
      simp only [refKey_none h1]
  · intro a w c hc hn
    simp only [exec, hc]
    refine ⟨by simp, trivial, ?_, trivial, fun r hr => by simp [hr]⟩
    funext k
    unfold World.defs
    simp only
    rw [if_neg]
    have := keyRef_lt k; omega
  · intro r k v w
    simp only [exec]
    split_ifs with h
    · refine ⟨?_, rfl, fun r' hr' => by simp [hr'], fun _ _ => by simp [Dict.set]⟩
      funext k'
      unfold World.defs
      simp only
      rw [if_neg]
      have := keyRef_lt k'; omega
    · exact ⟨rfl, rfl, fun _ _ => rfl, fun h1 h2 => absurd ⟨h1, h2⟩ h⟩

/-- The config created outside survives a scope changing the defaults, and changing a config leaves the default alone. -/
example :
    let s : Stmt := .seq (.newCfg ⟨.ty .kif, some .datalane, none, none, none, []⟩)
      (.seq (.withScope 0 (.newCfg ⟨.ty .kif, some .datalane, none, none, none, []⟩)) (.mutCfg 13 "f0" (.num 9)))
    ¬ Changes 12 s ∧ (exec exEnv s initWorld).1.heap 12 "f0" = some (.num 6) ∧
    (exec exEnv s initWorld).1.heap 13 "f0" = some (.num 9) := by
  refine ⟨by simp [Changes], ?_⟩
  decide +kernel

/-! ## C25 -/
namespace Spec
/-- No layer scope object is entered while open. -/
def LNoReenter (o : List ℕ) : LStmt → Prop
  | .skip => True
  | .raise => True
  | .seq a b => LNoReenter o a ∧ LNoReenter o b
  | .tryExcept a b => LNoReenter o a ∧ LNoReenter o b
  | .withScope id s => id ∉ o ∧ LNoReenter (id :: o) s
/-- What a layer scope means: its keys get its values. -/
def overrideLayer (kw : Kw) (g : Dict) : Dict := fun k => match kw.lookup k with | some v => some v | none => g k
end Spec

theorem foldl_set (kw : Kw) (hn : Distinct kw) (g : Dict) :
    kw.foldl (fun d p => d.set p.1 p.2) g = overrideLayer kw g := by
  induction kw generalizing g with
  | nil => rfl
  | cons p r ih =>
    obtain ⟨a, v⟩ := p
    unfold Distinct at hn
    simp only [List.map_cons, List.nodup_cons] at hn
    simp only [List.foldl_cons]
    rw [ih hn.2]
    funext k
    unfold overrideLayer Dict.set
    by_cases h : k = a
    · subst h
      have h0 : List.lookup k r = none := (lookup_none_iff r k).2 hn.1
      simp [h0]
    · have hb : (k == a) = false := by simpa using h
      simp [List.lookup_cons, hb, h]

theorem lexec_inv (env : ℕ → Kw) (hd : ∀ id, Distinct (env id)) (s : LStmt) :
    ∀ (o : List ℕ) (w : LWorld), LNoReenter o s →
      (lexec env s w).1.g = w.g ∧ ∀ id ∈ o, (lexec env s w).1.tmp id = w.tmp id := by
  induction s with
  | skip => intro o w _; exact ⟨rfl, fun _ _ => rfl⟩
  | raise => intro o w _; exact ⟨rfl, fun _ _ => rfl⟩
  | seq a b iha ihb =>
    intro o w h
    have ha := iha o w h.1
    simp only [lexec]
    split_ifs
    · exact ha
    · have hb := ihb o (lexec env a w).1 h.2
      exact ⟨hb.1.trans ha.1, fun id hid => (hb.2 id hid).trans (ha.2 id hid)⟩
  | tryExcept a b iha ihb =>
    intro o w h
    have ha := iha o w h.1
    simp only [lexec]
    split_ifs
    · have hb := ihb o (lexec env a w).1 h.2
      exact ⟨hb.1.trans ha.1, fun id hid => (hb.2 id hid).trans (ha.2 id hid)⟩
    · exact ha
  | withScope id s ih =>
    intro o w h
    have hb := ih (id :: o) (lenter (env id) id w) h.2
    simp only [lexec]
    have ht : (lexec env s (lenter (env id) id w)).1.tmp id = some w.g := by
      rw [hb.2 id (by simp)]; simp [lenter]
    constructor
    · unfold lexit
      simp only [ht]
      funext k
      unfold Dict.update
      cases hg : w.g k with
      | some v => rfl
      | none =>
        simp only
        split_ifs with ha
        · rfl
        · rw [hb.1]
          unfold lenter
          simp only [foldl_set _ (hd id), overrideLayer]
          have : List.lookup k (env id) = none := by
            rw [lookup_none_iff]
            intro hm
            obtain ⟨p, hp, rfl⟩ := List.mem_map.1 hm
            exact ha (List.any_eq_true.2 ⟨p, hp, by simp⟩)
          rw [this, hg]
    · intro j hj
      have hne : j ≠ id := by rintro rfl; exact h.1 hj
      unfold lexit
      simp only [ht]
      rw [hb.2 j (by simp [hj])]
      simp [lenter, hne]

/-- **C25** For every program using layer scopes in any nesting without re-entering an open one, exceptions included, the
global layer configuration afterwards equals that before (keys that did not exist are gone again); and directly inside a
scope the configuration is the surrounding one with the scope's keys overridden. -/
theorem C25_layer_scope (env : ℕ → Kw) (hd : ∀ id, Distinct (env id)) (s : LStmt) (w : LWorld) (hs : LNoReenter [] s) :
    (lexec env s w).1.g = w.g ∧ ∀ id, (lenter (env id) id w).g = overrideLayer (env id) w.g :=
  ⟨(lexec_inv env hd s [] w hs).1, fun id => foldl_set _ (hd id) _⟩

/-- **C23** is false for `LayerConfigScope` too: a doubly entered scope leaves its overrides in place. -/
theorem C23_layer_scope_violated (env : ℕ → Kw) (hd : ∀ id, Distinct (env id)) (id : ℕ) (w : LWorld) :
    (lexec env (.withScope id (.withScope id .skip)) w).1.g = overrideLayer (env id) w.g := by
  simp only [lexec]
  unfold lexit lenter
  simp only [if_true, foldl_set _ (hd id)]
  funext k
  unfold Dict.update overrideLayer
  cases hl : List.lookup k (env id) with
  | some v => rfl
  | none =>
    cases hg : w.g k with
    | some v => simp
    | none => simp [hg, hl]

/-- Instance: a new key and an existing key, nested scopes, an exception. -/
example :
    let env : ℕ → Kw := fun i => if i = 0 then [("beta0", .num 1), ("new", .num 2)] else [("enable_iq", .bool false)]
    let w : LWorld := ⟨Dict.ofList [("beta0", .num 0), ("enable_iq", .bool true)], fun _ => none⟩
    let s : LStmt := .withScope 0 (.tryExcept (.withScope 1 .raise) .skip)
    LNoReenter [] s ∧ (lexec env s w).1.g "new" = none ∧ (lexec env s w).1.g "beta0" = some (.num 0) ∧
    (lexec env (.withScope 0 (.withScope 0 .skip)) w).1.g "new" = some (.num 2) := by
  refine ⟨by simp [LNoReenter], ?_⟩
  decide +kernel

/-! ## C26, C56 -/

/-- **C26** A scope constructor given exactly two numbers among `i0, f0, b0` keeps them and stores the third such that
`b0 = i0 + f0`; given another number of them it leaves them as they are.  (All keywords other than these three and the axis
lists are untouched.) -/
theorem C26_complete (types : List QT) (places : List Place) (dqt : Option QArg) (kw : Kw) (sd : ScopeDef)
    (h : mkScope types places dqt kw = .ok sd) :
    (∀ x y, kw.get "i0" = .num x → kw.get "f0" = .num y → kw.get "b0" = .none →
      sd.kw.get "i0" = .num x ∧ sd.kw.get "f0" = .num y ∧ sd.kw.get "b0" = .num (x + y)) ∧
    (∀ x y, kw.get "i0" = .num x → kw.get "b0" = .num y → kw.get "f0" = .none →
      ∃ z, sd.kw.get "i0" = .num x ∧ sd.kw.get "b0" = .num y ∧ sd.kw.get "f0" = .num z ∧ y = x + z) ∧
    (∀ x y, kw.get "f0" = .num x → kw.get "b0" = .num y → kw.get "i0" = .none →
      ∃ z, sd.kw.get "f0" = .num x ∧ sd.kw.get "b0" = .num y ∧ sd.kw.get "i0" = .num z ∧ y = z + x) ∧
    (([kw.get "i0", kw.get "f0", kw.get "b0"].filter (· ≠ .none)).length ≠ 2 →
      ∀ k, k = "i0" ∨ k = "f0" ∨ k = "b0" → sd.kw.lookup k = kw.lookup k) ∧
    (∀ k, k ≠ "i0" → k ≠ "f0" → k ≠ "b0" → k ≠ "homogeneous_axis" → k ≠ "heterogeneous_axis" →
      sd.kw.lookup k = kw.lookup k) := by
  unfold mkScope at h
  rcases normalizeAxes_spec kw with ⟨-, -, he⟩ | ⟨-, kw', he, -, -, -, hl⟩
  · rw [he] at h; simp at h
  rw [he] at h
  have hl' : ∀ k, k ≠ "homogeneous_axis" → k ≠ "heterogeneous_axis" → kw'.lookup k = kw.lookup k := by
    intro k h1 h2; rw [hl]; simp [h1, h2]
  have hg : ∀ k, k ≠ "homogeneous_axis" → k ≠ "heterogeneous_axis" → kw'.get k = kw.get k := by
    intro k h1 h2; unfold Kw.get; rw [hl' k h1 h2]
  have gi := hg "i0" (by simp) (by simp)
  have gf := hg "f0" (by simp) (by simp)
  have gb := hg "b0" (by simp) (by simp)
  simp only at h
  cases hc : completeIFB kw' with
  | error e => rw [hc] at h; simp at h
  | ok kw2 =>
    rw [hc] at h
    simp only at h
    split_ifs at h with ha
    simp only [Except.ok.injEq] at h
    subst h
    simp only
    have hset : ∀ (k : String) (v : Val) (k' : String), (kw'.set k v).get k' = if k' = k then v else kw'.get k' := by
      intro k v k'; unfold Kw.get; rw [set_lookup]; split_ifs <;> simp
    unfold completeIFB at hc
    simp only [gi, gf, gb] at hc
    refine ⟨?_, ?_, ?_, ?_, ?_⟩
    · intro x y h1 h2 h3
      simp [h1, h2, h3, Val.add, Except.map] at hc
      subst hc
      refine ⟨?_, ?_, ?_⟩ <;> rw [hset] <;> simp [gi, gf, h1, h2]
    · intro x y h1 h2 h3
      simp [h1, h2, h3, Val.sub, Except.map] at hc
      subst hc
      refine ⟨y - x, ?_, ?_, ?_, by ring⟩ <;> rw [hset] <;> simp [gi, gb, h1, h2]
    · intro x y h1 h2 h3
      simp [h1, h2, h3, Val.sub, Except.map] at hc
      subst hc
      refine ⟨y - x, ?_, ?_, ?_, by ring⟩ <;> rw [hset] <;> simp [gf, gb, h1, h2]
    · intro hlen
      have : kw2 = kw' := by
        by_cases h1 : kw.get "i0" = .none <;> by_cases h2 : kw.get "f0" = .none <;> by_cases h3 : kw.get "b0" = .none <;>
          simp [h1, h2, h3] at hc hlen <;> exact hc.symm
      subst this
      rintro k (rfl | rfl | rfl) <;> exact hl' _ (by simp) (by simp)
    · intro k k1 k2 k3 k4 k5
      have : kw2.lookup k = kw'.lookup k := by
        split_ifs at hc
        · cases hv : (kw.get "b0").sub (kw.get "f0") with
          | error e => rw [hv] at hc; simp [Except.map] at hc
          | ok v => rw [hv] at hc; simp [Except.map] at hc; subst hc; rw [set_lookup, if_neg k1]
        · cases hv : (kw.get "b0").sub (kw.get "i0") with
          | error e => rw [hv] at hc; simp [Except.map] at hc
          | ok v => rw [hv] at hc; simp [Except.map] at hc; subst hc; rw [set_lookup, if_neg k2]
        · cases hv : (kw.get "i0").add (kw.get "f0") with
          | error e => rw [hv] at hc; simp [Except.map] at hc
          | ok v => rw [hv] at hc; simp [Except.map] at hc; subst hc; rw [set_lookup, if_neg k3]
        · simp at hc; rw [hc]
      rw [this, hl' k k4 k5]

example : ∃ sd, mkScope [.kif, .kbi] [.weight] none [("i0", .num 2), ("b0", .num 7), ("f0", .none)] = .ok sd ∧
    sd.kw.get "f0" = .num 5 := ⟨_, rfl, by decide +kernel⟩

/-- **C56** (partial) A keyword that belongs to some quantizer type takes effect: inside the scope, the defaults of each named
type that has the parameter, at each named place, hold the scope's value.  Missing: `scaler`, `affine` and `qnoise_factor`,
`C56_ignored_violated`. -/
theorem C56_scope_option_effect_partial (types : List QT) (places : List Place) (dqt : Option QArg) (kw : Kw) (sd : ScopeDef)
    (h : mkScope types places dqt kw = .ok sd) (hn : Distinct sd.kw) (id : ℕ) (w : World) (hw : WFDefs w.defs)
    (t : QT) (p : Place) (ht : t ∈ types) (hp : p ∈ places) (k : String) (v : Val) (hk : (k, v) ∈ sd.kw) (hkt : k ∈ keysOf t) :
    (enter sd id w).defs (t, p) k = some v := by
  have hsd : sd.types = types ∧ sd.places = places := by
    unfold mkScope at h
    cases h1 : normalizeAxes kw with
    | error e => rw [h1] at h; simp at h
    | ok kw1 =>
      rw [h1] at h; simp only at h
      cases h2 : completeIFB kw1 with
      | error e => rw [h2] at h; simp at h
      | ok kw2 =>
        rw [h2] at h; simp only at h
        split_ifs at h
        simp only [Except.ok.injEq] at h
        subst h
        exact ⟨rfl, rfl⟩
  rw [enter_defs sd hn]
  unfold overrideDefs
  simp only
  rw [if_pos ⟨by rw [hsd.1]; exact ht, by rw [hsd.2]; exact hp, (hw t p k).2 hkt⟩, lookup_of_mem hn hk]

/-- **C56** is false for `scaler`, `affine`, `qnoise_factor`: a scope with such a keyword is accepted (they are in
`all_quantizer_keys`, L222-228), but inside it every default and hence every new config is as outside. -/
theorem C56_ignored_violated (types : List QT) (places : List Place) (k : String) (v : Val)
    (hk : k = "scaler" ∨ k = "affine" ∨ k = "qnoise_factor") (id : ℕ) (w : World) (hw : WFDefs w.defs) :
    ∃ sd, mkScope types places none [(k, v)] = .ok sd ∧ (enter sd id w).defs = w.defs ∧ (enter sd id w).dq = w.dq := by
  refine ⟨⟨types, places, none, [(k, v)]⟩, ?_, ?_, ?_⟩
  · rcases hk with rfl | rfl | rfl <;> rfl
  · rw [enter_defs _ (by simp [Distinct])]
    funext ⟨t, p⟩ k'
    unfold overrideDefs
    simp only
    split_ifs with h
    · have hne : k' ≠ k := by
        rintro rfl
        have := (hw t p k').1 h.2.2
        rcases hk with rfl | rfl | rfl <;> cases t <;> revert this <;> decide
      have hb : (k' == k) = false := by simpa using hne
      simp [List.lookup_cons, hb]
    · rfl
  · rw [enter_dq]; funext p; rfl

end HGQ
