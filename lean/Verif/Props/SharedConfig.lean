import Verif.Model.SharedConfig
import Mathlib.Tactic

/-! # C87: sharing one quantizer config between layers -/
namespace HGQ

namespace Spec
/-- One width for the whole tensor: no axis is heterogeneous. -/
def oneWidth : List CfgEdit := [⟨"homogeneous_axis", .none, false⟩, ⟨"heterogeneous_axis", .axes [], false⟩]

/-- The output of a softmax table is unsigned (where the config has a sign entry), saturating and convergently rounded. -/
def positiveTable : List CfgEdit :=
  [⟨"k0", .num 0, true⟩, ⟨"overflow_mode", .str "SAT", false⟩, ⟨"round_mode", .str "RND_CONV", false⟩]

/-- The changes a constructor makes to each config it is given, all in all: nothing for ordinary places; for a table and for the tables of a
softmax the documented adjustments. -/
def roles : LayerCtor → List (ℕ × List CfgEdit)
  | .plain rs => rs.map fun r => (r, [])
  | .lut iq oq hetIn hetTable k0 =>
    oq.toList.map (fun r => (r, (if k0 then [⟨"k0", .bool false, true⟩] else []) ++ if hetTable then [] else oneWidth)) ++
    iq.toList.map (fun r => (r, if hetIn then [] else oneWidth))
  | .softmax iq oq expIq invIq expOq invOq _ het =>
    oq.toList.map (fun r => (r, [])) ++ iq.toList.map (fun r => (r, [])) ++
    [(expIq, if het then [] else oneWidth), (invIq, if het then [] else oneWidth),
     (expOq, positiveTable ++ if het then [] else oneWidth), (invOq, positiveTable ++ if het then [] else oneWidth)]

/-- The config objects a layer makes quantizers from (a table has one at its input and one at its output). -/
def makes : LayerCtor → List ℕ
  | .plain rs => rs
  | .lut iq oq _ _ _ => oq.toList ++ iq.toList
  | .softmax iq oq expIq invIq expOq invOq stable _ => oq.toList ++ iq.toList ++ [invOq, invIq, expOq] ++ if stable then [expIq] else []

/-- No config object is used in two different roles. -/
def OneRole (hist : List LayerCtor) : Prop :=
  ∀ c ∈ hist, ∀ c' ∈ hist, ∀ u ∈ roles c, ∀ u' ∈ roles c', u.1 = u'.1 → u.2 = u'.2

/-- Saving reproduces the running model: what would be written now for every quantizer is what it was made from. -/
def SavedIsLive (w : CfgMem) : Prop := ∀ q ∈ w.live, w.saved q.1 = q.2

/-- The config objects a constructor is given. -/
def mentions (c : LayerCtor) : List ℕ := (roles c).map Prod.fst
end Spec
open Spec

/-! ## Writes -/

theorem CfgEdit.idem (e : CfgEdit) (d : Dict) : e.apply (e.apply d) = e.apply d := by
  funext k
  by_cases h : k = e.key
  · by_cases g : e.guarded = true <;> simp [CfgEdit.apply, h, g, Function.comp_def]
  · simp [CfgEdit.apply, h]

theorem CfgEdit.comm (e f : CfgEdit) (h : e.key ≠ f.key) (d : Dict) : e.apply (f.apply d) = f.apply (e.apply d) := by
  funext k
  by_cases h1 : k = e.key
  · have h2 : k ≠ f.key := by rw [h1]; exact h
    simp [CfgEdit.apply, h1, h]
  · by_cases h2 : k = f.key
    · have h3 : f.key ≠ e.key := fun x => h x.symm
      simp [CfgEdit.apply, h2, h3]
    · simp [CfgEdit.apply, h1, h2]

/-- Two writes of one role commute. -/
theorem edits_comm {es : List CfgEdit} (hn : (es.map CfgEdit.key).Nodup) {e f : CfgEdit} (he : e ∈ es) (hf : f ∈ es) (d : Dict) :
    e.apply (f.apply d) = f.apply (e.apply d) := by
  by_cases h : e.key = f.key
  · rw [List.inj_on_of_nodup_map hn he hf h]
  · exact CfgEdit.comm e f h d

theorem applyEdits_comm {es fs : List CfgEdit} (hn : (es.map CfgEdit.key).Nodup) {e : CfgEdit} (he : e ∈ es) (hf : ∀ f ∈ fs, f ∈ es)
    (d : Dict) : applyEdits fs (e.apply d) = e.apply (applyEdits fs d) := by
  induction fs generalizing d with
  | nil => rfl
  | cons f fs ih =>
    have h1 := edits_comm hn (hf f (by simp)) he d
    simp only [applyEdits, List.foldl_cons] at *
    rw [h1]
    exact ih (fun g hg => hf g (by simp [hg])) (f.apply d)

/-- A write of a role adds nothing once the role is applied. -/
theorem apply_absorb {es fs : List CfgEdit} (hn : (es.map CfgEdit.key).Nodup) (hf : ∀ f ∈ fs, f ∈ es) {e : CfgEdit} (he : e ∈ fs)
    (d : Dict) : e.apply (applyEdits fs d) = applyEdits fs d := by
  induction fs generalizing d with
  | nil => simp at he
  | cons f fs ih =>
    have hfs : ∀ g ∈ fs, g ∈ es := fun g hg => hf g (by simp [hg])
    rcases List.mem_cons.1 he with rfl | he
    · change e.apply (applyEdits fs (e.apply d)) = applyEdits fs (e.apply d)
      rw [← applyEdits_comm hn (hf e (by simp)) hfs, CfgEdit.idem]
    · exact ih hfs he (f.apply d)

theorem absorb_apply {es : List CfgEdit} (hn : (es.map CfgEdit.key).Nodup) {e : CfgEdit} (he : e ∈ es) (d : Dict) :
    applyEdits es (e.apply d) = applyEdits es d := by
  rw [applyEdits_comm hn he (fun _ h => h), apply_absorb hn (fun _ h => h) he]

/-- If every write of a role changes nothing, the role changes nothing. -/
theorem applyEdits_fixed (fs : List CfgEdit) (d : Dict) (h : ∀ e ∈ fs, e.apply d = d) : applyEdits fs d = d := by
  induction fs with
  | nil => rfl
  | cons f fs ih =>
    change applyEdits fs (f.apply d) = d
    rw [h f (by simp)]
    exact ih fun e he => h e (by simp [he])

/-! ## The invariant -/

/-- Steps allowed by an assignment of roles: only writes of the role; quantizers only after all writes of the role (`seen`). -/
def actsOk (F : ℕ → List CfgEdit) : List (ℕ × CfgEdit) → List CfgAct → Prop
  | _, [] => True
  | seen, .edit r e :: as => e ∈ F r ∧ actsOk F ((r, e) :: seen) as
  | seen, .quantizer r :: as => (∀ e ∈ F r, (r, e) ∈ seen) ∧ actsOk F seen as

/-- Every object is on its way from `d0` to its final value, and quantizers are made from final values. -/
structure CfgInv (F : ℕ → List CfgEdit) (d0 : ℕ → Dict) (w : CfgMem) : Prop where
  heap : ∀ r, applyEdits (F r) (w.heap r) = applyEdits (F r) (d0 r)
  live : ∀ q ∈ w.live, q.2 = applyEdits (F q.1) (d0 q.1) ∧ w.heap q.1 = applyEdits (F q.1) (d0 q.1)

theorem run_inv (F : ℕ → List CfgEdit) (hF : ∀ r, ((F r).map CfgEdit.key).Nodup) (d0 : ℕ → Dict) (as : List CfgAct)
    (seen : List (ℕ × CfgEdit)) (w : CfgMem) (hok : actsOk F seen as) (hinv : CfgInv F d0 w)
    (hseen : ∀ p ∈ seen, p.2 ∈ F p.1 ∧ p.2.apply (w.heap p.1) = w.heap p.1) : CfgInv F d0 (w.run as) := by
  induction as generalizing w seen with
  | nil => exact hinv
  | cons a as ih =>
    cases a with
    | edit r e =>
      obtain ⟨he, hok⟩ := hok
      refine ih ((r, e) :: seen) (w.act (.edit r e)) hok ⟨fun r' => ?_, fun q hq => ?_⟩ ?_
      · by_cases h : r' = r
        · subst h
          simp only [CfgMem.act, if_true]
          rw [absorb_apply (hF r') he]; exact hinv.heap r'
        · simp only [CfgMem.act, h, if_false]; exact hinv.heap r'
      · obtain ⟨h1, h2⟩ := hinv.live q hq
        refine ⟨h1, ?_⟩
        by_cases h : q.1 = r
        · simp only [CfgMem.act, h, if_true]
          rw [← h, h2]
          exact apply_absorb (hF q.1) (fun _ x => x) (by rw [h]; exact he) _
        · simp only [CfgMem.act, h, if_false]; exact h2
      · intro p hp
        rcases List.mem_cons.1 hp with rfl | hp
        · refine ⟨he, ?_⟩
          simp only [CfgMem.act, if_true]
          exact CfgEdit.idem e _
        · obtain ⟨h1, h2⟩ := hseen p hp
          refine ⟨h1, ?_⟩
          by_cases h : p.1 = r
          · simp only [CfgMem.act, h, if_true]
            rw [edits_comm (hF r) (h ▸ h1) he, ← h, h2]
          · simp only [CfgMem.act, h, if_false]; exact h2
    | quantizer r =>
      obtain ⟨he, hok⟩ := hok
      have hfix : w.heap r = applyEdits (F r) (d0 r) := by
        rw [← hinv.heap r]
        exact (applyEdits_fixed _ _ fun e h => (hseen (r, e) (he e h)).2).symm
      refine ih seen (w.act (.quantizer r)) hok ⟨hinv.heap, fun q hq => ?_⟩ hseen
      rcases List.mem_append.1 hq with hq | hq
      · exact hinv.live q hq
      · obtain rfl := List.mem_singleton.1 hq
        exact ⟨hfix, hfix⟩

theorem actsOk_append (F : ℕ → List CfgEdit) (as bs : List CfgAct) (seen : List (ℕ × CfgEdit)) :
    actsOk F seen (as ++ bs) ↔ actsOk F seen as ∧
      actsOk F ((as.filterMap fun | .edit r e => some (r, e) | .quantizer _ => none).reverse ++ seen) bs := by
  induction as generalizing seen with
  | nil => simp [actsOk]
  | cons a as ih => cases a <;> simp [actsOk, ih, and_assoc]

/-- The constructors keep to their roles. -/
theorem acts_ok (F : ℕ → List CfgEdit) (c : LayerCtor) (h : ∀ u ∈ roles c, F u.1 = u.2) : actsOk F [] c.acts := by
  have hq : ∀ (rs : List ℕ) (seen), (∀ r ∈ rs, F r = []) → actsOk F seen (rs.map .quantizer) := by
    intro rs
    induction rs with
    | nil => intros; trivial
    | cons r rs ih =>
      intro seen hr
      exact ⟨by rw [hr r (by simp)]; simp, ih seen fun r' h' => hr r' (by simp [h'])⟩
  cases c with
  | plain rs => exact hq rs [] fun r hr => h (r, []) (by simp [roles, hr])
  | lut iq oq hetIn hetTable k0 =>
    cases iq <;> cases oq <;> cases hetIn <;> cases hetTable <;> cases k0 <;>
      simp_all [roles, oneWidth, positiveTable, LayerCtor.acts, lutActs, actsOk, editActs, lutInEdits, lutOutEdits, axesEdits]
  | softmax iq oq expIq invIq expOq invOq stable het =>
    cases iq <;> cases oq <;> cases stable <;> cases het <;>
      simp_all [roles, oneWidth, positiveTable, LayerCtor.acts, lutActs, actsOk, editActs, lutInEdits, lutOutEdits, axesEdits, smTableEdits]

/-- Roles write each key once. -/
theorem roles_nodup (c : LayerCtor) (u : ℕ × List CfgEdit) (hu : u ∈ roles c) : (u.2.map CfgEdit.key).Nodup := by
  cases c with
  | plain rs => simp only [roles, List.mem_map] at hu; obtain ⟨r, _, rfl⟩ := hu; simp
  | lut iq oq hetIn hetTable k0 =>
    cases iq <;> cases oq <;> cases hetIn <;> cases hetTable <;> cases k0 <;>
      simp_all [roles, oneWidth, positiveTable, lutInEdits, lutOutEdits, axesEdits] <;> (try rcases hu with rfl | rfl) <;> simp_all
  | softmax iq oq expIq invIq expOq invOq stable het =>
    revert u
    simp only [roles, List.forall_mem_append, List.forall_mem_cons]
    cases iq <;> cases oq <;> cases het <;> simp [oneWidth, positiveTable]

/-- The role of each object in a history. -/
theorem exists_roles (hist : List LayerCtor) (h : OneRole hist) :
    ∃ F : ℕ → List CfgEdit, (∀ r, ((F r).map CfgEdit.key).Nodup) ∧ ∀ c ∈ hist, ∀ u ∈ roles c, F u.1 = u.2 := by
  classical
  refine ⟨fun r => if hr : ∃ c ∈ hist, ∃ u ∈ roles c, u.1 = r then hr.choose_spec.2.choose.2 else [], fun r => ?_, fun c hc u hu => ?_⟩
  · simp only
    split
    · rename_i hr
      exact roles_nodup _ _ hr.choose_spec.2.choose_spec.1
    · simp
  · have hr : ∃ c ∈ hist, ∃ u' ∈ roles c, u'.1 = u.1 := ⟨c, hc, u, hu, rfl⟩
    simp only [hr, dif_pos]
    exact h _ hr.choose_spec.1 c hc _ hr.choose_spec.2.choose_spec.1 u hu hr.choose_spec.2.choose_spec.2

theorem construct_inv (F : ℕ → List CfgEdit) (hF : ∀ r, ((F r).map CfgEdit.key).Nodup) (d0 : ℕ → Dict) (hist : List LayerCtor)
    (h : ∀ c ∈ hist, ∀ u ∈ roles c, F u.1 = u.2) (w : CfgMem) (hinv : CfgInv F d0 w) : CfgInv F d0 (w.construct hist) := by
  induction hist generalizing w with
  | nil => exact hinv
  | cons c hist ih =>
    exact ih (fun c' hc => h c' (by simp [hc])) _ (run_inv F hF d0 c.acts [] w (acts_ok F c (h c (by simp))) hinv (by simp))

/-- **C87 (partial)**: in every history of layer constructions in which no config object is used in two different roles, every layer saves
the config its quantizers were made from, and two quantizers made from the same object are equal.  Missing: objects used in two roles, for
which it is false. -/
theorem C87_saved_is_live_partial (heap : ℕ → Dict) (hist : List LayerCtor) (h : OneRole hist) :
    SavedIsLive ((⟨heap, []⟩ : CfgMem).construct hist) ∧
    ∀ q ∈ ((⟨heap, []⟩ : CfgMem).construct hist).live, ∀ q' ∈ ((⟨heap, []⟩ : CfgMem).construct hist).live, q.1 = q'.1 → q.2 = q'.2 := by
  obtain ⟨F, hF, hr⟩ := exists_roles hist h
  have inv := construct_inv F hF heap hist hr ⟨heap, []⟩ ⟨fun _ => rfl, by simp⟩
  refine ⟨fun q hq => ?_, fun q hq q' hq' e => ?_⟩
  · obtain ⟨h1, h2⟩ := inv.live q hq
    rw [h1, CfgMem.saved, h2]
  · rw [(inv.live q hq).1, (inv.live q' hq').1, e]

theorem run_refs (as : List CfgAct) (w : CfgMem) :
    (w.run as).live.map Prod.fst = w.live.map Prod.fst ++ as.filterMap (fun | .quantizer r => some r | .edit _ _ => none) := by
  induction as generalizing w with
  | nil => simp [CfgMem.run]
  | cons a as ih =>
    have := ih (w.act a)
    rw [CfgMem.run, List.foldl_cons, ← CfgMem.run, this]
    cases a <;> simp [CfgMem.act]

theorem acts_makes (c : LayerCtor) : c.acts.filterMap (fun | .quantizer r => some r | .edit _ _ => none) = makes c := by
  have hm : ∀ rs : List ℕ, (rs.map CfgAct.quantizer).filterMap (fun | .quantizer r => some r | .edit _ _ => none) = rs := by
    intro rs; induction rs <;> simp_all
  have he : ∀ (r : ℕ) (es : List CfgEdit),
      (editActs r es).filterMap (fun | .quantizer r => some r | .edit _ _ => none) = ([] : List ℕ) := by
    intro r es; induction es <;> simp_all [editActs]
  cases c with
  | plain rs => exact hm rs
  | lut iq oq _ _ _ => cases iq <;> cases oq <;> simp [LayerCtor.acts, lutActs, makes, he]
  | softmax iq oq expIq invIq expOq invOq stable het =>
    cases iq <;> cases oq <;> cases stable <;> cases het <;> simp [LayerCtor.acts, lutActs, makes, he]

/-- **C87**, content: every layer makes its quantizers, one per place, in order; in a history without objects in two roles each has the
values of its config object with the changes of its role, and nothing else changed. -/
theorem C87_content_partial (heap : ℕ → Dict) (hist : List LayerCtor) :
    ((⟨heap, []⟩ : CfgMem).construct hist).live.map Prod.fst = hist.flatMap makes ∧
    (OneRole hist → ∀ q ∈ ((⟨heap, []⟩ : CfgMem).construct hist).live, ∀ c ∈ hist, ∀ u ∈ roles c, u.1 = q.1 →
      q.2 = applyEdits u.2 (heap q.1)) := by
  constructor
  · have : ∀ w : CfgMem, (w.construct hist).live.map Prod.fst = w.live.map Prod.fst ++ hist.flatMap makes := by
      induction hist with
      | nil => intro w; simp [CfgMem.construct]
      | cons c hist ih =>
        intro w
        have := ih (w.run c.acts)
        rw [CfgMem.construct, List.foldl_cons, ← CfgMem.construct, this, run_refs, acts_makes]
        simp
    simpa using this ⟨heap, []⟩
  · intro h q hq c hc u hu e
    obtain ⟨F, hF, hr⟩ := exists_roles hist h
    have inv := construct_inv F hF heap hist hr ⟨heap, []⟩ ⟨fun _ => rfl, by simp⟩
    rw [(inv.live q hq).1, ← e, hr c hc u hu]

/-- **C87**, order: the quantizers made from an object do not depend on the order in which the layers are constructed, as long as no object
is used in two roles. -/
theorem C87_order_partial (heap : ℕ → Dict) (hist hist' : List LayerCtor) (hp : hist.Perm hist') (h : OneRole hist) :
    ∀ q ∈ ((⟨heap, []⟩ : CfgMem).construct hist).live, ∀ q' ∈ ((⟨heap, []⟩ : CfgMem).construct hist').live, q.1 = q'.1 → q.2 = q'.2 := by
  obtain ⟨F, hF, hr⟩ := exists_roles hist h
  have inv := construct_inv F hF heap hist hr ⟨heap, []⟩ ⟨fun _ => rfl, by simp⟩
  have inv' := construct_inv F hF heap hist' (fun c hc => hr c (hp.symm.subset hc)) ⟨heap, []⟩ ⟨fun _ => rfl, by simp⟩
  intro q hq q' hq' e
  rw [(inv.live q hq).1, (inv'.live q' hq').1, e]

theorem run_frame (as : List CfgAct) (w : CfgMem) (r : ℕ) (h : ∀ e, .edit r e ∉ as) : (w.run as).heap r = w.heap r := by
  induction as generalizing w with
  | nil => rfl
  | cons a as ih =>
    have := ih (w.act a) fun e he => h e (by simp [he])
    refine this.trans ?_
    cases a with
    | edit r' e =>
      have : r ≠ r' := fun x => h e (by simp [x])
      simp [CfgMem.act, this]
    | quantizer r' => rfl

theorem run_live (as : List CfgAct) (w : CfgMem) : ∃ l, (w.run as).live = w.live ++ l := by
  induction as generalizing w with
  | nil => exact ⟨[], by simp [CfgMem.run]⟩
  | cons a as ih =>
    obtain ⟨l, hl⟩ := ih (w.act a)
    cases a with
    | edit r e => exact ⟨l, hl⟩
    | quantizer r => exact ⟨[(r, w.heap r)] ++ l, by rw [CfgMem.run, List.foldl_cons, ← CfgMem.run, hl]; simp [CfgMem.act]⟩

theorem acts_mention (c : LayerCtor) (r : ℕ) (hr : r ∉ mentions c) (e : CfgEdit) : .edit r e ∉ c.acts := by
  intro hm
  apply hr
  cases c with
  | plain rs => simp [LayerCtor.acts] at hm
  | lut iq oq hetIn hetTable k0 =>
    cases iq <;> cases oq <;> simp_all [LayerCtor.acts, lutActs, editActs, mentions, roles] <;> tauto
  | softmax iq oq expIq invIq expOq invOq stable het =>
    cases iq <;> cases oq <;> cases stable <;> cases het <;>
      simp_all [LayerCtor.acts, lutActs, editActs, mentions, roles, lutInEdits, lutOutEdits] <;> tauto

/-- **C87**, frame: constructing layers never changes a config object that is not given to one of them, nor a quantizer that exists. -/
theorem C87_frame (w : CfgMem) (hist : List LayerCtor) :
    (∀ r, (∀ c ∈ hist, r ∉ mentions c) → (w.construct hist).saved r = w.saved r) ∧ ∃ l, (w.construct hist).live = w.live ++ l := by
  induction hist generalizing w with
  | nil => exact ⟨fun _ _ => rfl, [], by simp [CfgMem.construct]⟩
  | cons c hist ih =>
    obtain ⟨h1, l, h2⟩ := ih (w.run c.acts)
    obtain ⟨l', h3⟩ := run_live c.acts w
    refine ⟨fun r hr => (h1 r fun c' hc => hr c' (by simp [hc])).trans (run_frame _ _ _ (acts_mention c r (hr c (by simp)))), l' ++ l, ?_⟩
    refine h2.trans ?_
    rw [h3, List.append_assoc]

/-- **C87**, loading: after a history without objects in two roles, constructing a layer again from (a fresh copy of) the saved configs
gives quantizers with the same values. -/
theorem C87_reload_partial (heap : ℕ → Dict) (hist : List LayerCtor) (h : OneRole hist) (c : LayerCtor) (hc : c ∈ hist) :
    ∀ q ∈ ((⟨heap, []⟩ : CfgMem).construct hist).live,
    ∀ q' ∈ ((⟨((⟨heap, []⟩ : CfgMem).construct hist).saved, []⟩ : CfgMem).construct [c]).live, q.1 = q'.1 → q.2 = q'.2 := by
  obtain ⟨F, hF, hr⟩ := exists_roles hist h
  have inv := construct_inv F hF heap hist hr ⟨heap, []⟩ ⟨fun _ => rfl, by simp⟩
  have inv' := construct_inv F hF heap [c] (fun c' hc' => by obtain rfl := List.mem_singleton.1 hc'; exact hr c' hc)
    ⟨((⟨heap, []⟩ : CfgMem).construct hist).saved, []⟩ ⟨inv.heap, by simp⟩
  intro q hq q' hq' e
  rw [(inv.live q hq).1, (inv'.live q' hq').1, e]

/-- **C87 violated**: an ordinary layer and a softmax table sharing one config object.  What the layer saves is what it uses if and only
if the config had the values the softmax writes from the beginning. -/
theorem C87_shared_violated (heap : ℕ → Dict) (r a b c : ℕ) (h : r ≠ a ∧ r ≠ b ∧ r ≠ c) (stable het : Bool) :
    let w := (⟨heap, []⟩ : CfgMem).construct [.plain [r], .softmax none none a b r c stable het]
    (∃ rest, w.live = (r, heap r) :: rest) ∧
    (w.saved r = heap r ↔ applyEdits (positiveTable ++ if het then [] else oneWidth) (heap r) = heap r) := by
  obtain ⟨h1, h2, h3⟩ := h
  constructor
  · obtain ⟨l, hl⟩ := run_live (LayerCtor.softmax none none a b r c stable het).acts ((⟨heap, []⟩ : CfgMem).run (LayerCtor.plain [r]).acts)
    exact ⟨l, hl⟩
  · cases stable <;> cases het <;>
      simp [CfgMem.construct, CfgMem.run, CfgMem.act, CfgMem.saved, LayerCtor.acts, lutActs, editActs, lutInEdits, lutOutEdits, axesEdits,
        smTableEdits, oneWidth, positiveTable, applyEdits, h1, h2, h3]

/-- A config with the four entries that matter. -/
def sharedExample : Dict :=
  Dict.ofList [("k0", .bool true), ("overflow_mode", .str "WRAP"), ("round_mode", .str "RND"), ("homogeneous_axis", .axes [0])]

/-- **C87 violated**, order: with the same object the ordinary layer is signed and wrapping if it is made first, unsigned and saturating if
the softmax is made first. -/
theorem C87_order_violated :
    ∃ heap : ℕ → Dict, ∃ r q q',
      (r, q) ∈ ((⟨heap, []⟩ : CfgMem).construct [.plain [r], .lut none (some r) true true true]).live ∧
      (∀ p ∈ ((⟨heap, []⟩ : CfgMem).construct [.lut none (some r) true true true, .plain [r]]).live, p = (r, q')) ∧
      q "k0" = some (.bool true) ∧ q' "k0" = some (.bool false) := by
  refine ⟨fun _ => sharedExample, 0, sharedExample, applyEdits (lutOutEdits true true) sharedExample, ?_, ?_, ?_, ?_⟩
  · simp [CfgMem.construct, CfgMem.run, CfgMem.act, LayerCtor.acts, lutActs, editActs, lutOutEdits]
  · simp [CfgMem.construct, CfgMem.run, CfgMem.act, LayerCtor.acts, lutActs, editActs, lutOutEdits, applyEdits]
  · decide +kernel
  · decide +kernel

/-- Concrete case of the positive theorems: two dense layers sharing object 0 and two softmax layers sharing objects 1 to 3. -/
example : OneRole [.plain [0, 0], .softmax none (some 0) 1 1 2 3 true false, .plain [0], .softmax none none 1 1 3 2 false false] := by
  unfold OneRole
  decide +kernel

end HGQ
