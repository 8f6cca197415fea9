import Verif.Model.ProgressBar
import Mathlib.Tactic

/-!
# C126: the progress bar counts the epochs of the current training
-/
namespace HGQ

namespace Spec
/-- A call of `fit`: the number of epochs asked for and the logs of those that were run. -/
structure FitRun where
  epochs : ℕ
  logs : List (List (String × ℚ))

/-- The callbacks of the epochs that were run. -/
def FitRun.epochCalls (f : FitRun) : List PBarCall := f.logs.flatMap fun l => [.epochBegin f.epochs, .epochEnd l]

/-- The callbacks of a training that ends normally (also by early stopping). -/
def FitRun.calls (f : FitRun) : List PBarCall := f.epochCalls ++ [.trainEnd]

/-- Every log has the entries that the template names. -/
def HasEntries (ks : List String) (f : FitRun) : Prop := ∀ l ∈ f.logs, ∀ k ∈ ks, ∃ v, l.lookup k = some v

/-- The bar shows `n` of `total` epochs, and the entries of the log `l`. -/
def Shows (c : PBarCfg) (total n : ℕ) (l : List (String × ℚ)) (b : TqdmBar) : Prop :=
  b.total = total ∧ b.count = n ∧ ∃ vs eb, b.text = some (vs, eb) ∧ vs.map some = c.template.map (fun k => l.lookup k) ∧ (if c.disableEbops then eb = none else eb = l.lookup "ebops")
end Spec
open Spec

variable {c : PBarCfg}

theorem pbarFormat_some {logs : List (String × ℚ)} : ∀ {ks : List String}, (∀ k ∈ ks, ∃ v, logs.lookup k = some v) → ∃ vs, pbarFormat logs ks = some vs ∧ vs.map some = ks.map fun k => logs.lookup k
  | [], _ => ⟨[], rfl, rfl⟩
  | k :: ks, h => by
    obtain ⟨v, hv⟩ := h k (by simp)
    obtain ⟨vs, h1, h2⟩ := pbarFormat_some (ks := ks) fun k hk => h k (by simp [hk])
    exact ⟨v :: vs, by simp only [pbarFormat, hv, h1], by simp [hv, h2]⟩

theorem pbarFormat_none {logs : List (String × ℚ)} : ∀ {ks : List String}, (∃ k ∈ ks, logs.lookup k = none) → pbarFormat logs ks = none
  | [], h => by simp at h
  | k :: ks, h => by
    simp only [pbarFormat]
    cases hk : logs.lookup k with
    | none => rfl
    | some v =>
      rw [pbarFormat_none]
      obtain ⟨a, ha, he⟩ := h
      rcases List.mem_cons.1 ha with rfl | ha
      · rw [hk] at he; simp at he
      · exact ⟨a, ha, he⟩

theorem pbar_run_append (st : PBarState) (es fs : List PBarCall) : c.run st (es ++ fs) = (c.run st es).bind fun st => c.run st fs := by
  induction es generalizing st with
  | nil => rfl
  | cons e es ih =>
    simp only [List.cons_append, PBarCfg.run]
    cases c.call st e with
    | none => rfl
    | some s => exact ih s

/-- Epochs with a bar already there. -/
theorem pbar_epochs (total : ℕ) (cl : List TqdmBar) (e : ℕ) : ∀ (ls : List (List (String × ℚ))) (b : TqdmBar), (∀ l ∈ ls, ∀ k ∈ c.template, ∃ v, l.lookup k = some v) → b.total = total →
    ∃ b', c.run ⟨some b, cl⟩ (ls.flatMap fun l => [.epochBegin e, .epochEnd l]) = some ⟨some b', cl⟩ ∧ b'.total = total ∧ b'.count = b.count + ls.length ∧
      ∀ l, ls.getLast? = some l → Shows c total (b.count + ls.length) l b' := by
  intro ls
  induction ls with
  | nil => intro b _ hb; exact ⟨b, rfl, hb, rfl, by simp⟩
  | cons l ls ih =>
    intro b hn hb
    obtain ⟨vs, h1, h2⟩ := pbarFormat_some (ks := c.template) (hn l (by simp))
    obtain ⟨b', g1, g2, g3, g4⟩ := ih ⟨b.total, b.count + 1, some (vs, if c.disableEbops then none else l.lookup "ebops")⟩ (fun l hl => hn l (by simp [hl])) hb
    refine ⟨b', ?_, g2, by rw [g3, List.length_cons]; simp only; omega, fun l' hl' => ?_⟩
    · rw [List.flatMap_cons, List.cons_append, List.cons_append, List.nil_append]
      simp only [PBarCfg.run, PBarCfg.call, Option.bind_some, h1, Option.map_some]
      exact g1
    · cases ls with
      | nil =>
        obtain rfl : l = l' := by simpa using hl'
        have : b' = ⟨b.total, b.count + 1, some (vs, if c.disableEbops then none else l.lookup "ebops")⟩ := by
          have := Option.some.inj g1
          simpa using this.symm
        rw [this]
        refine ⟨hb, rfl, vs, _, rfl, h2, ?_⟩
        cases c.disableEbops <;> simp
      | cons l2 ls =>
        have := g4 l' (by simpa using hl')
        rw [List.length_cons]
        simp only at this
        rwa [show b.count + 1 + (l2 :: ls).length = b.count + ((l2 :: ls).length + 1) by omega] at this

theorem pbar_fit (f : FitRun) (h : HasEntries c.template f) (cl : List TqdmBar) : (f.logs = [] ∧ c.run ⟨none, cl⟩ f.epochCalls = some ⟨none, cl⟩) ∨
    ∃ b l, f.logs.getLast? = some l ∧ c.run ⟨none, cl⟩ f.epochCalls = some ⟨some b, cl⟩ ∧ Shows c f.epochs f.logs.length l b := by
  cases hl : f.logs with
  | nil => exact .inl ⟨rfl, by simp [FitRun.epochCalls, hl, PBarCfg.run]⟩
  | cons l ls =>
    refine .inr ?_
    obtain ⟨b', g1, -, -, g4⟩ := pbar_epochs (c := c) f.epochs cl f.epochs (l :: ls) ⟨f.epochs, 0, none⟩ (by rw [← hl]; exact h) rfl
    obtain ⟨l', hl'⟩ := Option.isSome_iff_exists.1 (List.getLast?_isSome.2 (List.cons_ne_nil l ls))
    refine ⟨b', l', hl', ?_, by simpa using g4 l' hl'⟩
    rw [FitRun.epochCalls, hl, ← g1]
    simp only [List.flatMap_cons, List.cons_append, PBarCfg.run, PBarCfg.call, Option.bind_some]

/-- **C126 (partial).** After any trainings that ended normally, with any numbers of epochs, and any number of epochs of the next: the bar shows the epochs of this training, out of those
asked for, and the entries of the last log; one bar was closed per training that had an epoch, with its count. -/
theorem C126_partial (c : PBarCfg) (fs : List FitRun) (f : FitRun) (hfs : ∀ g ∈ fs, HasEntries c.template g) (hf : HasEntries c.template f) :
    ∃ st, c.run ⟨none, []⟩ (fs.flatMap FitRun.calls ++ f.epochCalls) = some st ∧ (f.logs = [] → st.bar = none) ∧
      (∀ l, f.logs.getLast? = some l → ∃ b, st.bar = some b ∧ Shows c f.epochs f.logs.length l b) ∧
      st.closed.map (fun b => (b.count, b.total)) = (fs.filter fun g => g.logs ≠ []).map fun g => (g.logs.length, g.epochs) := by
  have key : ∀ (fs : List FitRun) (cl : List TqdmBar), (∀ g ∈ fs, HasEntries c.template g) → ∃ cl', c.run ⟨none, cl⟩ (fs.flatMap FitRun.calls) = some ⟨none, cl ++ cl'⟩ ∧
      cl'.map (fun b => (b.count, b.total)) = (fs.filter fun g => g.logs ≠ []).map fun g => (g.logs.length, g.epochs) := by
    intro fs
    induction fs with
    | nil => intro cl _; exact ⟨[], by simp [PBarCfg.run], rfl⟩
    | cons g fs ih =>
      intro cl hg
      rw [List.flatMap_cons, FitRun.calls]
      rcases pbar_fit g (hg g (by simp)) cl with ⟨h0, h1⟩ | ⟨b, l, h0, h1, h2⟩
      · obtain ⟨cl', e1, e2⟩ := ih cl fun g hg' => hg g (by simp [hg'])
        refine ⟨cl', ?_, by rw [e2, List.filter_cons_of_neg (by simpa using h0)]⟩
        rw [pbar_run_append, pbar_run_append, h1]
        exact e1
      · obtain ⟨cl', e1, e2⟩ := ih (cl ++ [b]) fun g hg' => hg g (by simp [hg'])
        have hne : g.logs ≠ [] := by rintro h; rw [h] at h0; simp at h0
        refine ⟨b :: cl', ?_, by rw [List.filter_cons_of_pos (by simpa using hne), List.map_cons, List.map_cons, e2, h2.1, h2.2.1]⟩
        rw [pbar_run_append, pbar_run_append, h1]
        simp only [Option.bind_some, PBarCfg.run, PBarCfg.call]
        rw [e1, List.append_assoc]; rfl
  obtain ⟨cl', e1, e2⟩ := key fs [] hfs
  rw [pbar_run_append, e1, Option.bind_some, List.nil_append]
  rcases pbar_fit f hf cl' with ⟨h0, h1⟩ | ⟨b, l, h0, h1, h2⟩
  · exact ⟨_, h1, fun _ => rfl, fun l hl => by rw [h0] at hl; simp at hl, e2⟩
  · refine ⟨_, h1, fun h => by rw [h] at h0; simp at h0, fun l' hl' => ?_, e2⟩
    rw [h0] at hl'
    obtain rfl := Option.some.inj hl'
    exact ⟨b, rfl, h2⟩

/-- **C126 violated (interruption):** if a training was interrupted after some epochs (an exception, Ctrl-C), the next one goes on with the old bar: old total, counts of both. -/
theorem C126_interrupted_violated (c : PBarCfg) (f g : FitRun) (hf : HasEntries c.template f) (hg : HasEntries c.template g) (h0 : f.logs ≠ []) (h1 : g.logs ≠ []) :
    ∃ b, c.run ⟨none, []⟩ (f.epochCalls ++ g.epochCalls) = some ⟨some b, []⟩ ∧ b.total = f.epochs ∧ b.count = f.logs.length + g.logs.length := by
  rcases pbar_fit f hf [] with ⟨h, -⟩ | ⟨b, l, -, e, hb⟩
  · exact absurd h h0
  · obtain ⟨b', g1, g2, g3, -⟩ := pbar_epochs (c := c) f.epochs [] g.epochs g.logs b hg hb.1
    exact ⟨b', by rw [pbar_run_append, e]; exact g1, g2, by rw [g3, hb.2.1]⟩

/-- **C126 violated (template):** a log without an entry the template names, as `val_loss` of the default template in a training without validation data, raises at the end of the first
epoch, whatever came before. -/
theorem C126_validation_violated (c : PBarCfg) (e : ℕ) (l : List (String × ℚ)) (k : String) (hk : k ∈ c.template) (hl : l.lookup k = none) (st : PBarState) (es : List PBarCall) :
    c.run st (.epochBegin e :: .epochEnd l :: es) = none := by
  obtain ⟨bar, cl⟩ := st
  have h := pbarFormat_none (logs := l) ⟨k, hk, hl⟩
  cases bar <;> simp [PBarCfg.run, PBarCfg.call, h]

/-- Two epochs of three (early stopping), then one of two, with EBOPs. -/
example : let c : PBarCfg := ⟨["loss", "val_loss"], false⟩
    let l : ℚ → List (String × ℚ) := fun v => [("loss", v), ("val_loss", 2 * v), ("ebops", 7)]
    HasEntries c.template ⟨3, [l 5, l 4]⟩ ∧ c.run ⟨none, []⟩ ((FitRun.mk 3 [l 5, l 4]).calls ++ (FitRun.mk 2 [l 1]).epochCalls) =
      some ⟨some ⟨2, 1, some ([1, 2], some 7)⟩, [⟨3, 2, some ([4, 8], some 7)⟩]⟩ := by
  refine ⟨fun l hl k hk => ?_, by decide +kernel⟩
  simp only [List.mem_cons, List.not_mem_nil, or_false] at hl hk
  rcases hl with rfl | rfl <;> rcases hk with rfl | rfl <;> exact ⟨_, rfl⟩

/-- Without validation data. -/
example : let c : PBarCfg := ⟨["loss", "val_loss"], false⟩
    c.run ⟨none, []⟩ [.epochBegin 3, .epochEnd [("loss", 1)]] = none := by decide +kernel

end HGQ
