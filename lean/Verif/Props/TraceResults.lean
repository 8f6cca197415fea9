import Verif.Model.TraceResults
import Verif.Props.Dataset

/-!
# C94: the outputs returned by trace_minmax are the outputs of the samples, in order
-/
namespace HGQ

namespace Spec
variable {V : Type}

/-- The samples of an array with a batch axis, in order. -/
def rowsOf (a : Arr V) : List (Arr V) := (List.range (a.shape.headD 0)).map a.sample

end Spec
open Spec
variable {V : Type}

theorem concatGet_rows (a : Arr V) (r : List (Arr V)) (sh : List ℕ) (ha : a.shape.tail = sh)
    (hr : ∀ b ∈ r, b.shape.tail = sh) :
    (List.range ((a :: r).map fun b => b.shape.headD 0).sum).map
      (fun j => (⟨sh, fun idx => concatGet 0 a r (j :: idx)⟩ : Arr V)) = (a :: r).flatMap rowsOf := by
  induction r generalizing a with
  | nil =>
    simp only [List.map_cons, List.map_nil, List.sum_cons, List.sum_nil, Nat.add_zero, List.flatMap_cons,
      List.flatMap_nil, List.append_nil, rowsOf]
    refine List.map_congr_left fun j _ => ?_
    simp [Arr.sample, ha, concatGet]
  | cons b r ih =>
    rw [List.map_cons, List.sum_cons, List.range_add, List.map_append, List.flatMap_cons]
    congr 1
    · unfold rowsOf
      refine List.map_congr_left fun j hj => ?_
      have hj' : j < a.shape.headD 0 := List.mem_range.1 hj
      have hj2 : j < a.shape.getD 0 0 := by
        cases h : a.shape <;> simp_all
      simp only [Arr.sample, ha, concatGet, List.getD_cons_zero, if_pos hj2]
    · rw [← ih b (hr b List.mem_cons_self) (fun c hc => hr c (List.mem_cons_of_mem _ hc)), List.map_map]
      refine List.map_congr_left fun j _ => ?_
      have h0 : a.shape.getD 0 0 = a.shape.headD 0 := by cases a.shape <;> simp
      simp only [Function.comp, concatGet, List.getD_cons_zero, h0,
        if_neg (show ¬ a.shape.headD 0 + j < a.shape.headD 0 by omega)]
      congr 1
      funext idx
      simp

theorem npConcat_rows (as : List (Arr V)) (hne : as ≠ []) (sh : List ℕ)
    (h : ∀ a ∈ as, ∃ d, a.shape = d :: sh) :
    ∃ c, npConcat 0 as = some c ∧ c.shape.tail = sh ∧ rowsOf c = as.flatMap rowsOf := by
  obtain ⟨a, r, rfl⟩ := List.exists_cons_of_ne_nil hne
  obtain ⟨d, hd⟩ := h a List.mem_cons_self
  have hax : normAxis a.shape.length 0 = some 0 := by simp [normAxis, hd]
  have hall : ∀ b ∈ r, b.shape.length = a.shape.length ∧ b.shape.eraseIdx 0 = a.shape.eraseIdx 0 := by
    intro b hb
    obtain ⟨e, he⟩ := h b (List.mem_cons_of_mem _ hb)
    simp [hd, he]
  refine ⟨⟨a.shape.set 0 ((a :: r).map fun b => b.shape.getD 0 0).sum, concatGet 0 a r⟩, ?_, ?_, ?_⟩
  · simp only [npConcat, hax, if_pos hall]
  · simp [hd]
  · have := concatGet_rows a r sh (by simp [hd]) (fun b hb => by
      obtain ⟨e, he⟩ := h b (List.mem_cons_of_mem _ hb); simp [he])
    have hsum : (a :: r).map (fun b => b.shape.getD 0 0) = (a :: r).map (fun b => b.shape.headD 0) := by
      refine List.map_congr_left fun b hb => ?_
      cases b.shape <;> simp
    rw [← this]
    unfold rowsOf
    simp only [hd, List.set_cons_zero, List.headD_cons, Arr.sample, List.tail_cons]
    rw [hsum]
    rfl

/-- **C94** (one output) For a model built with one bare output tensor and any non-empty sequence of batches, the returned
array has as its rows the rows of the batch outputs, in order. -/
theorem C94_single_output_partial (outs : List (Arr V)) (hne : outs ≠ []) (sh : List ℕ)
    (h : ∀ a ∈ outs, ∃ d, a.shape = d :: sh) :
    ∃ c, traceResults 1 (outs.map .tensor) = some [c] ∧ c.shape.tail = sh ∧ rowsOf c = outs.flatMap rowsOf := by
  obtain ⟨c, hc, hs, hr⟩ := npConcat_rows outs hne sh h
  refine ⟨c, ?_, hs, hr⟩
  have hm : (outs.map ModelOut.tensor).mapM convertToNumpy = some outs := by
    clear hne hc hr h
    induction outs with
    | nil => rfl
    | cons a r ih => simp [List.mapM_cons, ih, convertToNumpy]
  simp [traceResults, hm, hc]

theorem npStack_index (as : List (Arr V)) (hne : as ≠ []) (sh : List ℕ) (h : ∀ a ∈ as, a.shape = sh) :
    ∃ c, npStack as = some c ∧ ∀ (i : ℕ) (hi : i < as.length), npIndex i c = some as[i] := by
  obtain ⟨a, r, rfl⟩ := List.exists_cons_of_ne_nil hne
  have ha := h a List.mem_cons_self
  have hall : ∀ b ∈ r, b.shape = a.shape := fun b hb => by rw [ha, h b (List.mem_cons_of_mem _ hb)]
  refine ⟨⟨(a :: r).length :: a.shape, fun idx => ((a :: r).getD (idx.headD 0) a).get idx.tail⟩,
    by simp only [npStack, if_pos hall], ?_⟩
  intro i hi
  have hb : (a :: r)[i].shape = a.shape := by rw [ha]; exact h _ (List.getElem_mem hi)
  simp only [npIndex, if_pos hi, Arr.sample, List.tail_cons, List.headD_cons, Option.some.injEq]
  have hg : (a :: r).getD i a = (a :: r)[i] := by simp [List.getD, List.getElem?_eq_getElem hi]
  rw [hg, ← hb]

theorem mapM_some_of {α β : Type} (f : α → Option β) (g : α → β) (l : List α) (h : ∀ x ∈ l, f x = some (g x)) :
    l.mapM f = some (l.map g) := by
  induction l with
  | nil => rfl
  | cons x l ih =>
    rw [List.mapM_cons, h x List.mem_cons_self, ih fun y hy => h y (List.mem_cons_of_mem _ hy)]
    rfl

/-- **C94** (several outputs) For a model with `n ≥ 2` outputs *all of the same shape*, the `i`-th returned array has as its
rows the rows of the `i`-th outputs of the batches, in order.
Missing: outputs of different shapes, see `C94_shapes_violated`. -/
theorem C94_many_outputs_partial (n : ℕ) (hn : 2 ≤ n) (outs : List (List (Arr V))) (hne : outs ≠ []) (sh : List ℕ)
    (hlen : ∀ o ∈ outs, o.length = n) (h : ∀ o ∈ outs, ∃ d, ∀ a ∈ o, a.shape = d :: sh) :
    ∃ cs : List (Arr V), traceResults n (outs.map .list) = some cs ∧ cs.length = n ∧
      ∀ (i : ℕ) (c : Arr V), cs[i]? = some c →
        c.shape.tail = sh ∧ rowsOf c = outs.flatMap fun o => (o[i]?.map rowsOf).getD [] := by
  classical
  have h1 : ∀ o ∈ outs, ∃ c, npStack o = some c ∧ ∀ (i : ℕ) (hi : i < o.length), npIndex i c = some o[i] := by
    intro o ho
    obtain ⟨d, hd⟩ := h o ho
    refine npStack_index o ?_ _ hd
    have := hlen o ho
    intro he; rw [he] at this; simp at this; omega
  have hst : ∃ g : List (Arr V) → Arr V, ∀ o ∈ outs, npStack o = some (g o) ∧
      ∀ (i : ℕ) (hi : i < o.length), npIndex i (g o) = some o[i] := by
    have : ∀ o : List (Arr V), ∃ c : Arr V, o ∈ outs → npStack o = some c ∧
        ∀ (i : ℕ) (hi : i < o.length), npIndex i c = some o[i] := by
      intro o
      by_cases ho : o ∈ outs
      · obtain ⟨c, hc⟩ := h1 o ho
        exact ⟨c, fun _ => hc⟩
      · obtain ⟨o', ho'⟩ := List.exists_mem_of_ne_nil _ hne
        obtain ⟨c, -⟩ := h1 o' ho'
        exact ⟨c, fun h => absurd h ho⟩
    choose g hg using this
    exact ⟨g, hg⟩
  obtain ⟨g, hg⟩ := hst
  have hconv : (outs.map ModelOut.list).mapM convertToNumpy = some (outs.map g) := by
    rw [mapM_some_of convertToNumpy (fun r => match r with | .tensor a => a | .list as => g as), List.map_map]
    · rfl
    · intro r hr
      obtain ⟨o, ho, rfl⟩ := List.mem_map.1 hr
      exact (hg o ho).1
  -- the arrays of output `i`
  have hidx : ∀ i < n, ∃ c, ((outs.map g).mapM (npIndex i)).bind (npConcat 0) = some c ∧
      c.shape.tail = sh ∧ rowsOf c = outs.flatMap fun o => (o[i]?.map rowsOf).getD [] := by
    intro i hi
    obtain ⟨o', ho'⟩ := List.exists_mem_of_ne_nil _ hne
    have hi' : i < o'.length := by rw [hlen o' ho']; exact hi
    let dflt : Arr V := o'[i]
    have hm : (outs.map g).mapM (npIndex i) = some (outs.map fun o => o.getD i dflt) := by
      have : ∀ os : List (List (Arr V)), (∀ o ∈ os, o ∈ outs) →
          (os.map g).mapM (npIndex i) = some (os.map fun o => o.getD i dflt) := by
        intro os
        induction os with
        | nil => intro _; rfl
        | cons o os ih =>
          intro hos
          have ho := hos o List.mem_cons_self
          have hio : i < o.length := by rw [hlen o ho]; exact hi
          rw [List.map_cons, List.mapM_cons, (hg o ho).2 i hio, ih fun x hx => hos x (List.mem_cons_of_mem _ hx)]
          simp [List.getElem?_eq_getElem hio]
      exact this outs fun o ho => ho
    rw [hm]
    obtain ⟨c, hc, hs, hr⟩ := npConcat_rows (outs.map fun o => o.getD i dflt) (by simpa using hne) sh (by
      intro a ha
      obtain ⟨o, ho, rfl⟩ := List.mem_map.1 ha
      obtain ⟨d, hd⟩ := h o ho
      have hio : i < o.length := by rw [hlen o ho]; exact hi
      exact ⟨d, hd _ (by
        have hg' : o.getD i dflt = o[i] := by simp [List.getD, List.getElem?_eq_getElem hio]
        rw [hg']; exact List.getElem_mem hio)⟩)
    refine ⟨c, hc, hs, ?_⟩
    rw [hr, List.flatMap_map]
    refine List.flatMap_congr fun o ho => ?_
    have hio : i < o.length := by rw [hlen o ho]; exact hi
    simp [List.getElem?_eq_getElem hio]
  haveI : Nonempty (Arr V) := by
    obtain ⟨o', ho'⟩ := List.exists_mem_of_ne_nil _ hne
    exact ⟨g o'⟩
  choose! c hc hs hr using hidx
  refine ⟨(List.range n).map c, ?_, by simp, ?_⟩
  · simp only [traceResults, hconv, Option.bind_some, if_neg (show n ≠ 1 by omega)]
    exact mapM_some_of _ _ _ fun i hi => hc i (List.mem_range.1 hi)
  · intro i a ha
    have hi : i < n := by
      by_contra hcon
      rw [List.getElem?_eq_none (by simpa using hcon)] at ha
      simp at ha
    simp only [List.getElem?_map, List.getElem?_range hi, Option.map_some, Option.some.injEq] at ha
    subst ha
    exact ⟨hs i hi, hr i hi⟩

/-- **C94** (with the data) With array data (split into batches by `Dataset`, unshuffled, nothing dropped) and a model
whose output on a batch consists of the outputs of its samples, row `j` of the returned array is the output on sample
`j`, for every batch size. -/
theorem C94_sample_order {α : Type} {n : ℕ} {d : DS} (hd : DSReach n false false d) {b : ℕ}
    (hb : d.bs = some b) (x y : List α) (hx : x.length = n) (hy : y.length = n) (hpos : 0 < n)
    (f : α → Arr V) (sh : List ℕ) (model : List α → Arr V)
    (hmodel : ∀ xs, xs ≠ [] → (∃ k, (model xs).shape = k :: sh) ∧ rowsOf (model xs) = xs.map f) :
    ∃ e c, epoch d x y (batches n b false) = some e ∧
      traceResults 1 (e.map fun p => .tensor (model p.1)) = some [c] ∧ rowsOf c = x.map f := by
  obtain ⟨e, he, hfl, -, hp⟩ := (C28_partition hd hb x y hx hy).1 rfl
  have hene : e ≠ [] := by
    rintro rfl
    simp only [List.map_nil, List.flatten_nil] at hfl
    rw [← hfl] at hx; simp at hx; omega
  obtain ⟨c, hc, -, hr⟩ := C94_single_output_partial (e.map fun p => model p.1) (by simpa using hene) sh (by
    intro a ha
    obtain ⟨p, hpm, rfl⟩ := List.mem_map.1 ha
    exact (hmodel p.1 (hp p hpm).2).1)
  refine ⟨e, c, he, by simpa [List.map_map, Function.comp_def] using hc, ?_⟩
  rw [hr, List.flatMap_map, ← hfl, List.map_flatten, List.map_map, List.flatMap_def]
  congr 1
  refine List.map_congr_left fun p hpm => ?_
  exact (hmodel p.1 (hp p hpm).2).2

/-- **C94** is false for models with outputs of different shapes: the list of outputs is turned into one array, which
raises on the first batch. -/
theorem C94_shapes_violated (n : ℕ) (pre post : List (ModelOut V)) (as : List (Arr V)) (a b : Arr V) (ha : a ∈ as)
    (hb : b ∈ as) (hne : a.shape ≠ b.shape) : traceResults n (pre ++ .list as :: post) = none := by
  have h0 : convertToNumpy (.list as) = none := by
    cases as with
    | nil => simp at ha
    | cons c r =>
      simp only [convertToNumpy, npStack]
      rw [if_neg]
      intro hall
      have : ∀ x ∈ c :: r, x.shape = c.shape := by
        intro x hx
        rcases List.mem_cons.1 hx with rfl | hx
        · rfl
        · exact hall x hx
      exact hne ((this a ha).trans (this b hb).symm)
  have : (pre ++ .list as :: post).mapM convertToNumpy = none := by
    induction pre with
    | nil => simp [List.mapM_cons, h0]
    | cons p pre ih =>
      rw [List.cons_append, List.mapM_cons, ih]
      cases convertToNumpy p <;> rfl
  simp [traceResults, this]

/-- **C94** is false for a model built with a one-element list of outputs (`keras.Model(x, [y])`): the batches are put
under an extra axis of size one, so batches of different sizes raise, and with equal sizes the first axis counts the
batches, not the samples. -/
theorem C94_one_element_list_violated (outs : List (Arr V)) (hne : outs ≠ []) :
    (∀ a ∈ outs, ∀ b ∈ outs, a.shape ≠ b.shape → traceResults 1 (outs.map fun a => .list [a]) = none) ∧
    (∀ c, traceResults 1 (outs.map fun a => .list [a]) = some [c] → c.shape.headD 0 = outs.length) := by
  have hconv : (outs.map fun a => ModelOut.list [a]).mapM convertToNumpy =
      some (outs.map fun a => (⟨1 :: a.shape, fun idx => ([a].getD (idx.headD 0) a).get idx.tail⟩ : Arr V)) := by
    induction outs with
    | nil => rfl
    | cons a r ih =>
      rcases r with _ | ⟨b, r⟩
      · simp [List.mapM_cons, convertToNumpy, npStack]
      · rw [List.map_cons, List.mapM_cons, ih (by simp)]
        simp [convertToNumpy, npStack]
  simp only [traceResults, hconv, Option.bind_some, if_true]
  obtain ⟨a, r, rfl⟩ := List.exists_cons_of_ne_nil hne
  have hax : normAxis (a.shape.length + 1) 0 = some 0 := by
    simp only [normAxis]
    rw [if_pos (by constructor <;> push_cast <;> omega)]
    simp
  constructor
  · intro x hx z hz hxz
    simp only [List.map_cons, npConcat, List.length_cons, hax]
    rw [if_neg]
    · rfl
    · intro hall
      have : ∀ y ∈ a :: r, y.shape = a.shape := by
        intro y hy
        rcases List.mem_cons.1 hy with rfl | hy
        · rfl
        · have := (hall _ (List.mem_map_of_mem hy)).2
          simpa using this
      exact hxz ((this x hx).trans (this z hz).symm)
  · intro c hc
    simp only [List.map_cons, npConcat, List.length_cons, hax] at hc
    split_ifs at hc with hall
    · simp only [Option.map_some, Option.some.injEq, List.cons.injEq, and_true] at hc
      subst hc
      simp only [List.set_cons_zero, List.headD_cons, List.map_map, List.sum_cons,
        List.getD_cons_zero, Function.comp_def, List.length_cons]
      have : (r.map fun _ : Arr V => 1).sum = r.length := by simp
      omega
    · simp at hc

/-- **C94**: without any batch the call raises (after resetting the quantizers). -/
theorem C94_no_batches (n : ℕ) (hn : 1 ≤ n) : traceResults n ([] : List (ModelOut V)) = none := by
  rcases Nat.lt_or_ge 1 n with h | h
  · have : n = (n - 1) + 1 := by omega
    rw [this]
    simp only [traceResults, List.mapM_nil, Option.pure_def, Option.bind_some, if_neg (show n - 1 + 1 ≠ 1 by omega)]
    rw [List.range_succ_eq_map, List.mapM_cons]
    simp [npConcat]
  · have : n = 1 := by omega
    subst this
    rfl

/-- two batches of sizes 2 and 1 with one column -/
example : let a : Arr ℕ := ⟨[2, 1], fun i => 10 + i.headD 0⟩
    let b : Arr ℕ := ⟨[1, 1], fun i => 20 + i.headD 0⟩
    ((traceResults 1 [.tensor a, .tensor b]).map fun l => l.map fun c => (c.shape, [0, 1, 2].map fun j => c.get [j, 0])) =
      some [([3, 1], [10, 11, 20])] ∧
    ((traceResults 2 [.list [a, a], .list [b, b]]).map fun l => l.map fun c => (c.shape, [0, 1, 2].map fun j => c.get [j, 0])) =
      some [([3, 1], [10, 11, 20]), ([3, 1], [10, 11, 20])] ∧
    ((traceResults 1 [.list [a], .list [a]]).map fun l => l.map fun c => c.shape) = some [[2, 2, 1]] ∧
    (traceResults 1 [.list [a], .list [b]]).isNone := by decide +kernel

end HGQ
