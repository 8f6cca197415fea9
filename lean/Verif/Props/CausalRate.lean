import Verif.Props.CausalModel
import Verif.Props.Patches

/-!
# C114: layers that change the rate
-/
namespace HGQ
open Spec

/-! ## Specification -/

/-- Windows that look `φ t` far: at output time `t`, the window contains nothing later than `φ t`. -/
def Spec.Lookahead (φ : ℕ → ℕ) (core : Core) (xs : List (Arr ℚ)) : Prop :=
  match core with
  | .conv P G a _ osp geo _ _ => ∀ x ∈ xs, 2 ≤ x.shape.length ∧ ∀ p, InShape p osp → ∀ j < P * (G * a), ∀ i, geo p j = some i → i < x.shape.tail.prod ∧ (unflat x.shape.tail i).headD 0 ≤ φ (p.headD 0)
  /- Positions in a pooling window are flat over the spatial axes. -/
  | .pool _ w osp geo => ∀ x ∈ xs, 3 ≤ x.shape.length ∧ osp ≠ [] ∧ ∀ p, InShape p osp → ∀ j < w + 1, ∀ i, geo p j = some i →
      i < x.shape.tail.dropLast.prod ∧ (unflat x.shape.tail.dropLast i).headD 0 ≤ φ (p.headD 0)
  | _ => False

/-- A convolution or pooling layer with strides or look-ahead. -/
def Spec.RateLayer (φ : ℕ → ℕ) (l : VLayer) (xs : List (Arr ℚ)) : Prop :=
  match l with
  | .base (.base (.base (.base (.base (.qlayer _ core _ _))))) => Lookahead φ core xs
  | _ => False

/-! ## Proofs -/

theorem upto_mono {T T' : ℕ} (h : T ≤ T') {x y : Arr ℚ} (hxy : SameUpTo T' x y) : SameUpTo T x y := ⟨hxy.1, fun idx hi ht => hxy.2 idx hi (ht.trans h)⟩

theorem getD_one_of_tail (idx : List ℕ) (h : 3 ≤ idx.length) : idx.tail.dropLast.headD 0 = idx.getD 1 0 := by
  match idx, h with
  | _ :: _ :: _ :: _, _ => simp

theorem inShape_last {idx l : List ℕ} {m : ℕ} (h : InShape idx (l ++ [m])) : idx.getLastD 0 < m := by
  have hd := List.forall₂_drop_append _ _ _ h
  cases hdd : idx.drop l.length with
  | nil => rw [hdd] at hd; cases hd
  | cons i2 r =>
    rw [hdd] at hd
    cases hd with
    | cons g1 g2 =>
      cases g2
      have : idx = idx.take l.length ++ [i2] := by rw [← hdd, List.take_append_drop]
      rw [this]
      simpa using g1

theorem rate_conv {T P G a b : ℕ} {φ : ℕ → ℕ} (hφ : Monotone φ) {osp : List ℕ} {geo : List ℕ → ℕ → Option ℕ} {K bias : ℕ → ℚ} {x y u v : Arr ℚ} (h : SameUpTo (φ T) x y)
    (hg : Lookahead φ (.conv P G a b osp geo K bias) [x])
    (hu : (Core.conv P G a b osp geo K bias).keras [x] = some u) (hv : (Core.conv P G a b osp geo K bias).keras [y] = some v) : SameUpTo T u v := by
  obtain ⟨hr, hg⟩ := hg x (by simp)
  simp only [Core.keras, single, Option.some.injEq] at hu hv
  subst hu hv
  refine ⟨by simp only [h.1], fun idx hi ht => ?_⟩
  simp only at hi ⊢
  congr 1
  have ho : idx.getLastD 0 / b < G := by
    have hi' : InShape idx ((x.shape.headD 0 :: osp) ++ [G * b]) := by simpa using hi
    have := inShape_last hi'
    exact Nat.div_lt_of_lt_mul (by rwa [Nat.mul_comm])
  unfold kerasConv
  refine Finset.sum_congr rfl fun p hp => Finset.sum_congr rfl fun c hc => ?_
  congr 1
  have hj : p * (G * a) + (idx.getLastD 0 / b * a + c) < P * (G * a) := by
    have hp := Finset.mem_range.1 hp
    have hc := Finset.mem_range.1 hc
    have h1 : (p + 1) * (G * a) ≤ P * (G * a) := Nat.mul_le_mul_right _ hp
    have h2 : (idx.getLastD 0 / b + 1) * a ≤ G * a := Nat.mul_le_mul_right _ ho
    rw [Nat.add_mul] at h1 h2
    omega
  generalize p * (G * a) + (idx.getLastD 0 / b * a + c) = j at hj
  unfold extractPatches
  split
  · rename_i i hgi
    have hp : InShape idx.tail.dropLast osp := by
      cases hi with
      | cons k1 k2 => exact inShape_init k2
    obtain ⟨g1, g2⟩ := hg _ hp _ hj _ hgi
    rw [← h.1]
    obtain ⟨B, s, hs⟩ : ∃ B s, x.shape = B :: s := by
      cases hs : x.shape with
      | nil => simp [hs] at hr
      | cons B s => exact ⟨B, s, rfl⟩
    rw [hs, List.tail_cons] at g1 g2 ⊢
    have hb : idx.headD 0 < B := by
      rw [hs] at hi
      cases hi with
      | cons k1 k2 => exact k1
    refine h.2 _ (by rw [hs]; exact List.Forall₂.cons hb (unflat_inShape s i g1)) ?_
    simp only [List.getD_cons_succ]
    have e1 : (unflat s i).getD 0 0 = (unflat s i).headD 0 := by cases unflat s i <;> rfl
    rw [e1]
    refine le_trans g2 (hφ (le_trans ?_ ht))
    match idx with
    | [] => simp
    | [_] => simp
    | [_, _] => simp
    | _ :: _ :: _ :: _ => simp
  · rfl

theorem rate_pool {T w : ℕ} {isMax : Bool} {φ : ℕ → ℕ} (hφ : Monotone φ) {osp : List ℕ} {geo : List ℕ → ℕ → Option ℕ} {x y u v : Arr ℚ} (h : SameUpTo (φ T) x y)
    (hg : Lookahead φ (.pool isMax w osp geo) [x])
    (hu : (Core.pool isMax w osp geo).keras [x] = some u) (hv : (Core.pool isMax w osp geo).keras [y] = some v) : SameUpTo T u v := by
  obtain ⟨hr, ho, hg⟩ := hg x (by simp)
  simp only [Core.keras, single] at hu hv
  rw [if_pos (by omega), Option.some.injEq] at hu
  rw [if_pos (by rw [← h.1]; omega), Option.some.injEq] at hv
  subst hu hv
  refine ⟨by simp only [h.1], fun idx hi ht => ?_⟩
  simp only at hi ⊢
  have hlen : 3 ≤ idx.length := by
    rw [hi.length_eq]
    cases osp with
    | nil => exact absurd rfl ho
    | cons _ _ => simp
  have hp : InShape idx.tail.dropLast osp := by
    cases hi with
    | cons k1 k2 => exact inShape_init k2
  obtain ⟨B, s, hs⟩ : ∃ B s, x.shape = B :: s := by
    cases hs : x.shape with
    | nil => simp [hs] at hr
    | cons B s => exact ⟨B, s, rfl⟩
  have hb : idx.headD 0 < B := by
    rw [hs] at hi
    cases hi with
    | cons k1 k2 => exact k1
  have hc : idx.getLastD 0 < x.shape.getLastD 0 := by
    have hi' : InShape idx ((x.shape.headD 0 :: osp) ++ [x.shape.getLastD 0]) := by simpa using hi
    exact inShape_last hi'
  have hsd : s = s.dropLast ++ [s.getLastD 0] := by
    have : s ≠ [] := by rintro rfl; simp [hs] at hr
    conv_lhs => rw [← List.dropLast_append_getLast this]
    rw [List.getLastD_eq_getLast?, List.getLast?_eq_some_getLast this]
    rfl
  have hlast : x.shape.getLastD 0 = s.getLastD 0 := by
    rw [hs]
    have : s ≠ [] := by rintro rfl; simp [hs] at hr
    cases s with
    | nil => exact absurd rfl this
    | cons _ _ => simp
  rw [← h.1]
  unfold kerasPool
  have key : ((List.range (w + 1)).filterMap fun j => (geo idx.tail.dropLast j).map fun q => x.get (idx.headD 0 :: unflat x.shape.tail (q * x.shape.getLastD 0 + idx.getLastD 0))) =
      (List.range (w + 1)).filterMap fun j => (geo idx.tail.dropLast j).map fun q => y.get (idx.headD 0 :: unflat x.shape.tail (q * x.shape.getLastD 0 + idx.getLastD 0)) := by
    refine List.filterMap_congr fun j hj => ?_
    cases hgi : geo idx.tail.dropLast j with
    | none => rfl
    | some i =>
      simp only [Option.map_some, Option.some.injEq]
      obtain ⟨g1, g2⟩ := hg _ hp _ (List.mem_range.1 hj) _ hgi
      rw [hs, List.tail_cons] at g1 g2 ⊢
      rw [hs] at hlast
      rw [hs] at hc
      rw [hlast] at hc ⊢
      have e : unflat s (i * s.getLastD 0 + idx.getLastD 0) = unflat s.dropLast i ++ [idx.getLastD 0] := by
        conv_lhs => rw [hsd]
        rw [List.getLastD_concat]
        exact unflat_snoc _ _ _ _ g1 hc
      refine h.2 _ ?_ ?_
      · rw [hs, e]
        refine List.Forall₂.cons hb ?_
        conv_rhs => rw [hsd]
        exact List.rel_append (unflat_inShape _ i g1) (List.Forall₂.cons hc List.Forall₂.nil)
      · rw [e]
        simp only [List.getD_cons_succ]
        have hne : s.dropLast ≠ [] := by
          rw [hs] at hr
          match s, hr with
          | _ :: _ :: _, _ => simp
        have e1 : (unflat s.dropLast i ++ [idx.getLastD 0]).getD 0 0 = (unflat s.dropLast i).headD 0 := by
          have : (unflat s.dropLast i).length = s.dropLast.length := (unflat_inShape _ i g1).length_eq
          cases hu : unflat s.dropLast i with
          | nil => rw [hu] at this; exact absurd (List.eq_nil_of_length_eq_zero this.symm) hne
          | cons _ _ => rfl
        rw [e1]
        exact le_trans g2 (hφ (by rw [getD_one_of_tail idx hlen]; exact ht))
  rw [key]

theorem rate_stages {iq : Option (List ArrQuant)} {core : Core} {rl : Bool} {oq : Option ArrQuant} {xs : List (Arr ℚ)} {u : Arr ℚ}
    (h : (LLayer.qlayer iq core rl oq).keras xs = some u) : ∃ ins c, kerasIq iq xs = some ins ∧ run (core.keras ins) = some c ∧ kerasOpt oq (reluKeras rl c) = some u := by
  simp only [LLayer.keras, kerasQLayer] at h
  obtain ⟨st, h', rfl⟩ := Option.map_eq_some_iff.1 h
  obtain ⟨ins, h1, h''⟩ := Option.bind_eq_some_iff.1 h'
  obtain ⟨c, h2, h3⟩ := Option.bind_eq_some_iff.1 h''
  refine ⟨ins, c, h1, h2, ?_⟩
  cases oq with
  | none =>
    obtain rfl := Option.some.inj h3
    rfl
  | some q =>
    obtain ⟨o, ho, rfl⟩ := Option.map_eq_some_iff.1 h3
    exact ho

theorem lookahead_shapes {φ : ℕ → ℕ} {core : Core} {x y : Arr ℚ} (hs : y.shape = x.shape) (h : Lookahead φ core [x]) : Lookahead φ core [y] := by
  cases core with
  | conv P G a b osp geo K bias =>
    intro z hz
    obtain rfl : z = y := by simpa using hz
    rw [hs]
    exact h x (by simp)
  | pool isMax w osp geo =>
    intro z hz
    obtain rfl : z = y := by simpa using hz
    rw [hs]
    exact h x (by simp)
  | _ => exact h.elim

/-- **C114 (strides and pooling).** Convolution and pooling layers with any strides and look-ahead: if the inputs agree up to time `φ T`, the outputs agree up to `T`, for all
weights, windows, bit widths and inputs. -/
theorem C114_rates (φ : ℕ → ℕ) (hφ : Monotone φ) (T : ℕ) (l : VLayer) {x y : Arr ℚ} (hc : RateLayer φ l [x]) (h : SameUpTo (φ T) x y) {u v : Arr ℚ}
    (hu : l.keras [x] = some u) (hv : l.keras [y] = some v) : SameUpTo T u v := by
  cases l with
  | base l =>
    cases l with
    | base l =>
      cases l with
      | base l =>
        cases l with
        | base l =>
          cases l with
          | base l =>
            cases l with
            | qlayer iq core rl oq =>
              obtain ⟨ins, c, h1, h2, h3⟩ := rate_stages hu
              obtain ⟨ins', c', g1, g2, g3⟩ := rate_stages hv
              obtain ⟨k1, k2⟩ := upto_iq iq (List.Forall₂.cons h List.Forall₂.nil) h1 g1
              have hl1 : ∃ a, ins = [a] ∧ a.shape = x.shape := by
                cases ins with
                | nil => simp at k2
                | cons a t =>
                  simp only [List.map_cons, List.map_nil, List.cons.injEq, List.map_eq_nil_iff] at k2
                  exact ⟨a, by rw [k2.2], k2.1⟩
              obtain ⟨a, rfl, ha⟩ := hl1
              cases k1 with
              | cons k1 k1' =>
                cases k1'
                rename_i b
                refine upto_opt (upto_relu rl ?_) h3 g3
                obtain ⟨c0, h2', rfl⟩ := Option.map_eq_some_iff.1 h2
                obtain ⟨c0', g2', rfl⟩ := Option.map_eq_some_iff.1 g2
                refine upto_norm ?_
                have hc' : Lookahead φ core [a] := lookahead_shapes ha hc
                cases core with
                | conv P G a b osp geo K bias => exact rate_conv hφ k1 hc' h2' g2'
                | pool isMax w osp geo => exact rate_pool hφ k1 hc' h2' g2'
                | _ => exact hc'.elim
            | _ => exact hc.elim
          | _ => exact hc.elim
        | _ => exact hc.elim
      | _ => exact hc.elim
    | _ => exact hc.elim
  | _ => exact hc.elim

/-! ## Models -/

/-- **C114 (models with several rates, partial).** In every functional model of layers that do not look ahead and of convolution and pooling layers with strides and look-ahead:
give each tensor `t` a time `b t` such that each layer's inputs reach far enough.  If the inputs of the model agree up to their times, every output agrees up to its own. -/
theorem C114_rates_models_partial {A : Type} [DecidableEq A] (b : A → ℕ) (inputs inputs' : List (A × Arr ℚ)) (byDepth : ℕ → List (ANode A VLayer)) (D : ℕ) (outputs : List A)
    (kval kval' : A → Arr ℚ) (hin : List.Forall₂ (fun p q => p.1 = q.1 ∧ SameUpTo (b p.1) p.2 q.2) inputs inputs')
    (hacyc : DepthOrdered inputs (evalGraph VLayer.keras byDepth) D) (hsol : Solves inputs (parseModel (evalGraph VLayer.keras byDepth) D) kval)
    (hsol' : Solves inputs' (parseModel (evalGraph VLayer.keras byDepth) D) kval')
    (hok : ∀ d ≤ D, ∀ n ∈ byDepth d, n.isInput = false → (CausalLayer n.layer (n.requires.map kval) ∧ ∀ r ∈ n.requires, b n.produces ≤ b r) ∨
      ∃ φ r, Monotone φ ∧ n.requires = [r] ∧ RateLayer φ n.layer [kval r] ∧ φ (b n.produces) ≤ b r)
    (hout : ∀ t ∈ outputs, t ∈ inputs.map (·.1) ∨ ∃ d ≤ D, ∃ n ∈ byDepth d, n.isInput = false ∧ t = n.produces) :
    ∀ t ∈ outputs, SameUpTo (b t) (kval t) (kval' t) := by
  have hinp : ∀ t ∈ inputs.map (·.1), SameUpTo (b t) (kval t) (kval' t) := by
    have key : ∀ (l l' : List (A × Arr ℚ)), List.Forall₂ (fun p q => p.1 = q.1 ∧ SameUpTo (b p.1) p.2 q.2) l l' → ∀ p ∈ l, ∃ q ∈ l', p.1 = q.1 ∧ SameUpTo (b p.1) p.2 q.2 := by
      intro l l' hl
      induction hl with
      | nil => simp
      | cons h1 h2 ih =>
        intro p hp
        rcases List.mem_cons.1 hp with rfl | hp
        · exact ⟨_, by simp, h1⟩
        · obtain ⟨q, hq, e⟩ := ih p hp
          exact ⟨q, by simp [hq], e⟩
    intro t ht
    obtain ⟨p, hp, rfl⟩ := List.mem_map.1 ht
    obtain ⟨q, hq, e1, e2⟩ := key _ _ hin p hp
    rw [hsol.1 p hp]
    rw [e1] at e2 ⊢
    rw [hsol'.1 q hq]
    exact e2
  have value : ∀ (inp : List (A × Arr ℚ)) (val : A → Arr ℚ), Solves inp (parseModel (evalGraph VLayer.keras byDepth) D) val → ∀ d ≤ D, ∀ n ∈ byDepth d, n.isInput = false →
      n.layer.keras (n.requires.map val) = some (val n.produces) := by
    intro inp val hs d hd n hn hi
    have he := hs.2 (n.eval VLayer.keras) ((mem_parseModel _ _ _).2 ⟨d, hd, List.mem_map_of_mem hn⟩) hi
    simp only [ANode.eval, List.map_cons, List.map_nil] at he
    cases hk' : n.layer.keras (n.requires.map val) with
    | none => simp [hk', optList] at he
    | some out =>
      simp only [hk', optList, List.cons.injEq, and_true] at he
      rw [he]
  have all : ∀ k : ℕ, ∀ d ≤ D, D - d ≤ k → ∀ n ∈ byDepth d, n.isInput = false → SameUpTo (b n.produces) (kval n.produces) (kval' n.produces) := by
    intro k
    induction k using Nat.strong_induction_on with
    | _ k ih =>
      intro d hd hk n hn hi
      have hreq : ∀ t ∈ n.requires, SameUpTo (b t) (kval t) (kval' t) := by
        intro t ht
        rcases hacyc d hd (n.eval VLayer.keras) (List.mem_map_of_mem hn) t ht with h | ⟨d', hd', hlt, n', hn', hi', ht'⟩
        · exact hinp t h
        · obtain ⟨m, hm, rfl⟩ := List.mem_map.1 hn'
          have := ih (D - d') (by omega) d' hd' le_rfl m hm hi'
          simp only [ANode.eval, List.mem_singleton] at ht'
          rw [ht']; exact this
      have hu := value _ _ hsol d hd n hn hi
      have hv := value _ _ hsol' d hd n hn hi
      rcases hok d hd n hn hi with ⟨hc, hb⟩ | ⟨φ, r, hφ, hr, hc, hb⟩
      · refine C114_layers_partial _ n.layer hc ?_ hu hv
        rw [List.forall₂_map_left_iff, List.forall₂_map_right_iff, List.forall₂_same]
        exact fun t ht => upto_mono (hb t ht) (hreq t ht)
      · rw [hr] at hu hv hreq
        exact C114_rates φ hφ _ n.layer hc (upto_mono hb (hreq r (by simp))) hu hv
  intro t ht
  rcases hout t ht with h | ⟨d, hd, n, hn, hi, rfl⟩
  · exact hinp t h
  · exact all (D - d) d hd le_rfl n hn hi

/-! ## How far the layers look -/

/-- The time that the last kernel entry sees: `t * stride + (size - 1) * dilation`, less the padding in front. -/
def Spec.reach (same : Bool) (n : ℕ) (w : Win) (t : ℕ) : ℕ := ((t : ℤ) * w.s + ((w.k : ℤ) - 1) * w.d - padFront same n w).toNat

theorem reach_mono (same : Bool) (n : ℕ) (w : Win) : Monotone (reach same n w) := by
  intro t t' h
  unfold reach
  have : (t : ℤ) * w.s ≤ (t' : ℤ) * w.s := mul_le_mul_of_nonneg_right (by exact_mod_cast h) (by positivity)
  omega

/-- The first source index is within reach. -/
theorem srcs_reach (same : Bool) (w : Win) (ws : List Win) (n : ℕ) (sp p κ s : List ℕ) (hw : WinsOk (w :: ws)) (hn : ∀ m ∈ n :: sp, 0 < m)
    (hp : p.length = sp.length + 1) (hκ : InShape κ ((w :: ws).map (·.k))) (hs : srcs same (w :: ws) (n :: sp) p κ = some s) : s.headD 0 ≤ reach same n w (p.headD 0) := by
  obtain ⟨o, p, rfl⟩ : ∃ o p', p = o :: p' := by
    cases p with
    | nil => simp at hp
    | cons o p => exact ⟨o, p, rfl⟩
  cases hκ with
  | cons ha hκ =>
    rename_i a κ
    simp only [srcs] at hs
    rw [src_eq same w n o a (hw w (by simp)).2 (hw w (by simp)).1 (hn n (by simp))] at hs
    split at hs
    · rename_i i r h1 h2
      obtain rfl := Option.some.inj hs
      split at h1
      · rename_i hc
        obtain rfl := Option.some.inj h1
        simp only [List.headD_cons, reach]
        have : (a : ℤ) * w.d ≤ ((w.k : ℤ) - 1) * w.d := mul_le_mul_of_nonneg_right (by have h : a < w.k := ha; omega) (by positivity)
        omega
      · simp at h1
    · simp at hs

/-- **C114 (how far convolutions look).** Convolutions with the geometry of the code, any number of spatial axes (the first is time), sizes, strides, dilations, padding, groups. -/
theorem C114_conv_reach (same : Bool) (w : Win) (ws : List Win) (n : ℕ) (sp : List ℕ) (B G a b : ℕ) (K bias : ℕ → ℚ) (x : Arr ℚ) (hl : ws.length = sp.length)
    (hw : WinsOk (w :: ws)) (hn : ∀ m ∈ n :: sp, 0 < m) (hx : x.shape = B :: (n :: sp) ++ [G * a]) :
    Lookahead (reach same n w) (.conv (((w :: ws).map (·.k)).prod) G a b (outs same (w :: ws) (n :: sp)) (patchSrc same (w :: ws) (n :: sp) (G * a)) K bias) [x] := by
  intro y hy
  obtain rfl : y = x := by simpa using hy
  rw [hx]
  refine ⟨by simp, fun p hp j hj i hi => ?_⟩
  have hpl : p.length = sp.length + 1 := by rw [hp.length_eq]; simp [outs, hl]
  have hga : 0 < G * a := by
    rcases Nat.eq_zero_or_pos (G * a) with h | h
    · rw [h] at hj; omega
    · exact h
  have hq : j / (G * a) < ((w :: ws).map (·.k)).prod := Nat.div_lt_of_lt_mul (by rwa [Nat.mul_comm])
  unfold patchSrc at hi
  obtain ⟨s, hs, rfl⟩ := Option.map_eq_some_iff.1 hi
  have hκ := unflat_inShape _ _ hq
  have hin := srcs_inShape same (w :: ws) (n :: sp) p _ s hw hn (by simp [hl]) (by simpa using hpl) (by rw [hκ.length_eq]; simp [hl]) hs
  have hin2 : InShape (s ++ [j % (G * a)]) (n :: sp ++ [G * a]) := List.rel_append hin (.cons (Nat.mod_lt _ hga) .nil)
  rw [← flat_snoc _ _ _ _ hin.length_eq]
  simp only [List.cons_append, List.tail_cons]
  refine ⟨flat_lt _ _ hin2, ?_⟩
  rw [← List.cons_append, unflat_flat_id _ _ hin2]
  have := srcs_reach same w ws n sp p _ s hw hn hpl hκ hs
  cases hin with
  | cons _ _ => simpa using this

/-- **C114 (how far pooling looks).** -/
theorem C114_pool_reach (isMax same : Bool) (w : Win) (ws : List Win) (n : ℕ) (sp : List ℕ) (B C : ℕ) (x : Arr ℚ) (hl : ws.length = sp.length)
    (hw : WinsOk (w :: ws)) (hn : ∀ m ∈ n :: sp, 0 < m) (hx : x.shape = B :: (n :: sp) ++ [C]) :
    Lookahead (reach same n w) (.pool isMax (((w :: ws).map (·.k)).prod - 1) (outs same (w :: ws) (n :: sp))
      fun p j => (srcs same (w :: ws) (n :: sp) p (unflat ((w :: ws).map (·.k)) j)).map (flat (n :: sp))) [x] := by
  intro y hy
  obtain rfl : y = x := by simpa using hy
  rw [hx]
  refine ⟨by simp, by cases ws <;> simp [outs], fun p hp j hj i hi => ?_⟩
  have hpl : p.length = sp.length + 1 := by rw [hp.length_eq]; simp [outs, hl]
  have hpos := prod_kernel_pos (w :: ws) hw
  have hq : j < ((w :: ws).map (·.k)).prod := by omega
  obtain ⟨s, hs, rfl⟩ := Option.map_eq_some_iff.1 hi
  have hκ := unflat_inShape _ _ hq
  have hin := srcs_inShape same (w :: ws) (n :: sp) p _ s hw hn (by simp [hl]) (by simpa using hpl) (by rw [hκ.length_eq]; simp [hl]) hs
  simp only [List.cons_append, List.tail_cons]
  rw [← List.cons_append, List.dropLast_concat]
  refine ⟨flat_lt _ _ hin, ?_⟩
  rw [unflat_flat_id _ _ hin]
  exact srcs_reach same w ws n sp p _ s hw hn hpl hκ hs

/-- The patches of `Conv1D` with `padding='causal'`, stride `st`. -/
def Spec.causalStride (k dil st c : ℕ) (p : List ℕ) (j : ℕ) : Option ℕ :=
  let back := (k - 1 - j / c) * dil
  if back ≤ p.headD 0 * st then some ((p.headD 0 * st - back) * c + j % c) else none

/-- **C114 (causal padding with strides).** At output time `t` nothing later than `t * stride` is seen. -/
theorem C114_causal_strides (k dil st c S S' B P G a b : ℕ) (hc : 0 < c) (hS : ∀ t < S', t * st < S) (K bias : ℕ → ℚ) (x : Arr ℚ) (hx : x.shape = [B, S, c]) :
    Lookahead (· * st) (.conv P G a b [S'] (causalStride k dil st c) K bias) [x] := by
  intro y hy
  obtain rfl : y = x := by simpa using hy
  rw [hx]
  refine ⟨by simp, fun p hp j _ i hi => ?_⟩
  obtain ⟨t, rfl, ht⟩ : ∃ t, p = [t] ∧ t < S' := by
    cases hp with
    | cons h1 h2 => cases h2; exact ⟨_, rfl, h1⟩
  have hlt := hS t ht
  replace hi : (if (k - 1 - j / c) * dil ≤ t * st then some ((t * st - (k - 1 - j / c) * dil) * c + j % c) else none) = some i := hi
  by_cases hb : (k - 1 - j / c) * dil ≤ t * st
  · rw [if_pos hb] at hi
    obtain rfl := Option.some.inj hi
    have hm := Nat.mod_lt j hc
    have hle : t * st - (k - 1 - j / c) * dil ≤ t * st := Nat.sub_le _ _
    generalize t * st - (k - 1 - j / c) * dil = z at hle
    have h1 : z * c + j % c < S * c := by
      have : (z + 1) * c ≤ S * c := Nat.mul_le_mul_right _ (by omega)
      rw [Nat.add_mul] at this
      omega
    refine ⟨by simpa using h1, ?_⟩
    simp only [List.tail_cons, unflat, List.prod_cons, List.prod_nil, mul_one, List.headD_cons]
    rw [Nat.mul_comm, Nat.mul_add_div hc, Nat.div_eq_of_lt hm]
    omega
  · rw [if_neg hb] at hi
    simp at hi

/-! ## Example -/

/-- `Conv1D(1, 2, strides=2)`. -/
def exRConv : VLayer := .base (.base (.base (.base (.base (.qlayer (some [exMQ 3 1]) (.conv 2 1 1 1 (outs false [⟨2, 2, 1⟩] [6]) (patchSrc false [⟨2, 2, 1⟩] [6] (1 * 1)) (fun i => 1 - (i : ℚ) / 2)
  fun _ => 1 / 4) false none)))))
/-- `MaxPooling1D(2, strides=1)`. -/
def exRPool : VLayer := .base (.base (.base (.base (.base (.qlayer none (.pool true 1 (outs false [⟨2, 1, 1⟩] [3])
  fun p j => (srcs false [⟨2, 1, 1⟩] [3] p (unflat [2] j)).map (flat [3])) false none)))))

/-- `x → strided convolution → pooling`. -/
def exRModel : ℕ → List (ANode ℕ VLayer)
  | 2 => [⟨"in".toList, true, [], 0, exRConv⟩]
  | 1 => [⟨"c".toList, false, [0], 1, exRConv⟩]
  | 0 => [⟨"p".toList, false, [1], 2, exRPool⟩]
  | _ => []

def exR0 : Arr ℚ := ⟨[1, 6, 1], fun idx => (idx.getD 1 0 : ℚ) / 2⟩
/-- Another batch that agrees up to time 3. -/
def exR0' : Arr ℚ := ⟨[1, 6, 1], fun idx => if idx.getD 1 0 ≤ 3 then (idx.getD 1 0 : ℚ) / 2 else -3⟩
def exR1 (x : Arr ℚ) : Arr ℚ := (exRConv.keras [x]).getD ⟨[], fun _ => 0⟩
def exR2 (x : Arr ℚ) : Arr ℚ := (exRPool.keras [exR1 x]).getD ⟨[], fun _ => 0⟩
def exRVal (x : Arr ℚ) (t : ℕ) : Arr ℚ := [x, exR1 x, exR2 x].getD t x
/-- Times: 3 of the input reach 1 of the convolution reach 0 of the output. -/
def exRB (t : ℕ) : ℕ := [3, 1, 0].getD t 0

theorem exR_solves (x : Arr ℚ) (h1 : (exRConv.keras [x]).isSome = true) (h2 : (exRPool.keras [exR1 x]).isSome = true) :
    Solves [(0, x)] (parseModel (evalGraph VLayer.keras exRModel) 2) (exRVal x) := by
  refine ⟨by simp [exRVal], fun n hn hi => ?_⟩
  have : parseModel (evalGraph VLayer.keras exRModel) 2 = evalGraph VLayer.keras exRModel 2 ++ (evalGraph VLayer.keras exRModel 1 ++ evalGraph VLayer.keras exRModel 0) := rfl
  rw [this] at hn
  simp only [evalGraph, exRModel, List.map_cons, List.map_nil, List.cons_append, List.nil_append, List.mem_cons, List.not_mem_nil, or_false] at hn
  rcases hn with rfl | rfl | rfl
  · simp [ANode.eval] at hi
  · exact optList_getD (exRConv.keras [x]) ⟨[], fun _ => 0⟩ h1
  · exact optList_getD (exRPool.keras [exR1 x]) ⟨[], fun _ => 0⟩ h2

/-- The hypotheses of C114 hold for this model: the outputs agree at time 0, not at time 1. -/
example : SameUpTo 0 (exRVal exR0 2) (exRVal exR0' 2) ∧ (exRVal exR0 2).shape = [1, 2, 1] ∧
    (List.range 2).map (fun t => ((exRVal exR0 2).get [0, t, 0], (exRVal exR0' 2).get [0, t, 0])) = [(2, 2), (7 / 2, 2)] := by
  have hacyc : DepthOrdered [(0, exR0)] (evalGraph VLayer.keras exRModel) 2 := by
    intro d hd n hn t ht
    have hd' : d = 0 ∨ d = 1 ∨ d = 2 := by omega
    rcases hd' with rfl | rfl | rfl <;>
      simp only [evalGraph, exRModel, List.map_cons, List.map_nil, List.mem_singleton] at hn <;> subst hn <;> simp [ANode.eval] at ht
    · subst ht; exact Or.inr ⟨1, by omega, by omega, _, List.mem_singleton.2 rfl, rfl, by simp [ANode.eval]⟩
    · subst ht; exact Or.inl (by simp)
  have e : (exR1 exR0).shape = [1, 3, 1] := by decide +kernel
  refine ⟨?_, by decide +kernel, by decide +kernel⟩
  refine C114_rates_models_partial exRB [(0, exR0)] [(0, exR0')] exRModel 2 [2] (exRVal exR0) (exRVal exR0') ?_ hacyc
    (exR_solves _ (by decide +kernel) (by decide +kernel)) (exR_solves _ (by decide +kernel) (by decide +kernel)) ?_ ?_ 2 (by simp)
  · refine List.Forall₂.cons ⟨rfl, rfl, fun idx _ ht => ?_⟩ List.Forall₂.nil
    simp only [exR0, exR0']
    rw [if_pos (show idx.getD 1 0 ≤ 3 from ht)]
  · intro d hd n hn hi
    have hd' : d = 0 ∨ d = 1 ∨ d = 2 := by omega
    rcases hd' with rfl | rfl | rfl <;> simp only [exRModel, List.mem_singleton] at hn <;> subst hn
    · exact Or.inr ⟨_, 1, reach_mono false 3 ⟨2, 1, 1⟩, rfl, C114_pool_reach true false ⟨2, 1, 1⟩ [] 3 [] 1 1 (exR1 exR0) rfl (by simp [WinsOk]) (by simp) e, by decide⟩
    · exact Or.inr ⟨_, 0, reach_mono false 6 ⟨2, 2, 1⟩, rfl, C114_conv_reach false ⟨2, 2, 1⟩ [] 6 [] 1 1 1 1 (fun i => 1 - (i : ℚ) / 2) (fun _ => 1 / 4) exR0 rfl (by simp [WinsOk]) (by simp) rfl, by decide⟩
    · simp at hi
  · intro t ht
    have : t = 2 := by simpa using ht
    subst this
    exact Or.inr ⟨0, by omega, _, List.mem_singleton.2 rfl, rfl, rfl⟩

/-- The reach is sharp: a change at time 3 of the input is seen at time 0 of the output; `C114_causal_strides` applies to its example. -/
example : (exRVal ⟨[1, 6, 1], fun idx => if idx.getD 1 0 = 3 then 7 / 2 else exR0.get idx⟩ 2).get [0, 0, 0] = 3 ∧
    (List.range 3).map (fun t => (List.range 3).map (causalStride 3 1 2 1 [t])) = [[none, none, some 0], [some 0, some 1, some 2], [some 2, some 3, some 4]] ∧
    Lookahead (· * 2) (.conv 3 1 1 1 [3] (causalStride 3 1 2 1) (fun _ => 1) fun _ => 0) [exR0] := by
  refine ⟨by decide +kernel, by decide, C114_causal_strides 3 1 2 1 6 3 1 3 1 1 1 (by decide) (by omega) _ _ exR0 rfl⟩

end HGQ
