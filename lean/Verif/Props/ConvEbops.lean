import Verif.Model.ConvEbops
import Verif.Props.Patches
import Mathlib.Tactic

/-!
# C59: EBOPs of convolutions from their geometry
-/
namespace HGQ
open Finset Spec

namespace Spec
open Classical in
/-- Cost of a convolution: for each output position and filter one product of widths per kernel entry and channel that meets the image, and one bias
addition. -/
noncomputable def convGeoCost (cfirst same : Bool) (sp P : List ℕ) (ws : List Win) (a b m : ℕ) (x kernel : Arr ℚ) (bias : Option (ℕ → ℚ)) : ℚ :=
  sumIdx P fun p => ∑ o ∈ range m, ((sumIdx (ws.map (·.k)) fun κ =>
    if Inside (tap same sp ws p κ) sp then
      ∑ c ∈ range a, x.get (layout cfirst ((tap same sp ws p κ).map Int.toNat) (o / b * a + c)) * kernel.get (κ ++ [c, o])
    else 0) + bias.elim 0 fun β => β o)
end Spec

theorem convOp_cost (cfirst same : Bool) (ws : List Win) (sp : List ℕ) (a b G : ℕ) (x kernel : Arr ℚ) (hl : ws.length = sp.length) (hw : WinsOk ws)
    (hn : ∀ n ∈ sp, 0 < n) :
    convOpSum cfirst same ws sp a b G x kernel = convGeoCost cfirst same sp (outs same ws sp) ws a b (G * b) x kernel none := by
  unfold convOpSum convGeoCost
  rw [list_sum_range, sumIdx_eq]
  refine sum_congr rfl fun j hj => ?_
  rw [list_sum_range]
  refine sum_congr rfl fun o _ => ?_
  have hpl : (unflat (outs same ws sp) j).length = sp.length := by
    rw [(unflat_inShape _ j (mem_range.1 hj)).length_eq]; simp [outs, hl]
  unfold convOpAt
  rw [list_sum_range, sumIdx_eq, Option.elim_none, add_zero]
  refine sum_congr rfl fun q hq => ?_
  have hκl : (unflat (ws.map (·.k)) q).length = sp.length := by rw [(unflat_inShape _ q (mem_range.1 hq)).length_eq]; simp [hl]
  simp only
  rw [srcs_eq same ws sp _ _ hw hn hl hpl hκl]
  split
  · rename_i s hs
    split at hs
    · rename_i hin
      rw [if_pos hin]
      obtain rfl := Option.some.inj hs
      rw [list_sum_range]
      rfl
    · simp at hs
  · rename_i hs
    split at hs
    · simp at hs
    · rename_i hin; rw [if_neg hin]

theorem sumIdx_add (sh : List ℕ) (f g : List ℕ → ℚ) : sumIdx sh (fun i => f i + g i) = sumIdx sh f + sumIdx sh g := by
  induction sh generalizing f g with
  | nil => rfl
  | cons n sh ih => simp only [sumIdx, ih, sum_add_distrib]

theorem sumIdx_const (sh : List ℕ) (c : ℚ) : sumIdx sh (fun _ => c) = sh.prod * c := by
  induction sh with
  | nil => simp [sumIdx]
  | cons n sh ih => simp [sumIdx, ih]; ring

theorem cost_bias (cfirst same : Bool) (sp P : List ℕ) (ws : List Win) (a b m : ℕ) (x kernel : Arr ℚ) (β : ℕ → ℚ) :
    convGeoCost cfirst same sp P ws a b m x kernel (some β) = convGeoCost cfirst same sp P ws a b m x kernel none + P.prod * ∑ o ∈ range m, β o := by
  unfold convGeoCost
  simp only [Option.elim_some, Option.elim_none, add_zero, sum_add_distrib]
  rw [sumIdx_add, sumIdx_const]

/-- Number of times the code charges the bias of a filter. -/
def biasCharges (cfirst : Bool) (sp : List ℕ) (C : ℕ) : ℕ := if cfirst then C * sp.dropLast.prod else sp.prod

theorem charges_eq (cfirst : Bool) (sp : List ℕ) (C : ℕ) (h : sp ≠ []) : (1 :: layout cfirst sp C).dropLast.prod = biasCharges cfirst sp C := by
  cases cfirst with
  | false => simp [layout, biasCharges, List.dropLast_cons_of_ne_nil]
  | true => simp [layout, biasCharges, List.dropLast_cons_of_ne_nil h]

/-- **C59 (geometry).**  For every geometry, number of groups and data format: without bias the EBOPs are the cost of the products that meet the image, scaled by
the parallelization factor over the number of output positions; the bias is charged once per filter and *input* position (channels last), or once per filter, input
channel and position on all but the last spatial axis (channels first). -/
theorem C59_geometry_partial (cfirst same : Bool) (ws : List Win) (sp P : List ℕ) (a b G : ℕ) (x kernel : Arr ℚ) (hne : sp ≠ []) (hl : ws.length = sp.length) (hw : WinsOk ws)
    (hn : ∀ n ∈ sp, 0 < n) (hf : Fits same ws sp) (hP : P.map (fun (n : ℕ) => (n : ℤ)) = List.zipWith (outPositions same) sp ws)
    (hx : x.shape = layout cfirst sp (G * a)) (hb : 0 < b) (hG : 0 < G) (hPp : 0 < P.prod) :
    (convEbopsG cfirst same ws sp a b G x kernel none (-1) = convGeoCost cfirst same sp P ws a b (G * b) x kernel none) ∧
    (∀ f, 0 < f → convEbopsG cfirst same ws sp a b G x kernel none f = convGeoCost cfirst same sp P ws a b (G * b) x kernel none * f / P.prod) ∧
    (∀ β f, convEbopsG cfirst same ws sp a b G x kernel (some β) f =
      convEbopsG cfirst same ws sp a b G x kernel none f + biasCharges cfirst sp (G * a) * ∑ o ∈ range (G * b), β o) := by
  have hPo : outs same ws sp = P := by
    have h1 := outs_eq same ws sp hl hw hf
    rw [← hP] at h1
    exact List.map_injective_iff.2 (fun a b h => by exact_mod_cast h) h1
  have hPq : (P.prod : ℚ) ≠ 0 := by exact_mod_cast hPp.ne'
  have hm : ((G * b : ℕ) : ℚ) ≠ 0 := by exact_mod_cast (Nat.mul_pos hG hb).ne'
  have hcost := convOp_cost cfirst same ws sp a b G x kernel hl hw hn
  rw [hPo] at hcost
  refine ⟨?_, fun f hf => ?_, fun β f => ?_⟩
  · unfold convEbopsG
    simp only [hPo, hcost, show (-1 : ℚ) ≤ 0 by norm_num, if_true, div_self hPq, mul_one]
  · unfold convEbopsG
    simp only [hPo, hcost, not_le.2 hf, if_false]
    ring
  · unfold convEbopsG
    simp only
    rw [hx, charges_eq cfirst sp _ hne, list_sum_range]
    congr 1
    push_cast at hm ⊢
    field_simp

/-- **C59 (bias), exactly.**  With the default factor and a bias of positive total width the EBOPs are the cost exactly if the code's number of bias charges is the
number of output positions. -/
theorem C59_geometry_bias_iff (cfirst same : Bool) (ws : List Win) (sp P : List ℕ) (a b G : ℕ) (x kernel : Arr ℚ) (β : ℕ → ℚ) (hne : sp ≠ []) (hl : ws.length = sp.length)
    (hw : WinsOk ws) (hn : ∀ n ∈ sp, 0 < n) (hf : Fits same ws sp) (hP : P.map (fun (n : ℕ) => (n : ℤ)) = List.zipWith (outPositions same) sp ws)
    (hx : x.shape = layout cfirst sp (G * a)) (hb : 0 < b) (hG : 0 < G) (hPp : 0 < P.prod) (hβ : 0 < ∑ o ∈ range (G * b), β o) :
    convEbopsG cfirst same ws sp a b G x kernel (some β) (-1) = convGeoCost cfirst same sp P ws a b (G * b) x kernel (some β) ↔
      biasCharges cfirst sp (G * a) = P.prod := by
  obtain ⟨h1, _, h3⟩ := C59_geometry_partial cfirst same ws sp P a b G x kernel hne hl hw hn hf hP hx hb hG hPp
  rw [h3, h1, cost_bias, add_right_inj, mul_left_inj' hβ.ne']
  exact_mod_cast Iff.rfl

theorem outs_stride_one (ws : List Win) (sp : List ℕ) (hl : ws.length = sp.length) (hs : ∀ w ∈ ws, w.s = 1) :
    List.zipWith (outPositions true) sp ws = sp.map fun (n : ℕ) => (n : ℤ) := by
  induction sp generalizing ws with
  | nil => rfl
  | cons n sp ih =>
    cases ws with
    | nil => simp at hl
    | cons w ws =>
      rw [List.zipWith_cons_cons, List.map_cons, ih ws (by simpa using hl) fun v hv => hs v (by simp [hv])]
      congr 1
      simp [outPositions, hs w (by simp)]

/-- **C59 violated (channels first):** with stride 1 and padding `same`, where channels last is right, the bias cost is right exactly if the number of input channels
is the size of the last spatial axis. -/
theorem C59_channels_first_violated (ws : List Win) (sp : List ℕ) (n a b G : ℕ) (x kernel : Arr ℚ) (β : ℕ → ℚ) (hl : ws.length = sp.length + 1)
    (hw : WinsOk ws) (hs : ∀ w ∈ ws, w.s = 1) (hn : ∀ k ∈ sp ++ [n], 0 < k) (cfirst : Bool)
    (hx : x.shape = layout cfirst (sp ++ [n]) (G * a)) (hb : 0 < b) (hG : 0 < G) (hβ : 0 < ∑ o ∈ range (G * b), β o) :
    convEbopsG cfirst true ws (sp ++ [n]) a b G x kernel (some β) (-1) = convGeoCost cfirst true (sp ++ [n]) (sp ++ [n]) ws a b (G * b) x kernel (some β) ↔
      (cfirst = true → G * a = n) := by
  have hpp : 0 < (sp ++ [n]).prod := List.prod_pos hn
  rw [C59_geometry_bias_iff cfirst true ws (sp ++ [n]) (sp ++ [n]) a b G x kernel β (by simp) (by simp [hl]) hw hn (Or.inl rfl)
    (outs_stride_one ws _ (by simp [hl]) hs).symm hx hb hG hpp hβ]
  unfold biasCharges
  cases cfirst with
  | false => simp
  | true =>
    have h0 : 0 < sp.prod := List.prod_pos fun k hk => hn k (by simp [hk])
    simp only [if_true, List.dropLast_concat, List.prod_append, List.prod_singleton, forall_const]
    rw [Nat.mul_comm, Nat.mul_right_inj h0.ne']

/-- A 3 x 3 image with 2 channels first, kernel 2 x 2, `same`, one filter; all widths 1: 25 products per channel (padding is not charged), bias 1 charged
2 * 3 times, not 9. -/
example : convEbopsG true true [⟨2, 1, 1⟩, ⟨2, 1, 1⟩] [3, 3] 2 1 1 ⟨[2, 3, 3], fun _ => 1⟩ ⟨[2, 2, 2, 1], fun _ => 1⟩ (some fun _ => 1) (-1) = 50 + 6 ∧
    convEbopsG false true [⟨2, 1, 1⟩, ⟨2, 1, 1⟩] [3, 3] 2 1 1 ⟨[3, 3, 2], fun _ => 1⟩ ⟨[2, 2, 2, 1], fun _ => 1⟩ (some fun _ => 1) (-1) = 50 + 9 := by decide +kernel

end HGQ
