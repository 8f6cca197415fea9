import Verif.Model.Salt
import Mathlib.Tactic

/-!
# C55: cluster padding of the SALT attention
-/
namespace HGQ

/-- Spec: the clustered projection of a sequence of `n` rows into `m` clusters of length `l`: cluster `j` is the weighted sum of
those rows `t < n` that lie in it (`t = j * l + r`, `r < l`), row `r` of the cluster with weight `w j r`. -/
def Spec.clusterSum {V : Type} [AddCommGroup V] [Module ℚ V] (n l : ℕ) (w : ℕ → ℕ → ℚ) (x : ℕ → V) (j : ℕ) : V :=
  ∑ t ∈ (Finset.range n).filter (fun t => t / l = j), w j (t % l) • x t

theorem ceil_mul_ge (n m : ℕ) (hm : 0 < m) : (n : ℤ) ≤ ⌈(n : ℚ) / m⌉ * m := by
  have h := Int.le_ceil ((n : ℚ) / m)
  have hm' : (0 : ℚ) < m := by exact_mod_cast hm
  rw [div_le_iff₀ hm'] at h
  exact_mod_cast h

theorem saltPad_add (n m : ℕ) (hm : 0 < m) : ((n + saltPad n m : ℕ) : ℤ) = ⌈(n : ℚ) / m⌉ * m := by
  unfold saltPad
  have := ceil_mul_ge n m hm
  push_cast
  omega

/-- **C55, padding.** For every length and projection size the padded length is a multiple of the projection size, and the smallest
one that holds the sequence. -/
theorem C55_padding (n m : ℕ) (hm : 0 < m) :
    m ∣ n + saltPad n m ∧ (∀ p, m ∣ n + p → saltPad n m ≤ p) ∧ saltPad n m < m ∧ (saltPad n m = 0 ↔ m ∣ n) := by
  have h := saltPad_add n m hm
  have hd : m ∣ n + saltPad n m := by
    have : (m : ℤ) ∣ ((n + saltPad n m : ℕ) : ℤ) := by rw [h]; exact Dvd.intro_left _ rfl
    exact_mod_cast this
  have hmin : ∀ p, m ∣ n + p → saltPad n m ≤ p := by
    rintro p ⟨c, hc⟩
    have hc1 : ⌈(n : ℚ) / m⌉ ≤ c := by
      rw [Int.ceil_le, div_le_iff₀ (by exact_mod_cast hm)]
      have : (n : ℚ) + p = m * c := by exact_mod_cast hc
      have : (0 : ℚ) ≤ p := Nat.cast_nonneg p
      push_cast
      nlinarith
    have hm' : (0 : ℤ) ≤ m := Int.natCast_nonneg m
    have h2 := mul_le_mul_of_nonneg_right hc1 hm'
    rw [← h] at h2
    have : n + saltPad n m ≤ c * m := by exact_mod_cast h2
    rw [mul_comm c m, ← hc] at this
    omega
  refine ⟨hd, hmin, ?_, ?_⟩
  · -- the padding reaching the next multiple is less than m
    have := hmin (m - 1 - (n + m - 1) % m) (by
      refine ⟨(n + m - 1) / m, ?_⟩
      have h1 := Nat.mod_lt (n + m - 1) hm
      have h2 := Nat.div_add_mod (n + m - 1) m
      omega)
    omega
  · constructor
    · intro h0; simpa [h0] using hd
    · intro hdv
      have := hmin 0 (by simpa using hdv)
      omega

theorem saltLen_mul (n m : ℕ) (hm : 0 < m) : m * saltLen n m = n + saltPad n m :=
  Nat.mul_div_cancel' (C55_padding n m hm).1

theorem cluster_eq {V : Type} [AddCommGroup V] [Module ℚ V] (n l j : ℕ) (hl : 0 < l) (w : ℕ → ℕ → ℚ) (x : ℕ → V) :
    (∑ t ∈ Finset.range l, w j t • (if j * l + t < n then x (j * l + t) else 0)) = Spec.clusterSum n l w x j := by
  unfold Spec.clusterSum
  have : ∀ t ∈ Finset.range l, w j t • (if j * l + t < n then x (j * l + t) else 0) =
      if j * l + t < n then w j t • x (j * l + t) else 0 := by
    intro t _; split <;> simp
  rw [Finset.sum_congr rfl this, ← Finset.sum_filter]
  refine Finset.sum_bij (fun t _ => j * l + t) ?_ ?_ ?_ ?_
  · intro t ht
    simp only [Finset.mem_filter, Finset.mem_range] at ht ⊢
    refine ⟨ht.2, ?_⟩
    rw [Nat.add_comm, Nat.add_mul_div_right _ _ hl, Nat.div_eq_of_lt ht.1, zero_add]
  · intro a _ b _ h; omega
  · intro t ht
    simp only [Finset.mem_filter, Finset.mem_range] at ht
    refine ⟨t % l, ?_, ?_⟩
    · simp only [Finset.mem_filter, Finset.mem_range]
      refine ⟨Nat.mod_lt _ hl, ?_⟩
      rw [← ht.2, mul_comm, Nat.div_add_mod]; exact ht.1
    · rw [← ht.2, mul_comm, Nat.div_add_mod]
  · intro t ht
    simp only [Finset.mem_filter, Finset.mem_range] at ht
    rw [Nat.add_comm, Nat.add_mul_mod_self_right, Nat.mod_eq_of_lt ht.1]

/-- The clustered path, once padded. -/
theorem salt_cluster {V : Type} [AddCommGroup V] [Module ℚ V] (n m : ℕ) (hn : 0 < n) (hm : 0 < m) (w : ℕ → ℕ → ℚ) (x : ℕ → V) :
    (saltReshape m (saltLen n m) (saltPadRows n (saltPad n m) x)).bind (saltProj true m (saltLen n m) w) =
      some (Spec.clusterSum n (saltLen n m) w x) := by
  have h : (saltPadRows n (saltPad n m) x).1 = m * saltLen n m := (saltLen_mul n m hm).symm
  simp only [saltReshape, saltPadRows] at h ⊢
  simp only [h, if_true, Option.bind_some, saltProj, and_self]
  congr 1
  funext j
  refine cluster_eq n (saltLen n m) j (Nat.pos_of_ne_zero fun h0 => ?_) w x
  have := saltLen_mul n m hm
  rw [h0] at this
  omega

/-- **C55, keys.** For every sequence length and projection size the key projection runs; if clustered, output row `j` is the weighted sum of
exactly the existing rows of cluster `j`, where the clusters have the least length with which `m` of them hold the sequence; otherwise
the full projection. -/
theorem C55_key {V : Type} [AddCommGroup V] [Module ℚ V] (n m : ℕ) (hn : 0 < n) (hm : 0 < m) (w : ℕ → ℕ → ℚ) (x : ℕ → V) :
    saltKey true n m w x = some (Spec.clusterSum n (saltLen n m) w x) ∧
    saltKey false n m w x = some (fun j => ∑ t ∈ Finset.range n, w t j • x t) ∧
    n ≤ m * saltLen n m ∧ ∀ l, n ≤ m * l → saltLen n m ≤ l := by
  refine ⟨?_, ?_, ?_, ?_⟩
  · simp only [saltKey, if_true, saltAxis]
    exact salt_cluster n m hn hm w x
  · simp [saltKey, saltAxis, saltProj]
  · rw [saltLen_mul n m hm]; omega
  · intro l hl
    have := (C55_padding n m hm).2.1 (m * l - n) (by rw [Nat.add_sub_cancel' hl]; exact Dvd.intro _ rfl)
    have h2 := saltLen_mul n m hm
    exact Nat.le_of_mul_le_mul_left (by omega : m * saltLen n m ≤ m * l) hm

/-- **C55, values (partial).** The value projection runs, with the same result as for keys, if it is not clustered or the projection size does not
divide the sequence length.  Missing: lengths divisible by the projection size, see `C55_value_violated`. -/
theorem C55_value_partial {V : Type} [AddCommGroup V] [Module ℚ V] (cluster : Bool) (n m : ℕ) (hn : 0 < n) (hm : 0 < m)
    (h : cluster = false ∨ ¬ m ∣ n) (w : ℕ → ℕ → ℚ) (x : ℕ → V) : saltValue cluster n m w x = saltKey cluster n m w x := by
  cases cluster with
  | false => simp [saltValue, saltKey]
  | true =>
    have hp : 0 < saltPad n m := by
      rcases h with h | h
      · simp at h
      · exact Nat.pos_of_ne_zero fun h0 => h ((C55_padding n m hm).2.2.2.1 h0)
    simp [saltValue, saltKey, hp]

/-- **C55 violated**: with `cluster_v_proj=True` every call fails exactly if the projection size divides the length of the value sequence — the
value is then neither padded nor reshaped, and the projection gets an array of the wrong rank. -/
theorem C55_value_violated {V : Type} [AddCommGroup V] [Module ℚ V] (n m : ℕ) (hn : 0 < n) (hm : 0 < m) (w : ℕ → ℕ → ℚ) (x : ℕ → V) :
    saltValue true n m w x = none ↔ m ∣ n := by
  constructor
  · intro h
    by_contra hc
    rw [C55_value_partial true n m hn hm (Or.inr hc) w x, (C55_key n m hn hm w x).1] at h
    simp at h
  · intro h
    have := (C55_padding n m hm).2.2.2.2 h
    simp [saltValue, this, saltProj]

/-- Seven rows into three clusters of three: two zero rows; eight into four clusters fail for values. -/
example : saltPad 7 3 = 2 ∧ saltLen 7 3 = 3 ∧ saltPad 8 4 = 0 := by decide +kernel
example : (saltKey true 7 3 (fun _ t => (t : ℚ) + 1) (fun t => (t : ℚ))).map (fun f => [f 0, f 1, f 2]) = some [8, 26, 6] := by
  decide +kernel
example : saltValue (V := ℚ) true 8 4 (fun _ _ => 1) (fun t => (t : ℚ)) = none :=
  (C55_value_violated 8 4 (by norm_num) (by norm_num) _ _).2 ⟨2, rfl⟩

end HGQ
