import Verif.Lemmas.Jtor
import Mathlib.Tactic.Linarith
import Mathlib.Tactic.FieldSimp
import Mathlib.Tactic.Positivity

/-!
# All weights of Romberg integration are positive

`romb` adds up the samples with fixed weights. The weights of the extrapolated table are found level by level: the points added at
the `n`-th halving before the last one have a common weight `S j n` in column `j`, and `S j n` stays between `2/5` and `3/2`.
-/

set_option linter.unusedSectionVars false

namespace FreeGS.GS

variable {K : Type*} [Field K] [LinearOrder K] [IsStrictOrderedRing K]

/-- The samples added at level `l`. -/
def rombNew (y : ℕ → K) (N : ℕ) : ℕ → K
  | 0 => (y 0 + y N) / 2
  | i + 1 => ((List.range (2 ^ i)).map fun m => y (N / 2 ^ (i + 1) + m * (N / 2 ^ i))).sum

/-- The common weight, in column `j`, of the samples added `n` levels before the row. -/
def rombS : ℕ → ℕ → K
  | 0, _ => 1
  | j + 1, 0 => 4 ^ (j + 1) * rombS j 0 / (4 ^ (j + 1) - 1)
  | j + 1, n + 1 => (4 ^ (j + 1) * rombS j (n + 1) - 2 * rombS j n) / (4 ^ (j + 1) - 1)

theorem four_pow_gt (j : ℕ) : (1 : K) < 4 ^ (j + 1) := one_lt_pow₀ (by norm_num) (by omega)

theorem rombTrap_levels (y : ℕ → K) (N i : ℕ) :
    rombTrap y N i = (N : K) / 2 ^ i * ∑ l ∈ Finset.range (i + 1), rombNew y N l := by
  induction i with
  | zero => simp [rombTrap, rombNew, mul_comm]
  | succ i ih =>
    rw [rombTrap, ih, Finset.sum_range_succ _ (i + 1), rombNew]
    generalize ((List.range (2 ^ i)).map fun m => y (N / 2 ^ (i + 1) + m * (N / 2 ^ i))).sum = B
    rw [pow_succ]
    field_simp

theorem rombTable_levels (y : ℕ → K) (N : ℕ) : ∀ j i, j ≤ i →
    rombTable y N j i = (N : K) / 2 ^ i * ∑ l ∈ Finset.range (i + 1), rombS j (i - l) * rombNew y N l := by
  intro j
  induction j with
  | zero => intro i _; rw [rombTable, rombTrap_levels]; simp [rombS]
  | succ j ih =>
    intro i hi
    obtain ⟨i, rfl⟩ : ∃ i', i = i' + 1 := ⟨i - 1, by omega⟩
    rw [rombTable, Nat.add_sub_cancel, ih (i + 1) (by omega), ih i (by omega)]
    have h4 := four_pow_gt (K := K) j
    have hne : (4 : K) ^ (j + 1) - 1 ≠ 0 := by linarith
    rw [Finset.sum_range_succ _ (i + 1), Finset.sum_range_succ _ (i + 1), Nat.sub_self]
    have e : ∑ l ∈ Finset.range (i + 1), rombS (K := K) (j + 1) (i + 1 - l) * rombNew y N l =
        (4 ^ (j + 1) * ∑ l ∈ Finset.range (i + 1), rombS (K := K) j (i + 1 - l) * rombNew y N l -
          2 * ∑ l ∈ Finset.range (i + 1), rombS (K := K) j (i - l) * rombNew y N l) / (4 ^ (j + 1) - 1) := by
      rw [Finset.mul_sum, Finset.mul_sum, ← Finset.sum_sub_distrib, Finset.sum_div]
      refine Finset.sum_congr rfl fun l hl => ?_
      have : i + 1 - l = (i - l) + 1 := by have := Finset.mem_range.mp hl; omega
      rw [this, rombS]; ring
    rw [e, rombS]
    generalize ∑ l ∈ Finset.range (i + 1), rombS (K := K) j (i + 1 - l) * rombNew y N l = A
    generalize ∑ l ∈ Finset.range (i + 1), rombS (K := K) j (i - l) * rombNew y N l = B
    rw [pow_succ (2 : K) i]
    have hne' : (4 : K) * 4 ^ j - 1 ≠ 0 := by rw [← pow_succ']; exact hne
    field_simp
    ring

theorem rombS_bounds (j : ℕ) : ∀ n,
    2 / 5 + 16 / 15 / 4 ^ (j + 1) ≤ rombS (K := K) (j + 1) n ∧
    rombS (K := K) (j + 1) n ≤ 3 / 2 - 2 / 3 / 4 ^ (j + 1) := by
  induction j with
  | zero => intro n; cases n <;> norm_num [rombS]
  | succ j ih =>
    have h4 := four_pow_gt (K := K) j
    have hx0 : (0 : K) < 4 ^ (j + 1) := by positivity
    have e : (4 : K) ^ (j + 1 + 1) = 4 * 4 ^ (j + 1) := pow_succ' _ _
    generalize hX : (4 : K) ^ (j + 1) = X at *
    have hd : (0 : K) < 4 * X - 1 := by linarith
    have e16 : (16 : K) / 15 / (4 * X) = 4 / 15 / X := by field_simp; ring
    have e23 : (2 : K) / 3 / (4 * X) = 1 / 6 / X := by field_simp; ring
    have i1 : X⁻¹ * X = 1 := inv_mul_cancel₀ hx0.ne'
    have i0 : 0 < X⁻¹ := inv_pos.mpr hx0
    have hXl : ∀ s : K, 2 / 5 + 16 / 15 / X ≤ s → 2 / 5 * X + 16 / 15 ≤ X * s := fun s hs => by
      have := mul_le_mul_of_nonneg_left hs hx0.le
      rw [show X * (2 / 5 + 16 / 15 / X) = 2 / 5 * X + 16 / 15 by field_simp] at this
      exact this
    have hXu : ∀ s : K, s ≤ 3 / 2 - 2 / 3 / X → X * s ≤ 3 / 2 * X - 2 / 3 := fun s hs => by
      have := mul_le_mul_of_nonneg_left hs hx0.le
      rw [show X * (3 / 2 - 2 / 3 / X) = 3 / 2 * X - 2 / 3 by field_simp] at this
      exact this
    have eL : (2 / 5 + 4 / 15 / X) * (4 * X - 1) = 8 / 5 * X + 2 / 3 - 4 / 15 / X := by field_simp; ring
    have eU : (3 / 2 - 1 / 6 / X) * (4 * X - 1) = 6 * X - 13 / 6 + 1 / 6 / X := by field_simp; ring
    have q1 : ∀ c : K, c / X = c * X⁻¹ := fun c => div_eq_mul_inv _ _
    intro n
    rw [e, e16, e23]
    cases n with
    | zero =>
      obtain ⟨l, u⟩ := ih 0
      have l2 := hXl _ l
      have u2 := hXu _ u
      rw [rombS, e, le_div_iff₀ hd, div_le_iff₀ hd, eL, eU]
      rw [q1] at l u ⊢
      rw [q1]
      constructor <;> linarith
    | succ n =>
      obtain ⟨l, u⟩ := ih (n + 1)
      have l2 := hXl _ l
      have u2 := hXu _ u
      obtain ⟨l', u'⟩ := ih n
      rw [rombS, e, le_div_iff₀ hd, div_le_iff₀ hd, eL, eU]
      rw [q1] at l u l' u' ⊢
      rw [q1]
      constructor <;> linarith

theorem rombS_pos (j n : ℕ) : (0 : K) < rombS j n := by
  cases j with
  | zero => simp [rombS]
  | succ j =>
    have := (rombS_bounds (K := K) j n).1
    have h : (0 : K) < 2 / 5 + 16 / 15 / 4 ^ (j + 1) := by positivity
    linarith

theorem rombNew_nonneg {y : ℕ → K} (h : ∀ m, 0 ≤ y m) (N l : ℕ) : 0 ≤ rombNew y N l := by
  cases l with
  | zero => rw [rombNew]; have := h 0; have := h N; positivity
  | succ l =>
    rw [rombNew]
    refine List.sum_nonneg fun x hx => ?_
    obtain ⟨m, _, rfl⟩ := List.mem_map.mp hx
    exact h _

/-- Every sample is added at some level. -/
theorem rombNew_pos {y : ℕ → K} (h : ∀ m, 0 ≤ y m) (k m : ℕ) (hm : m ≤ 2 ^ k) (hy : 0 < y m) :
    ∃ l ≤ k, 0 < rombNew y (2 ^ k) l := by
  by_cases h0 : m = 0 ∨ m = 2 ^ k
  · refine ⟨0, by omega, ?_⟩
    rw [rombNew]
    rcases h0 with rfl | rfl
    · have := h (2 ^ k); positivity
    · have := h 0; positivity
  · have hm0 : m ≠ 0 := by omega
    obtain ⟨e, t, ht, he⟩ := Nat.exists_eq_two_pow_mul_odd hm0
    obtain ⟨t, rfl⟩ := ht
    have hek : e < k := by
      have : 2 ^ e ≤ m := by rw [he]; exact Nat.le_mul_of_pos_right _ (by omega)
      exact (Nat.pow_lt_pow_iff_right (by norm_num : 1 < 2)).mp (by omega)
    refine ⟨k - e, by omega, ?_⟩
    obtain ⟨i, hi⟩ : ∃ i, k - e = i + 1 := ⟨k - e - 1, by omega⟩
    rw [hi, rombNew]
    have d1 : 2 ^ k / 2 ^ (i + 1) = 2 ^ e := by rw [Nat.pow_div (by omega) (by norm_num)]; congr 1; omega
    have d2 : 2 ^ k / 2 ^ i = 2 * 2 ^ e := by
      rw [Nat.pow_div (by omega) (by norm_num), ← pow_succ']; congr 1; omega
    have ti : t < 2 ^ i := by
      have e1 : 2 ^ k = 2 ^ e * (2 * 2 ^ i) := by rw [← pow_succ', ← pow_add]; congr 1; omega
      have hlt : 2 ^ e * (2 * t + 1) < 2 ^ e * (2 * 2 ^ i) := by rw [← he, ← e1]; omega
      have := Nat.lt_of_mul_lt_mul_left hlt
      omega
    have hmem : y m ∈ (List.range (2 ^ i)).map fun m => y (2 ^ k / 2 ^ (i + 1) + m * (2 ^ k / 2 ^ i)) := by
      refine List.mem_map.mpr ⟨t, List.mem_range.mpr ti, ?_⟩
      rw [d1, d2, he]; congr 1; ring
    refine lt_of_lt_of_le hy (List.single_le_sum (fun x hx => ?_) _ hmem)
    obtain ⟨m, _, rfl⟩ := List.mem_map.mp hx
    exact h _

theorem rombTable_pos {y : ℕ → K} (h : ∀ m, 0 ≤ y m) (k m : ℕ) (hm : m ≤ 2 ^ k) (hy : 0 < y m) :
    0 < rombTable y (2 ^ k) k k := by
  rw [rombTable_levels y (2 ^ k) k k le_rfl]
  refine mul_pos (by positivity) ?_
  obtain ⟨l, hl, hp⟩ := rombNew_pos h k m hm hy
  refine Finset.sum_pos' (fun l _ => mul_nonneg (rombS_pos _ _).le (rombNew_nonneg h _ _))
    ⟨l, Finset.mem_range.mpr (by omega), mul_pos (rombS_pos _ _) hp⟩

/-- Romberg integration is a sum with positive weights, exact for polynomials of degree one. -/
theorem romb_positive (k : ℕ) : ∃ w : ℕ → K,
    (∀ m ≤ 2 ^ k, 0 < w m) ∧
    (∀ y : ℕ → K, romb y (2 ^ k + 1) = .ok (∑ m ∈ Finset.range (2 ^ k + 1), w m * y m)) ∧
    (∀ a b : K, ∑ m ∈ Finset.range (2 ^ k + 1), w m * (a + b * m) = 2 ^ k * a + b * (2 ^ k) ^ 2 / 2) := by
  obtain ⟨w, hw, hex⟩ := rombTable_weights (K := K) k k k le_rfl
  refine ⟨w, fun m hm => ?_, fun y => by rw [romb_pow, hw], fun a b => by rw [← hw, hex]⟩
  have := rombTable_pos (K := K) (y := fun i => if i = m then 1 else 0) (fun i => by split_ifs <;> norm_num) k m hm (by simp)
  rw [hw, Finset.sum_eq_single m] at this
  · simpa using this
  · intro i _ hne; simp [hne]
  · intro h; exact absurd (Finset.mem_range.mpr (by omega)) h

/-- The same over a grid. -/
theorem romb2_positive (a b : ℕ) : ∃ w : ℕ × ℕ → K,
    (∀ x ≤ 2 ^ a, ∀ y ≤ 2 ^ b, 0 < w (x, y)) ∧
    (∀ f : Arr K, romb2 (2 ^ a + 1) (2 ^ b + 1) f =
      .ok (∑ x ∈ Finset.range (2 ^ a + 1), ∑ y ∈ Finset.range (2 ^ b + 1), w (x, y) * f (x, y))) ∧
    (∀ c d : K, ∑ x ∈ Finset.range (2 ^ a + 1), ∑ y ∈ Finset.range (2 ^ b + 1), w (x, y) * (c + d * x) =
      2 ^ b * (2 ^ a * c + d * (2 ^ a) ^ 2 / 2)) := by
  obtain ⟨wR, pR, hR, eR⟩ := romb_positive (K := K) a
  obtain ⟨wZ, pZ, hZ, eZ⟩ := romb_positive (K := K) b
  refine ⟨fun c => wR c.1 * wZ c.2, fun x hx y hy => mul_pos (pR x hx) (pZ y hy), fun f => ?_, fun c d => ?_⟩
  · simp only [romb2, hZ, hR, Except.toOption, Option.getD_some, Finset.mul_sum, mul_assoc]
  · have hz := eZ 1 0
    simp only [zero_mul, add_zero, mul_one, zero_div] at hz
    rw [← eR c d, Finset.mul_sum]
    refine Finset.sum_congr rfl fun x _ => ?_
    rw [← hz, Finset.sum_mul]
    refine Finset.sum_congr rfl fun y _ => ?_
    ring

end FreeGS.GS
