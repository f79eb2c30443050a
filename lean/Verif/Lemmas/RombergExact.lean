import Verif.Lemmas.Romberg
import Mathlib.NumberTheory.Bernoulli
import Mathlib.Topology.ContinuousMap.Weierstrass
import Mathlib.Analysis.SpecialFunctions.Integrals.Basic

set_option linter.unusedSectionVars false

/-!
# Romberg integration: exact for polynomials, convergent for integrable functions
-/

namespace FreeGS.GS

open Finset

theorem sum_range_two_mul {M : Type*} [AddCommMonoid M] (f : ℕ → M) (n : ℕ) :
    ∑ m ∈ range (2 * n), f m = ∑ m ∈ range n, f (2 * m) + ∑ m ∈ range n, f (2 * m + 1) := by
  induction n with
  | zero => simp
  | succ n ih =>
    rw [show 2 * (n + 1) = 2 * n + 1 + 1 by ring, sum_range_succ, sum_range_succ, ih, sum_range_succ, sum_range_succ]
    abel

theorem sum_list_range (f : ℕ → ℝ) (n : ℕ) : ((List.range n).map f).sum = ∑ m ∈ range n, f m := by
  induction n with
  | zero => simp
  | succ n ih => rw [List.range_succ, List.map_append, List.sum_append, ih, sum_range_succ]; simp

/-- The first column in closed form: the trapezium rule with `2 ^ i` intervals. -/
theorem rombTrap_closed (y : ℕ → ℝ) (k : ℕ) : ∀ i ≤ k,
    rombTrap y (2 ^ k) i = 2 ^ (k - i) * (∑ m ∈ range (2 ^ i), y (m * 2 ^ (k - i)) + (y (2 ^ k) - y 0) / 2) := by
  intro i
  induction i with
  | zero => intro _; simp [rombTrap]; ring
  | succ i ih =>
    intro hi
    have hdiv : ∀ j, j ≤ k → 2 ^ k / 2 ^ j = 2 ^ (k - j) := fun j hj => Nat.pow_div hj (by norm_num)
    have e : k - i = (k - (i + 1)) + 1 := by omega
    have eR : (2 : ℝ) ^ k / 2 ^ i = 2 ^ (k - i) := by
      rw [eq_comm, eq_div_iff (by positivity), ← pow_add]; congr 1; omega
    rw [rombTrap, ih (by omega), hdiv _ hi, hdiv _ (by omega), show (2 : ℕ) ^ (i + 1) = 2 * 2 ^ i by ring,
      sum_range_two_mul, sum_list_range]
    push_cast
    rw [eR, e]
    have h1 : ∀ m : ℕ, m * 2 ^ (k - (i + 1) + 1) = 2 * m * 2 ^ (k - (i + 1)) := fun m => by ring
    have h2 : ∀ m : ℕ, 2 ^ (k - (i + 1)) + 2 * m * 2 ^ (k - (i + 1)) = (2 * m + 1) * 2 ^ (k - (i + 1)) := fun m => by ring
    simp only [h1, h2]
    ring

/-- The factor by which column `j` multiplies a term that changes by `2 ^ (-s)` from row to row. -/
noncomputable def rombFactor (s : ℕ) : ℕ → ℝ
  | 0 => 1
  | j + 1 => rombFactor s j * (4 ^ (j + 1) - 2 ^ s) / (4 ^ (j + 1) - 1)

theorem rombFactor_zero : ∀ j, rombFactor 0 j = 1
  | 0 => rfl
  | j + 1 => by
    have : (1 : ℝ) < 4 ^ (j + 1) := one_lt_pow₀ (by norm_num) (by omega)
    rw [rombFactor, rombFactor_zero j, pow_zero, one_mul, div_self (by linarith)]

theorem rombFactor_even (m : ℕ) (hm : 1 ≤ m) : ∀ j, m ≤ j → rombFactor (2 * m) j = 0
  | 0, h => by omega
  | j + 1, h => by
    rw [rombFactor]
    by_cases hj : m ≤ j
    · rw [rombFactor_even m hm j hj, zero_mul, zero_div]
    · have : m = j + 1 := by omega
      rw [this, pow_mul, show (2 : ℝ) ^ 2 = 4 by norm_num, sub_self, mul_zero, zero_div]

theorem rombTable_terms (y : ℕ → ℝ) (k : ℕ) (S : Finset ℕ) (c : ℕ → ℝ)
    (h : ∀ i ≤ k, rombTrap y (2 ^ k) i = ∑ s ∈ S, c s * (1 / 2 ^ s) ^ i) : ∀ j i, j ≤ i → i ≤ k →
    rombTable y (2 ^ k) j i = ∑ s ∈ S, c s * rombFactor s j * (1 / 2 ^ s) ^ i
  | 0, i, _, hi => by simpa [rombTable, rombFactor] using h i hi
  | j + 1, i, hj, hi => by
    have h4 : (1 : ℝ) < 4 ^ (j + 1) := one_lt_pow₀ (by norm_num) (by omega)
    rw [rombTable, rombTable_terms y k S c h j i (by omega) hi, rombTable_terms y k S c h j (i - 1) (by omega) (by omega),
      ← sum_sub_distrib, sum_div, ← sum_add_distrib]
    refine sum_congr rfl fun s _ => ?_
    obtain ⟨l, rfl⟩ : ∃ l, i = l + 1 := ⟨i - 1, by omega⟩
    have h2 : (2 : ℝ) ^ s ≠ 0 := by positivity
    have h3 : (4 : ℝ) ^ (j + 1) - 1 ≠ 0 := by linarith
    rw [rombFactor, Nat.add_sub_cancel, pow_succ (1 / 2 ^ s : ℝ) l]
    field_simp
    ring

/-- The terms of the trapezium rule for a power. -/
noncomputable def trapTerm (p s : ℕ) : ℝ := if s = 1 then 0 else (bernoulli s : ℝ) * ((p + 1).choose s) / (p + 1)

theorem trapTerm_odd (p : ℕ) (s : ℕ) (h : Odd s) : trapTerm p s = 0 := by
  rw [trapTerm]
  split_ifs with h1
  · rfl
  · have : 1 < s := by
      rcases h with ⟨m, rfl⟩
      omega
    rw [bernoulli_eq_zero_of_odd h this]
    simp

theorem rombTrap_power (k p i : ℕ) (hi : i ≤ k) : rombTrap (fun m => (m : ℝ) ^ p) (2 ^ k) i =
    ∑ s ∈ range (p + 1), ((2 ^ k) ^ (p + 1) * trapTerm p s) * (1 / 2 ^ s) ^ i := by
  rw [rombTrap_closed _ k i hi]
  have hH : (2 : ℝ) ^ (k - i) = 2 ^ k / 2 ^ i := by
    rw [eq_div_iff (by positivity), ← pow_add]; congr 1; omega
  have hs : (∑ m ∈ range (2 ^ i), (m : ℝ) ^ p) = ∑ s ∈ range (p + 1), (bernoulli s : ℝ) * ((p + 1).choose s) * (2 ^ i) ^ (p + 1 - s) / (p + 1) := by
    have := congrArg (Rat.cast : ℚ → ℝ) (sum_range_pow (2 ^ i) p)
    push_cast at this
    exact this
  have hn : (2 : ℝ) ^ i ≠ 0 := by positivity
  have ht : ∀ s ∈ range (p + 1), ((2 : ℝ) ^ k) ^ (p + 1) * trapTerm p s * (1 / 2 ^ s) ^ i =
      (2 ^ k) ^ (p + 1) * ((bernoulli s : ℝ) * ((p + 1).choose s) / (p + 1) / (2 ^ i) ^ s) + if s = 1 then (2 ^ k) ^ (p + 1) / (2 * 2 ^ i) else 0 := by
    intro s hs
    have e : ((1 : ℝ) / 2 ^ s) ^ i = 1 / (2 ^ i) ^ s := by rw [div_pow, one_pow, ← pow_mul, ← pow_mul, mul_comm]
    rw [e, trapTerm]
    split_ifs with h1
    · subst h1
      have : (p : ℝ) + 1 ≠ 0 := by positivity
      simp only [bernoulli_one, Nat.choose_one_right]
      push_cast
      field_simp
      ring
    · ring
  rw [sum_congr rfl ht, sum_add_distrib, sum_ite_eq' (range (p + 1)) 1]
  have hm : ∀ m : ℕ, ((m * 2 ^ (k - i) : ℕ) : ℝ) ^ p = (m : ℝ) ^ p * (2 ^ (k - i)) ^ p := fun m => by push_cast; rw [mul_pow]
  simp only [hm]
  rw [← sum_mul, hs, hH]
  push_cast
  rw [mul_add, sum_mul, mul_sum]
  congr 1
  · refine sum_congr rfl fun s hs => ?_
    have hsp : s ≤ p := by have := mem_range.mp hs; omega
    have : ((2 : ℝ) ^ i) ^ (p + 1) = (2 ^ i) ^ (p + 1 - s) * (2 ^ i) ^ s := by rw [← pow_add]; congr 1; omega
    have e2 : ((2 : ℝ) ^ i) ^ (p + 1 - s) = (2 ^ i) ^ p * 2 ^ i / (2 ^ i) ^ s := by
      rw [eq_div_iff (by positivity), ← this, pow_succ]
    rw [e2, div_pow, pow_succ ((2 : ℝ) ^ k)]
    field_simp
  · rcases Nat.eq_zero_or_pos p with rfl | hp
    · simp
    · rw [if_pos (mem_range.mpr (by omega)), zero_pow (by omega), sub_zero, pow_succ ((2 : ℝ) ^ k)]
      field_simp

/-- Powers up to `2 k + 1` are integrated exactly with `2 ^ k + 1` samples. -/
theorem rombTable_power (k p : ℕ) (hp : p ≤ 2 * k + 1) :
    rombTable (fun m => (m : ℝ) ^ p) (2 ^ k) k k = (2 ^ k) ^ (p + 1) / (p + 1) := by
  rw [rombTable_terms _ k (range (p + 1)) _ (fun i hi => rombTrap_power k p i hi) k k le_rfl le_rfl, sum_eq_single 0]
  · rw [rombFactor_zero, trapTerm]
    simp
    ring
  · intro s hs h0
    have hsp := mem_range.mp hs
    rcases Nat.even_or_odd s with he | ho
    · obtain ⟨m, hm⟩ := he
      have : s = 2 * m := by omega
      rw [this, rombFactor_even m (by omega) k (by omega)]
      ring
    · rw [trapTerm_odd p s ho]
      ring
  · intro h
    exact absurd (mem_range.mpr (by omega)) h

/-! ## One dimension -/

open MeasureTheory intervalIntegral Filter Topology Polynomial in
/-- Weights of `romb` on `2 ^ k + 1` samples, for an interval `[a, b]`. -/
structure Rule (a b : ℝ) (k : ℕ) where
  w : ℕ → ℝ
  nonneg : ∀ m ≤ 2 ^ k, 0 ≤ w m
  romb : ∀ y : ℕ → ℝ, romb y (2 ^ k + 1) = .ok (∑ m ∈ range (2 ^ k + 1), w m * y m)
  exact : ∀ P : Polynomial ℝ, P.natDegree ≤ 2 * k + 1 →
    (∑ m ∈ range (2 ^ k + 1), w m * P.eval (a + m * ((b - a) / 2 ^ k))) * ((b - a) / 2 ^ k) = ∫ x in a..b, P.eval x

theorem integral_poly (P : Polynomial ℝ) (a b : ℝ) :
    ∫ x in a..b, P.eval x = ∑ i ∈ range (P.natDegree + 1), P.coeff i * ((b ^ (i + 1) - a ^ (i + 1)) / (i + 1)) := by
  simp only [Polynomial.eval_eq_sum_range]
  rw [intervalIntegral.integral_finset_sum]
  · refine sum_congr rfl fun i _ => ?_
    rw [intervalIntegral.integral_const_mul, integral_pow]
  · intro i _
    exact (continuous_const.mul (continuous_pow i)).intervalIntegrable _ _

noncomputable def rule (a b : ℝ) (k : ℕ) : Rule a b k :=
  Classical.choice <| by
    obtain ⟨w, hp, hr, -⟩ := romb_positive (K := ℝ) k
    refine ⟨⟨w, fun m hm => (hp m hm).le, hr, fun P hP => ?_⟩⟩
    have hpow : ∀ p ≤ 2 * k + 1, ∑ m ∈ range (2 ^ k + 1), w m * (m : ℝ) ^ p = (2 ^ k) ^ (p + 1) / (p + 1) := by
      intro p hp
      rw [← rombTable_power k p hp]
      have := hr fun m => (m : ℝ) ^ p
      rw [romb_pow] at this
      exact (Except.ok.inj this).symm
    set h := (b - a) / 2 ^ k with hh
    let Q : Polynomial ℝ := P.comp (Polynomial.C h * Polynomial.X + Polynomial.C a)
    have hQ : Q.natDegree ≤ 2 * k + 1 := by
      refine (Polynomial.natDegree_comp_le).trans ?_
      have : (Polynomial.C h * Polynomial.X + Polynomial.C a : Polynomial ℝ).natDegree ≤ 1 := Polynomial.natDegree_linear_le
      calc _ ≤ P.natDegree * 1 := Nat.mul_le_mul_left _ this
        _ ≤ _ := by omega
    have hQe : ∀ x, Q.eval x = P.eval (a + x * h) := by
      intro x
      simp only [Q, Polynomial.eval_comp, Polynomial.eval_add, Polynomial.eval_mul, Polynomial.eval_C, Polynomial.eval_X]
      congr 1
      ring
    have h1 : ∑ m ∈ range (2 ^ k + 1), w m * P.eval (a + m * h) = ∫ x in (0 : ℝ)..(2 ^ k), Q.eval x := by
      simp only [← hQe]
      rw [integral_poly]
      simp only [Polynomial.eval_eq_sum_range, mul_sum]
      rw [sum_comm]
      refine sum_congr rfl fun i hi => ?_
      have := hpow i (by have := mem_range.mp hi; omega)
      rw [zero_pow (by omega), sub_zero, ← this, mul_sum]
      exact sum_congr rfl fun m _ => by ring
    rw [h1]
    simp only [hQe]
    have := intervalIntegral.smul_integral_comp_add_mul (fun x => P.eval x) h a (a := 0) (b := 2 ^ k)
    rw [mul_comm, ← smul_eq_mul]
    simp only [mul_comm _ h]
    rw [this]
    congr 1
    · ring
    · rw [hh]; field_simp; ring

/-- What `romb` makes of a function on `[a, b]`, times the spacing. -/
noncomputable def quad1 (a b : ℝ) (k : ℕ) (f : ℝ → ℝ) : ℝ :=
  (∑ m ∈ range (2 ^ k + 1), (rule a b k).w m * f (a + m * ((b - a) / 2 ^ k))) * ((b - a) / 2 ^ k)

theorem node_mem {a b : ℝ} (h : a ≤ b) (k : ℕ) {m : ℕ} (hm : m ≤ 2 ^ k) : a + m * ((b - a) / 2 ^ k) ∈ Set.Icc a b := by
  have h2 : (0 : ℝ) < 2 ^ k := by positivity
  have h3 : (m : ℝ) ≤ 2 ^ k := by exact_mod_cast hm
  constructor
  · have : 0 ≤ (m : ℝ) * ((b - a) / 2 ^ k) := by have := sub_nonneg.mpr h; positivity
    linarith
  · have : (m : ℝ) * ((b - a) / 2 ^ k) ≤ 2 ^ k * ((b - a) / 2 ^ k) :=
      mul_le_mul_of_nonneg_right h3 (by have := sub_nonneg.mpr h; positivity)
    rw [mul_div_cancel₀ _ h2.ne'] at this
    linarith

theorem quad1_mono {a b : ℝ} (h : a ≤ b) (k : ℕ) {f g : ℝ → ℝ} (hfg : ∀ x ∈ Set.Icc a b, f x ≤ g x) :
    quad1 a b k f ≤ quad1 a b k g := by
  refine mul_le_mul_of_nonneg_right (sum_le_sum fun m hm => ?_) (by have := sub_nonneg.mpr h; positivity)
  have hm' : m ≤ 2 ^ k := by have := mem_range.mp hm; omega
  exact mul_le_mul_of_nonneg_left (hfg _ (node_mem h k hm')) ((rule a b k).nonneg m hm')

theorem quad1_congr {a b : ℝ} (h : a ≤ b) (k : ℕ) {f g : ℝ → ℝ} (hfg : ∀ x ∈ Set.Icc a b, f x = g x) :
    quad1 a b k f = quad1 a b k g :=
  le_antisymm (quad1_mono h k fun x hx => (hfg x hx).le) (quad1_mono h k fun x hx => (hfg x hx).ge)

theorem quad1_poly (a b : ℝ) (k : ℕ) (P : Polynomial ℝ) (hP : P.natDegree ≤ 2 * k + 1) :
    quad1 a b k (fun x => P.eval x) = ∫ x in a..b, P.eval x := (rule a b k).exact P hP

theorem quad1_const (a b : ℝ) (k : ℕ) (c : ℝ) : quad1 a b k (fun _ => c) = (b - a) * c := by
  have := quad1_poly a b k (Polynomial.C c) (by simp)
  simpa using this

theorem quad1_add (a b : ℝ) (k : ℕ) (f g : ℝ → ℝ) : quad1 a b k (fun x => f x + g x) = quad1 a b k f + quad1 a b k g := by
  simp only [quad1, mul_add, sum_add_distrib, add_mul]

theorem quad1_mul (a b : ℝ) (k : ℕ) (c : ℝ) (f : ℝ → ℝ) : quad1 a b k (fun x => c * f x) = c * quad1 a b k f := by
  simp only [quad1, ← mul_assoc, mul_sum]
  congr 1
  exact sum_congr rfl fun m _ => by ring

theorem quad1_close {a b : ℝ} (h : a ≤ b) (k : ℕ) {f g : ℝ → ℝ} {ε : ℝ} (hfg : ∀ x ∈ Set.Icc a b, |f x - g x| ≤ ε) :
    |quad1 a b k f - quad1 a b k g| ≤ (b - a) * ε := by
  have h1 := quad1_mono h k (f := f) (g := fun x => g x + ε) fun x hx => by have := (abs_le.mp (hfg x hx)).2; linarith
  have h2 := quad1_mono h k (f := g) (g := fun x => f x + ε) fun x hx => by have := (abs_le.mp (hfg x hx)).1; linarith
  rw [quad1_add, quad1_const] at h1 h2
  rw [abs_le]
  constructor <;> linarith

theorem integral_close {a b : ℝ} (h : a ≤ b) {f g : ℝ → ℝ} {ε : ℝ} (hf : ContinuousOn f (Set.Icc a b))
    (hg : ContinuousOn g (Set.Icc a b)) (hfg : ∀ x ∈ Set.Icc a b, |f x - g x| ≤ ε) :
    |(∫ x in a..b, f x) - ∫ x in a..b, g x| ≤ (b - a) * ε := by
  have hf' := hf.intervalIntegrable_of_Icc h (μ := MeasureTheory.volume)
  have hg' := hg.intervalIntegrable_of_Icc h (μ := MeasureTheory.volume)
  rw [← intervalIntegral.integral_sub hf' hg']
  have := intervalIntegral.norm_integral_le_of_norm_le_const (a := a) (b := b) (C := ε) (f := fun x => f x - g x) (by
    intro x hx
    rw [Set.uIoc_of_le h] at hx
    exact hfg x ⟨hx.1.le, hx.2⟩)
  rw [abs_of_nonneg (sub_nonneg.mpr h), mul_comm] at this
  exact this

/-- Convergence for continuous functions. -/
theorem quad1_converges {a b : ℝ} (h : a ≤ b) {f : ℝ → ℝ} (hf : ContinuousOn f (Set.Icc a b)) {ε : ℝ} (hε : 0 < ε) :
    ∃ n : ℕ, ∀ k, n ≤ k → |quad1 a b k f - ∫ x in a..b, f x| ≤ ε := by
  set δ := ε / (2 * (b - a + 1)) with hδ
  have hba : 0 < b - a + 1 := by linarith
  have hδ0 : 0 < δ := by positivity
  obtain ⟨P, hP⟩ := exists_polynomial_near_of_continuousOn a b f hf δ hδ0
  refine ⟨P.natDegree, fun k hk => ?_⟩
  have e := quad1_poly a b k P (by omega)
  have h1 := quad1_close h k (f := fun x => P.eval x) (g := f) fun x hx => (hP x hx).le
  have h2 := integral_close h (P.continuous.continuousOn (s := Set.Icc a b)) hf fun x hx => (hP x hx).le
  rw [e] at h1
  have h3 : (b - a) * δ ≤ ε / 2 := by
    rw [hδ]
    rw [mul_div_assoc', div_le_div_iff₀ (by positivity) (by norm_num)]
    nlinarith
  have h4 := abs_sub_le (quad1 a b k f) (∫ x in a..b, P.eval x) (∫ x in a..b, f x)
  rw [abs_sub_comm] at h1
  linarith

/-! ## Two dimensions -/

/-- What `romb(romb(a))` makes of a function on `[a, b] × [c, d]`, times the spacings. -/
noncomputable def quad2 (a b c d : ℝ) (k l : ℕ) (f : ℝ → ℝ → ℝ) : ℝ := quad1 a b k fun x => quad1 c d l (f x)

theorem uniform2 {a b c d : ℝ} {f : ℝ → ℝ → ℝ} (hf : ContinuousOn (Function.uncurry f) (Set.Icc a b ×ˢ Set.Icc c d)) {ε : ℝ} (hε : 0 < ε) :
    ∃ δ > 0, ∀ x ∈ Set.Icc a b, ∀ x' ∈ Set.Icc a b, |x - x'| < δ → ∀ y ∈ Set.Icc c d, |f x y - f x' y| ≤ ε := by
  have hu := (isCompact_Icc.prod isCompact_Icc).uniformContinuousOn_of_continuous hf
  obtain ⟨δ, hδ, h⟩ := Metric.uniformContinuousOn_iff.mp hu ε hε
  refine ⟨δ, hδ, fun x hx x' hx' hd y hy => ?_⟩
  have := h (x, y) ⟨hx, hy⟩ (x', y) ⟨hx', hy⟩ (by rw [Prod.dist_eq, dist_self]; simpa [Real.dist_eq, hδ] using hd)
  exact (show |f x y - f x' y| < ε from this).le

theorem section_cont {a b c d : ℝ} {f : ℝ → ℝ → ℝ} (hf : ContinuousOn (Function.uncurry f) (Set.Icc a b ×ˢ Set.Icc c d)) {x : ℝ}
    (hx : x ∈ Set.Icc a b) : ContinuousOn (f x) (Set.Icc c d) := by
  have : ContinuousOn (fun y => (x, y)) (Set.Icc c d) := by fun_prop
  exact hf.comp this fun y hy => ⟨hx, hy⟩

theorem inner_cont {a b c d : ℝ} (hcd : c ≤ d) {f : ℝ → ℝ → ℝ} (hf : ContinuousOn (Function.uncurry f) (Set.Icc a b ×ˢ Set.Icc c d)) :
    ContinuousOn (fun x => ∫ y in c..d, f x y) (Set.Icc a b) := by
  rw [Metric.continuousOn_iff]
  intro x hx ε hε
  obtain ⟨δ, hδ, h⟩ := uniform2 hf (ε := ε / (2 * (d - c + 1))) (by have := sub_nonneg.mpr hcd; positivity)
  refine ⟨δ, hδ, fun x' hx' hd => ?_⟩
  have := integral_close hcd (section_cont hf hx') (section_cont hf hx) (h x' hx' x hx hd)
  refine lt_of_le_of_lt this ?_
  have hcd' := sub_nonneg.mpr hcd
  rw [mul_div_assoc', div_lt_iff₀ (by positivity)]
  nlinarith

/-- The inner integral converges uniformly. -/
theorem inner_uniform {a b c d : ℝ} (hcd : c ≤ d) {f : ℝ → ℝ → ℝ}
    (hf : ContinuousOn (Function.uncurry f) (Set.Icc a b ×ˢ Set.Icc c d)) {ε : ℝ} (hε : 0 < ε) :
    ∃ n : ℕ, ∀ l, n ≤ l → ∀ x ∈ Set.Icc a b, |quad1 c d l (f x) - ∫ y in c..d, f x y| ≤ ε := by
  have hcd' := sub_nonneg.mpr hcd
  set η := ε / (3 * (d - c + 1)) with hη
  obtain ⟨δ, hδ, h⟩ := uniform2 hf (ε := η) (by positivity)
  obtain ⟨t, hts, htf, ht⟩ := (isCompact_Icc (a := a) (b := b)).finite_cover_balls hδ
  have hη3 : (d - c) * η ≤ ε / 3 := by
    rw [hη, mul_div_assoc', div_le_div_iff₀ (by positivity) (by norm_num)]
    nlinarith
  have hex : ∀ x, ∃ n : ℕ, x ∈ Set.Icc a b → ∀ l, n ≤ l → |quad1 c d l (f x) - ∫ y in c..d, f x y| ≤ ε / 3 := by
    intro x
    by_cases hx : x ∈ Set.Icc a b
    · obtain ⟨n, hn⟩ := quad1_converges hcd (section_cont hf hx) (ε := ε / 3) (by positivity)
      exact ⟨n, fun _ => hn⟩
    · exact ⟨0, fun h => absurd h hx⟩
  choose N hN using hex
  refine ⟨htf.toFinset.sup N, fun l hl x hx => ?_⟩
  obtain ⟨x', hx', hb⟩ := Set.mem_iUnion₂.mp (ht hx)
  have hxs := hts hx'
  have hl' : N x' ≤ l := le_trans (Finset.le_sup (htf.mem_toFinset.mpr hx')) hl
  have h0 := hN x' hxs l hl'
  have hd := h x hx x' hxs hb
  have h1 := quad1_close hcd l hd
  have h2 := integral_close hcd (section_cont hf hx) (section_cont hf hxs) hd
  rw [abs_le] at *
  constructor <;> linarith

theorem quad2_mono {a b c d : ℝ} (hab : a ≤ b) (hcd : c ≤ d) (k l : ℕ) {f g : ℝ → ℝ → ℝ}
    (h : ∀ x ∈ Set.Icc a b, ∀ y ∈ Set.Icc c d, f x y ≤ g x y) : quad2 a b c d k l f ≤ quad2 a b c d k l g :=
  quad1_mono hab k fun x hx => quad1_mono hcd l (h x hx)

theorem quad2_converges {a b c d : ℝ} (hab : a ≤ b) (hcd : c ≤ d) {f : ℝ → ℝ → ℝ}
    (hf : ContinuousOn (Function.uncurry f) (Set.Icc a b ×ˢ Set.Icc c d)) {ε : ℝ} (hε : 0 < ε) :
    ∃ n : ℕ, ∀ k l, n ≤ k → n ≤ l → |quad2 a b c d k l f - ∫ x in a..b, ∫ y in c..d, f x y| ≤ ε := by
  have hab' := sub_nonneg.mpr hab
  obtain ⟨n, hn⟩ := inner_uniform hcd hf (ε := ε / (2 * (b - a + 1))) (by positivity)
  obtain ⟨n', hn'⟩ := quad1_converges hab (inner_cont hcd hf) (ε := ε / 2) (by positivity)
  refine ⟨max n n', fun k l hk hl => ?_⟩
  have h1 := quad1_close hab k (hn l (le_trans (le_max_left _ _) hl))
  have h2 := hn' k (le_trans (le_max_right _ _) hk)
  have h3 : (b - a) * (ε / (2 * (b - a + 1))) ≤ ε / 2 := by
    rw [mul_div_assoc', div_le_div_iff₀ (by positivity) (by norm_num)]
    nlinarith
  have h4 := abs_sub_le (quad2 a b c d k l f) (quad1 a b k fun x => ∫ y in c..d, f x y) (∫ x in a..b, ∫ y in c..d, f x y)
  have h5 : |quad2 a b c d k l f - quad1 a b k fun x => ∫ y in c..d, f x y| ≤ (b - a) * (ε / (2 * (b - a + 1))) := h1
  linarith

theorem quad1_sum (a b : ℝ) (k : ℕ) (s : Finset ℕ) (f : ℕ → ℝ → ℝ) :
    quad1 a b k (fun x => ∑ i ∈ s, f i x) = ∑ i ∈ s, quad1 a b k (f i) := by
  simp only [quad1, mul_sum]
  rw [sum_comm, sum_mul]

theorem quad2_poly (a b c d : ℝ) (k l : ℕ) (s : Finset ℕ) (P Q : ℕ → Polynomial ℝ) (hP : ∀ i ∈ s, (P i).natDegree ≤ 2 * k + 1)
    (hQ : ∀ i ∈ s, (Q i).natDegree ≤ 2 * l + 1) :
    quad2 a b c d k l (fun x y => ∑ i ∈ s, (P i).eval x * (Q i).eval y) =
      ∫ x in a..b, ∫ y in c..d, ∑ i ∈ s, (P i).eval x * (Q i).eval y := by
  have hin : ∀ x, ∫ y in c..d, ∑ i ∈ s, (P i).eval x * (Q i).eval y = ∑ i ∈ s, (P i).eval x * ∫ y in c..d, (Q i).eval y := by
    intro x
    rw [intervalIntegral.integral_finset_sum]
    · exact sum_congr rfl fun i _ => intervalIntegral.integral_const_mul _ _
    · intro i _
      exact (continuous_const.mul (Q i).continuous).intervalIntegrable _ _
  simp only [hin, quad2, quad1_sum, quad1_mul]
  rw [intervalIntegral.integral_finset_sum]
  · refine sum_congr rfl fun i hi => ?_
    rw [intervalIntegral.integral_mul_const, ← quad1_poly a b k (P i) (hP i hi), quad1_poly c d l (Q i) (hQ i hi), mul_comm, ← quad1_mul]
    congr 1
    funext x
    ring
  · intro i _
    exact ((P i).continuous.mul continuous_const).intervalIntegrable _ _

theorem quad2_close {a b c d : ℝ} (hab : a ≤ b) (hcd : c ≤ d) (k l : ℕ) {f g : ℝ → ℝ → ℝ} {ε : ℝ}
    (h : ∀ x ∈ Set.Icc a b, ∀ y ∈ Set.Icc c d, |f x y - g x y| ≤ ε) :
    |quad2 a b c d k l f - quad2 a b c d k l g| ≤ (b - a) * (d - c) * ε := by
  have := quad1_close hab k (f := fun x => quad1 c d l (f x)) (g := fun x => quad1 c d l (g x)) fun x hx => quad1_close hcd l (h x hx)
  rw [mul_assoc]
  exact this

theorem integral2_close {a b c d : ℝ} (hab : a ≤ b) (hcd : c ≤ d) {f g : ℝ → ℝ → ℝ} {ε : ℝ}
    (hf : ContinuousOn (Function.uncurry f) (Set.Icc a b ×ˢ Set.Icc c d)) (hg : ContinuousOn (Function.uncurry g) (Set.Icc a b ×ˢ Set.Icc c d))
    (h : ∀ x ∈ Set.Icc a b, ∀ y ∈ Set.Icc c d, |f x y - g x y| ≤ ε) :
    |(∫ x in a..b, ∫ y in c..d, f x y) - ∫ x in a..b, ∫ y in c..d, g x y| ≤ (b - a) * (d - c) * ε := by
  rw [mul_assoc]
  exact integral_close hab (inner_cont hcd hf) (inner_cont hcd hg) fun x hx =>
    integral_close hcd (section_cont hf hx) (section_cont hg hx) (h x hx)

end FreeGS.GS
