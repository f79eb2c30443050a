import Verif.Model.Quadrature
import Verif.Spec.Quadrature
import Verif.Lemmas.Convex

set_option linter.unusedSectionVars false

namespace FreeGS.Quadrature

open FreeGS.Spec FreeGS.Polygons MeasureTheory

/-! ### Integrals over the reference triangle -/

theorem integral_pow_mul_one_sub (i k : ℕ) :
    ∫ u in (0 : ℝ)..1, u ^ i * (1 - u) ^ k = (i.factorial * k.factorial : ℝ) / (i + k + 1).factorial := by
  induction k generalizing i with
  | zero =>
    simp only [pow_zero, mul_one, integral_pow, Nat.factorial_zero, Nat.cast_one]
    rw [Nat.add_zero, Nat.factorial_succ]
    have : (i.factorial : ℝ) ≠ 0 := by positivity
    push_cast
    field_simp
    simp
  | succ k ih =>
    have hd : ∀ u : ℝ, HasDerivAt (fun u : ℝ => u ^ (i + 1) * (1 - u) ^ (k + 1))
        ((i + 1 : ℝ) * (u ^ i * (1 - u) ^ (k + 1)) - (k + 1 : ℝ) * (u ^ (i + 1) * (1 - u) ^ k)) u := by
      intro u
      have h1 : HasDerivAt (fun u : ℝ => u ^ (i + 1)) (((i + 1 : ℕ) : ℝ) * u ^ i) u := by
        simpa using hasDerivAt_pow (i + 1) u
      have h2 : HasDerivAt (fun u : ℝ => (1 - u) ^ (k + 1)) (((k + 1 : ℕ) : ℝ) * (1 - u) ^ k * -1) u := by
        have h3 : HasDerivAt (fun u : ℝ => 1 - u) (-1) u := by
          simpa using (hasDerivAt_id u).const_sub 1
        simpa using h3.fun_pow (k + 1)
      refine (h1.mul h2).congr_deriv ?_
      push_cast; ring
    have hint := intervalIntegral.integral_eq_sub_of_hasDerivAt (a := 0) (b := 1) (fun u _ => hd u)
      (Continuous.intervalIntegrable (by fun_prop) _ _)
    rw [intervalIntegral.integral_sub (Continuous.intervalIntegrable (by fun_prop) _ _)
      (Continuous.intervalIntegrable (by fun_prop) _ _), intervalIntegral.integral_const_mul,
      intervalIntegral.integral_const_mul, ih] at hint
    simp only [sub_self, ne_eq, Nat.add_eq_zero_iff, one_ne_zero, and_false, not_false_eq_true, zero_pow,
      mul_zero, zero_mul] at hint
    have h1 : (i + 1 : ℝ) ≠ 0 := by positivity
    have h2 : ∫ u in (0 : ℝ)..1, u ^ i * (1 - u) ^ (k + 1) =
        (k + 1 : ℝ) / (i + 1) * (((i + 1).factorial * k.factorial : ℝ) / (i + 1 + k + 1).factorial) := by
      rw [div_mul_eq_mul_div, eq_div_iff h1]
      linarith
    rw [h2, show i + (k + 1) + 1 = i + 1 + k + 1 by ring, Nat.factorial_succ i, Nat.factorial_succ k]
    push_cast
    field_simp

theorem integral_poly (d : ℕ) (c : ℕ → ℕ → ℝ) :
    ∫ u in (0 : ℝ)..1, ∫ v in (0 : ℝ)..(1 - u), poly d c u v =
      ∑ i ∈ Finset.range (d + 1), ∑ j ∈ Finset.range (d + 1 - i),
        c i j * ((i.factorial * j.factorial : ℝ) / (i + j + 2).factorial) := by
  have inner : ∀ u : ℝ, ∫ v in (0 : ℝ)..(1 - u), poly d c u v =
      ∑ i ∈ Finset.range (d + 1), ∑ j ∈ Finset.range (d + 1 - i),
        c i j / (j + 1) * (u ^ i * (1 - u) ^ (j + 1)) := by
    intro u
    simp only [poly]
    rw [intervalIntegral.integral_finsetSum (fun i _ => Continuous.intervalIntegrable (by fun_prop) _ _)]
    refine Finset.sum_congr rfl fun i _ => ?_
    rw [intervalIntegral.integral_finsetSum (fun j _ => Continuous.intervalIntegrable (by fun_prop) _ _)]
    refine Finset.sum_congr rfl fun j _ => ?_
    rw [intervalIntegral.integral_const_mul, intervalIntegral.integral_const_mul, integral_pow]
    simp only [ne_eq, Nat.add_eq_zero_iff, one_ne_zero, and_false, not_false_eq_true, zero_pow, sub_zero]
    ring
  simp only [inner]
  rw [intervalIntegral.integral_finsetSum (fun i _ => Continuous.intervalIntegrable (by fun_prop) _ _)]
  refine Finset.sum_congr rfl fun i _ => ?_
  rw [intervalIntegral.integral_finsetSum (fun j _ => Continuous.intervalIntegrable (by fun_prop) _ _)]
  refine Finset.sum_congr rfl fun j _ => ?_
  rw [intervalIntegral.integral_const_mul, integral_pow_mul_one_sub, Nat.factorial_succ j]
  rw [show i + (j + 1) + 1 = i + j + 2 by ring]
  push_cast
  field_simp

theorem meanTri_of_poly (P1 P2 P3 : ℝ × ℝ) (f : ℝ → ℝ → ℝ) (d : ℕ) (c : ℕ → ℕ → ℝ)
    (hf : ∀ u v, f (P1.1 + u * (P2.1 - P1.1) + v * (P3.1 - P1.1))
      (P1.2 + u * (P2.2 - P1.2) + v * (P3.2 - P1.2)) = poly d c u v) :
    meanTri P1 P2 P3 f = ∑ i ∈ Finset.range (d + 1), ∑ j ∈ Finset.range (d + 1 - i),
        c i j * (2 * (i.factorial * j.factorial : ℝ) / (i + j + 2).factorial) := by
  simp only [meanTri, hf, integral_poly, Finset.mul_sum]
  refine Finset.sum_congr rfl fun i _ => Finset.sum_congr rfl fun j _ => by ring

/-! ### Polynomials under affine substitution -/

/-- Polynomial functions of degree at most `d`. -/
def IsPoly (d : ℕ) (f : ℝ → ℝ → ℝ) : Prop := ∃ c, ∀ x y, f x y = poly d c x y

theorem poly_zero (d : ℕ) (x y : ℝ) : poly d (fun _ _ => 0) x y = 0 := by simp [poly]

theorem isPoly_add {d : ℕ} {f g : ℝ → ℝ → ℝ} (hf : IsPoly d f) (hg : IsPoly d g) :
    IsPoly d fun x y => f x y + g x y := by
  obtain ⟨c, hc⟩ := hf
  obtain ⟨e, he⟩ := hg
  refine ⟨fun i j => c i j + e i j, fun x y => ?_⟩
  simp only [hc, he, poly, add_mul, Finset.sum_add_distrib]

theorem isPoly_smul {d : ℕ} {f : ℝ → ℝ → ℝ} (k : ℝ) (hf : IsPoly d f) :
    IsPoly d fun x y => k * f x y := by
  obtain ⟨c, hc⟩ := hf
  refine ⟨fun i j => k * c i j, fun x y => ?_⟩
  simp only [hc, poly, Finset.mul_sum, mul_assoc]

theorem isPoly_zero (d : ℕ) : IsPoly d fun _ _ => 0 := ⟨fun _ _ => 0, fun x y => (poly_zero d x y).symm⟩

theorem isPoly_sum {ι : Type*} {d : ℕ} (s : Finset ι) (f : ι → ℝ → ℝ → ℝ) (h : ∀ i ∈ s, IsPoly d (f i)) :
    IsPoly d fun x y => ∑ i ∈ s, f i x y := by
  classical
  induction s using Finset.induction_on with
  | empty => simpa using isPoly_zero d
  | insert a s ha ih =>
    simp only [Finset.sum_insert ha]
    exact isPoly_add (h a (by simp)) (ih fun i hi => h i (by simp [hi]))

theorem isPoly_monomial {d i j : ℕ} (h : i + j ≤ d) : IsPoly d fun x y => x ^ i * y ^ j := by
  refine ⟨fun a b => if a = i ∧ b = j then 1 else 0, fun x y => ?_⟩
  rw [poly, Finset.sum_eq_single i, Finset.sum_eq_single j]
  · simp
  · intro b _ hb; simp [hb]
  · intro hb; exact absurd (Finset.mem_range.2 (by omega)) hb
  · intro b _ hb; refine Finset.sum_eq_zero fun k _ => by simp [hb]
  · intro hb; exact absurd (Finset.mem_range.2 (by omega)) hb

theorem isPoly_mono {d e : ℕ} (h : d ≤ e) {f : ℝ → ℝ → ℝ} (hf : IsPoly d f) : IsPoly e f := by
  obtain ⟨c, hc⟩ := hf
  have : f = fun x y => ∑ i ∈ Finset.range (d + 1), ∑ j ∈ Finset.range (d + 1 - i),
      c i j * (x ^ i * y ^ j) := by funext x y; exact hc x y
  rw [this]
  refine isPoly_sum _ _ fun i hi => isPoly_sum _ _ fun j hj => isPoly_smul _ (isPoly_monomial ?_)
  rw [Finset.mem_range] at hi hj; omega

theorem isPoly_mul_affine {d : ℕ} {f : ℝ → ℝ → ℝ} (a b c : ℝ) (hf : IsPoly d f) :
    IsPoly (d + 1) fun x y => (a + x * b + y * c) * f x y := by
  obtain ⟨e, he⟩ := hf
  have : (fun x y => (a + x * b + y * c) * f x y) = fun x y =>
      ∑ i ∈ Finset.range (d + 1), ∑ j ∈ Finset.range (d + 1 - i),
        (a * e i j * (x ^ i * y ^ j) + (b * e i j * (x ^ (i + 1) * y ^ j) +
          c * e i j * (x ^ i * y ^ (j + 1)))) := by
    funext x y
    simp only [he, poly, Finset.mul_sum]
    refine Finset.sum_congr rfl fun i _ => Finset.sum_congr rfl fun j _ => by ring
  rw [this]
  refine isPoly_sum _ _ fun i hi => isPoly_sum _ _ fun j hj => ?_
  rw [Finset.mem_range] at hi hj
  exact isPoly_add (isPoly_smul _ (isPoly_monomial (by omega)))
    (isPoly_add (isPoly_smul _ (isPoly_monomial (by omega))) (isPoly_smul _ (isPoly_monomial (by omega))))

theorem isPoly_affine_monomial (a b c a' b' c' : ℝ) (i j : ℕ) :
    IsPoly (i + j) fun x y => (a + x * b + y * c) ^ i * (a' + x * b' + y * c') ^ j := by
  induction i with
  | zero =>
    induction j with
    | zero => simpa using isPoly_monomial (d := 0) (i := 0) (j := 0) le_rfl
    | succ j ih =>
      have := isPoly_mul_affine a' b' c' ih
      refine (by simpa [pow_succ, mul_comm, mul_assoc, mul_left_comm] using this)
  | succ i ih =>
    have := isPoly_mul_affine a b c ih
    rw [show i + 1 + j = i + j + 1 by ring]
    have e : (fun x y : ℝ => (a + x * b + y * c) ^ (i + 1) * (a' + x * b' + y * c') ^ j) =
        fun x y => (a + x * b + y * c) * ((a + x * b + y * c) ^ i * (a' + x * b' + y * c') ^ j) := by
      funext x y; ring
    rw [e]; exact this

/-- A polynomial of degree at most `d` in `(r, z)` is one in the affine coordinates of a triangle. -/
theorem poly_affine (d : ℕ) (k : ℕ → ℕ → ℝ) (P1 P2 P3 : ℝ × ℝ) :
    ∃ c, ∀ u v, poly d k (P1.1 + u * (P2.1 - P1.1) + v * (P3.1 - P1.1))
      (P1.2 + u * (P2.2 - P1.2) + v * (P3.2 - P1.2)) = poly d c u v := by
  have : IsPoly d fun u v => poly d k (P1.1 + u * (P2.1 - P1.1) + v * (P3.1 - P1.1))
      (P1.2 + u * (P2.2 - P1.2) + v * (P3.2 - P1.2)) := by
    simp only [poly]
    refine isPoly_sum _ _ fun i hi => isPoly_sum _ _ fun j hj => isPoly_smul _ ?_
    rw [Finset.mem_range] at hi hj
    exact isPoly_mono (by omega) (isPoly_affine_monomial _ _ _ _ _ _ i j)
  exact this

end FreeGS.Quadrature
