import Verif.Lemmas.GreensPhysics
import Verif.Lemmas.Vacuum
import Verif.Lemmas.Forces

/-!
# Lemmas: the flux of a filament falls with the distance in height
-/

set_option linter.unusedSectionVars false

namespace FreeGS

open Real intervalIntegral Set

/-- The shape of the flux as a function of the inverse elliptic parameter. -/
noncomputable def fluxShape (x : ℝ) : ℝ := ∫ θ in (0 : ℝ)..(π / 2), (2 * sin θ ^ 2 - 1) / √(x - sin θ ^ 2)

theorem fluxRoot_pos {x : ℝ} (hx : 1 < x) (θ : ℝ) : 0 < x - sin θ ^ 2 := by
  have := sin_sq_le_one θ
  linarith

theorem continuous_fluxShape {x : ℝ} (hx : 1 < x) : Continuous fun θ : ℝ => (2 * sin θ ^ 2 - 1) / √(x - sin θ ^ 2) := by
  refine Continuous.div (by fun_prop) (by fun_prop) fun θ => ?_
  exact (sqrt_pos.mpr (fluxRoot_pos hx θ)).ne'

/-- The increase of `1/√a` when `a` becomes smaller by `d` is the larger the smaller `a` is. -/
theorem inv_sqrt_step {a b d : ℝ} (hd : 0 ≤ d) (ha : d < a) (hab : a < b) :
    1 / √(b - d) - 1 / √b ≤ 1 / √(a - d) - 1 / √a := by
  have key : ∀ c, d < c → 1 / √(c - d) - 1 / √c = d / (√c * √(c - d) * (√c + √(c - d))) := by
    intro c hc
    have h1 : 0 < √c := sqrt_pos.mpr (by linarith)
    have h2 : 0 < √(c - d) := sqrt_pos.mpr (by linarith)
    have e1 : √c ^ 2 = c := sq_sqrt (by linarith)
    have e2 : √(c - d) ^ 2 = c - d := sq_sqrt (by linarith)
    field_simp
    nlinarith
  rw [key a ha, key b (by linarith)]
  have p1 : 0 < √a := sqrt_pos.mpr (by linarith)
  have p2 : 0 < √(a - d) := sqrt_pos.mpr (by linarith)
  have q1 : √a ≤ √b := sqrt_le_sqrt hab.le
  have q2 : √(a - d) ≤ √(b - d) := sqrt_le_sqrt (by linarith)
  refine div_le_div_of_nonneg_left hd (by positivity) ?_
  gcongr

theorem inv_sqrt_step_lt {a b d : ℝ} (hd : 0 < d) (ha : d < a) (hab : a < b) :
    1 / √(b - d) - 1 / √b < 1 / √(a - d) - 1 / √a := by
  have key : ∀ c, d < c → 1 / √(c - d) - 1 / √c = d / (√c * √(c - d) * (√c + √(c - d))) := by
    intro c hc
    have h1 : 0 < √c := sqrt_pos.mpr (by linarith)
    have h2 : 0 < √(c - d) := sqrt_pos.mpr (by linarith)
    have e1 : √c ^ 2 = c := sq_sqrt (by linarith)
    have e2 : √(c - d) ^ 2 = c - d := sq_sqrt (by linarith)
    field_simp
    nlinarith
  rw [key a ha, key b (by linarith)]
  have p1 : 0 < √a := sqrt_pos.mpr (by linarith)
  have p2 : 0 < √(a - d) := sqrt_pos.mpr (by linarith)
  have q1 : √a < √b := sqrt_lt_sqrt (by linarith) hab
  have q2 : √(a - d) < √(b - d) := sqrt_lt_sqrt (by linarith) (by linarith)
  refine div_lt_div_of_pos_left hd (by positivity) ?_
  gcongr

theorem fluxShape_lt {x y : ℝ} (hx : 1 < x) (hxy : x < y) : fluxShape y < fluxShape x := by
  have hy : 1 < y := by linarith
  -- the mean value of `2 sin² - 1` is zero
  set f : ℝ → ℝ := fun t => 1 / √(x - t) - 1 / √(y - t) with hf
  have mono : ∀ {s t : ℝ}, s ≤ t → t ≤ 1 → f s ≤ f t := by
    intro s t hst ht
    have h := inv_sqrt_step (a := x - s) (b := y - s) (d := t - s) (by linarith) (by linarith) (by linarith)
    rw [show x - s - (t - s) = x - t by ring, show y - s - (t - s) = y - t by ring] at h
    simp only [hf]; linarith
  have strict : f 0 < f (1 / 2) := by
    have h := inv_sqrt_step_lt (a := x - 0) (b := y - 0) (d := 1 / 2) (by norm_num) (by linarith) (by linarith)
    rw [show x - 0 - (1 / 2 : ℝ) = x - 1 / 2 by ring, show y - 0 - (1 / 2 : ℝ) = y - 1 / 2 by ring] at h
    simp only [hf]; linarith
  have hz : ∫ θ in (0 : ℝ)..(π / 2), (2 * sin θ ^ 2 - 1) * f (1 / 2) = 0 := by
    rw [integral_mul_const, integral_sub, integral_const_mul, integral_sin_sq]
    · simp only [sin_zero, cos_zero, sin_pi_div_two, cos_pi_div_two]
      simp only [integral_const, smul_eq_mul]
      ring
    · exact (Continuous.intervalIntegrable (by fun_prop) _ _)
    · exact (Continuous.intervalIntegrable (by fun_prop) _ _)
  have cf : Continuous fun θ : ℝ => (2 * sin θ ^ 2 - 1) * f (sin θ ^ 2) := by
    have := (continuous_fluxShape hx).sub (continuous_fluxShape hy)
    refine this.congr fun θ => ?_
    simp only [hf, Pi.sub_apply]; ring
  have hdiff : fluxShape x - fluxShape y = ∫ θ in (0 : ℝ)..(π / 2), (2 * sin θ ^ 2 - 1) * f (sin θ ^ 2) := by
    rw [fluxShape, fluxShape, ← integral_sub ((continuous_fluxShape hx).intervalIntegrable _ _) ((continuous_fluxShape hy).intervalIntegrable _ _)]
    refine integral_congr fun θ _ => ?_
    simp only [hf]; ring
  have hpos : 0 < ∫ θ in (0 : ℝ)..(π / 2), (2 * sin θ ^ 2 - 1) * f (sin θ ^ 2) := by
    refine lt_of_eq_of_lt hz.symm ?_
    refine integral_lt_integral_of_continuousOn_of_le_of_exists_lt (by positivity) (by fun_prop) cf.continuousOn (fun θ _ => ?_) ?_
    · have h1 := sin_sq_le_one θ
      rcases le_total (1 / 2) (sin θ ^ 2) with h | h
      · exact mul_le_mul_of_nonneg_left (mono h h1) (by linarith)
      · exact mul_le_mul_of_nonpos_left (mono h (by norm_num)) (by linarith)
    · refine ⟨0, ⟨le_refl _, by positivity⟩, ?_⟩
      simp only [sin_zero, ne_eq, OfNat.ofNat_ne_zero, not_false_eq_true, zero_pow, mul_zero, zero_sub]
      linarith
  linarith

theorem fluxShape_le {x y : ℝ} (hx : 1 < x) (hxy : x ≤ y) : fluxShape y ≤ fluxShape x := by
  rcases hxy.lt_or_eq with h | rfl
  · exact (fluxShape_lt hx h).le
  · exact le_rfl

/-- The elliptic parameter used by `Greens`. -/
noncomputable def modulus (Rc Zc R Z : ℝ) : ℝ := 4 * R * Rc / ((R + Rc) ^ 2 + (Z - Zc) ^ 2)

noncomputable def clipped (Rc Zc R Z : ℝ) : ℝ := clip (modulus Rc Zc R Z) 1e-10 (1 - 1e-10)

theorem clipped_range (Rc Zc R Z : ℝ) : 0 < clipped Rc Zc R Z ∧ clipped Rc Zc R Z < 1 := by
  rw [clipped, clip]
  exact ⟨lt_min (lt_of_lt_of_le (by norm_num) (le_max_right _ _)) (by norm_num), lt_of_le_of_lt (min_le_right _ _) (by norm_num)⟩

theorem greens_shape (Rc Zc R Z : ℝ) :
    greens ellipticK ellipticE Rc Zc R Z = mu0 / (2 * π) * √(R * Rc) * fluxShape (1 / clipped Rc Zc R Z) := by
  obtain ⟨h0, h1⟩ := clipped_range Rc Zc R Z
  have hm : clip (4 * R * Rc / ((R + Rc) ^ 2 + (Z - Zc) ^ 2)) 1e-10 (1 - 1e-10) = clipped Rc Zc R Z := rfl
  simp only [greens, hm]
  generalize clipped Rc Zc R Z = m at h0 h1
  rw [elliptic_comb h0 h1]
  have hs : 0 < √m := sqrt_pos.mpr h0
  have e : fluxShape (1 / m) = √m * ∫ θ in (0 : ℝ)..(π / 2), (2 * sin θ ^ 2 - 1) / √(1 - m * sin θ ^ 2) := by
    rw [fluxShape, ← integral_const_mul]
    refine integral_congr fun θ _ => ?_
    have hp := one_sub_pos h0.le h1 θ
    have : √(1 / m - sin θ ^ 2) = √(1 - m * sin θ ^ 2) / √m := by
      rw [← sqrt_div hp.le]; congr 1; field_simp
    rw [this]
    have := sqrt_pos.mpr hp
    field_simp
  rw [e]
  have e2 : √m * √m = m := mul_self_sqrt h0.le
  generalize (∫ θ in (0 : ℝ)..(π / 2), (2 * sin θ ^ 2 - 1) / √(1 - m * sin θ ^ 2)) = I
  rw [div_eq_iff hs.ne']
  linear_combination (-(mu0 / (2 * π) * √(R * Rc) * I)) * e2

theorem modulus_le {Rc Zc R Z Z' : ℝ} (hR : 0 < R) (hRc : 0 < Rc) (h : |Z - Zc| ≤ |Z' - Zc|) : modulus Rc Zc R Z' ≤ modulus Rc Zc R Z := by
  have := sq_le_sq.mpr h
  refine div_le_div_of_nonneg_left (by positivity) (by positivity) (by linarith)

theorem modulus_lt {Rc Zc R Z Z' : ℝ} (hR : 0 < R) (hRc : 0 < Rc) (h : |Z - Zc| < |Z' - Zc|) : modulus Rc Zc R Z' < modulus Rc Zc R Z := by
  have := sq_lt_sq.mpr h
  refine div_lt_div_of_pos_left (by positivity) (by positivity) (by linarith)

theorem greens_falls {Rc Zc R Z Z' : ℝ} (hR : 0 < R) (hRc : 0 < Rc) (h : |Z - Zc| ≤ |Z' - Zc|) :
    greens ellipticK ellipticE Rc Zc R Z' ≤ greens ellipticK ellipticE Rc Zc R Z := by
  rw [greens_shape, greens_shape]
  have hmu : 0 < mu0 := by unfold mu0; have := pi_pos; positivity
  have hp := pi_pos
  obtain ⟨a0, a1⟩ := clipped_range Rc Zc R Z
  obtain ⟨b0, b1⟩ := clipped_range Rc Zc R Z'
  have hc : clipped Rc Zc R Z' ≤ clipped Rc Zc R Z := by
    simp only [clipped, clip]
    exact min_le_min_right _ (max_le_max_right _ (modulus_le hR hRc h))
  refine mul_le_mul_of_nonneg_left (fluxShape_le ?_ ?_) (by positivity)
  · rwa [lt_div_iff₀ a0, one_mul]
  · exact one_div_le_one_div_of_le b0 hc

theorem greens_falls_strictly {Rc Zc R Z Z' : ℝ} (hR : 0 < R) (hRc : 0 < Rc) (h : |Z - Zc| < |Z' - Zc|) (h1 : 1e-10 < modulus Rc Zc R Z)
    (h2 : modulus Rc Zc R Z' < 1 - 1e-10) :
    greens ellipticK ellipticE Rc Zc R Z' < greens ellipticK ellipticE Rc Zc R Z := by
  rw [greens_shape, greens_shape]
  have hmu : 0 < mu0 := by unfold mu0; have := pi_pos; positivity
  have hp := pi_pos
  obtain ⟨a0, a1⟩ := clipped_range Rc Zc R Z
  obtain ⟨b0, b1⟩ := clipped_range Rc Zc R Z'
  have hm := modulus_lt hR hRc h
  have hc : clipped Rc Zc R Z' < clipped Rc Zc R Z := by
    simp only [clipped, clip]
    refine lt_min (lt_of_le_of_lt (min_le_left _ _) ?_) (lt_of_le_of_lt (min_le_left _ _) ?_)
    · exact max_lt (lt_of_lt_of_le hm (le_max_left _ _)) (lt_of_lt_of_le h1 (le_max_left _ _))
    · exact max_lt h2 (by norm_num)
  refine mul_lt_mul_of_pos_left (fluxShape_lt ?_ ?_) (by positivity)
  · rwa [lt_div_iff₀ a0, one_mul]
  · exact one_div_lt_one_div_of_lt b0 hc

end FreeGS
