import Verif.Spec.Greens
import Mathlib.Analysis.Calculus.ParametricIntervalIntegral
import Mathlib.Analysis.SpecialFunctions.Sqrt
import Mathlib.Analysis.SpecialFunctions.Trigonometric.Deriv
import Mathlib.MeasureTheory.Integral.IntervalIntegral.FundThmCalculus
import Mathlib.MeasureTheory.Integral.IntervalIntegral.IntegrationByParts
import Mathlib.Analysis.SpecialFunctions.Integrals.Basic

set_option linter.unusedSectionVars false

namespace FreeGS

open Real intervalIntegral Set

/-! ## Elliptic integrals -/

theorem one_sub_pos {m : ℝ} (h0 : 0 ≤ m) (h1 : m < 1) (θ : ℝ) : 0 < 1 - m * sin θ ^ 2 := by
  have h2 : sin θ ^ 2 ≤ 1 := sin_sq_le_one θ
  have h3 : 0 ≤ sin θ ^ 2 := sq_nonneg _
  nlinarith

theorem continuous_root {m : ℝ} : Continuous fun θ : ℝ => √(1 - m * sin θ ^ 2) := by fun_prop

theorem continuous_inv_root {m : ℝ} (h0 : 0 ≤ m) (h1 : m < 1) :
    Continuous fun θ : ℝ => 1 / √(1 - m * sin θ ^ 2) := by
  refine continuous_const.div continuous_root fun θ => ?_
  exact (sqrt_pos.mpr (one_sub_pos h0 h1 θ)).ne'

/-- The combination of elliptic integrals in `Greens`. -/
theorem elliptic_comb {m : ℝ} (h0 : 0 < m) (h1 : m < 1) :
    (2 - m) * ellipticK m - 2 * ellipticE m =
      m * ∫ θ in (0 : ℝ)..(π / 2), (2 * sin θ ^ 2 - 1) / √(1 - m * sin θ ^ 2) := by
  rw [ellipticK, ellipticE, ← integral_const_mul, ← integral_const_mul, ← integral_const_mul, ← integral_sub]
  · refine integral_congr fun θ _ => ?_
    have hp := one_sub_pos h0.le h1 θ
    have hs := sqrt_pos.mpr hp
    have hq := sq_sqrt hp.le
    field_simp
    rw [hq]; ring
  · exact ((continuous_inv_root h0.le h1).const_mul _).intervalIntegrable _ _
  · exact (continuous_root.const_mul _).intervalIntegrable _ _

theorem integral_even' {f : ℝ → ℝ} (hf : Continuous f) (h : ∀ x, f (-x) = f x) (a : ℝ) :
    ∫ x in (-a)..a, f x = 2 * ∫ x in (0 : ℝ)..a, f x := by
  rw [← integral_add_adjacent_intervals (hf.intervalIntegrable (-a) 0) (hf.intervalIntegrable 0 a)]
  have := integral_comp_neg (a := 0) (b := a) f
  simp only [h, neg_zero] at this
  rw [← this]; ring

theorem sourceDist_sq (Rc Zc R Z φ : ℝ) :
    (R - Rc * cos φ) ^ 2 + (Rc * sin φ) ^ 2 + (Z - Zc) ^ 2 =
      R ^ 2 + Rc ^ 2 + (Z - Zc) ^ 2 - 2 * R * Rc * cos φ := by
  have := sin_sq_add_cos_sq φ
  linear_combination Rc ^ 2 * this

/-- The flux integral in terms of the elliptic parameter. -/
theorem flux_integral (Rc Zc R Z : ℝ) (hR : 0 < R) (hRc : 0 < Rc)
    (h1 : 4 * R * Rc / ((R + Rc) ^ 2 + (Z - Zc) ^ 2) < 1) :
    ∫ φ in (0 : ℝ)..(2 * π), Rc * cos φ / sourceDist Rc Zc R Z φ =
      4 * Rc / √((R + Rc) ^ 2 + (Z - Zc) ^ 2) *
        ∫ θ in (0 : ℝ)..(π / 2), (2 * sin θ ^ 2 - 1) /
          √(1 - 4 * R * Rc / ((R + Rc) ^ 2 + (Z - Zc) ^ 2) * sin θ ^ 2) := by
  set D2 := (R + Rc) ^ 2 + (Z - Zc) ^ 2 with hD2
  set m := 4 * R * Rc / D2 with hm
  have hDp : 0 < D2 := by positivity
  have hm0 : 0 < m := by positivity
  have hsub := integral_comp_sub_mul (a := -(π / 2)) (b := π / 2) (fun φ => Rc * cos φ / sourceDist Rc Zc R Z φ)
    (c := 2) two_ne_zero π
  rw [show π - 2 * (π / 2) = 0 by ring, show π - 2 * (-(π / 2)) = 2 * π by ring] at hsub
  have hint : (∫ φ in (0 : ℝ)..(2 * π), Rc * cos φ / sourceDist Rc Zc R Z φ) =
      2 * ∫ x in (-(π / 2))..(π / 2), Rc * cos (π - 2 * x) / sourceDist Rc Zc R Z (π - 2 * x) := by
    rw [hsub, smul_eq_mul]; ring
  rw [hint]
  have hpt : ∀ x, Rc * cos (π - 2 * x) / sourceDist Rc Zc R Z (π - 2 * x) =
      Rc / √D2 * ((2 * sin x ^ 2 - 1) / √(1 - m * sin x ^ 2)) := by
    intro x
    have hc : cos (π - 2 * x) = 2 * sin x ^ 2 - 1 := by
      rw [cos_pi_sub, cos_two_mul]
      have := sin_sq_add_cos_sq x
      linarith
    have hd : sourceDist Rc Zc R Z (π - 2 * x) = √D2 * √(1 - m * sin x ^ 2) := by
      rw [sourceDist, sourceDist_sq, hc, ← sqrt_mul hDp.le]
      congr 1
      rw [hm]
      field_simp
      rw [hD2]; ring
    rw [hd, hc]
    have := sqrt_pos.mpr hDp
    have := sqrt_pos.mpr (one_sub_pos hm0.le h1 x)
    field_simp
  simp only [hpt]
  rw [integral_const_mul, integral_even' _ (by intro x; simp)]
  · ring
  · refine Continuous.div (by fun_prop) continuous_root fun θ => ?_
    exact (sqrt_pos.mpr (one_sub_pos hm0.le h1 θ)).ne'

theorem greens_eq_flux (Rc Zc R Z : ℝ) (hR : 0 < R) (hRc : 0 < Rc) (hu : Unclipped Rc Zc R Z) :
    greens ellipticK ellipticE Rc Zc R Z = filamentFlux Rc Zc R Z := by
  obtain ⟨hu1, hu2⟩ := hu
  have hlt : 4 * R * Rc / ((R + Rc) ^ 2 + (Z - Zc) ^ 2) < 1 := by
    refine lt_of_le_of_lt hu2 ?_; norm_num
  rw [filamentFlux, flux_integral Rc Zc R Z hR hRc hlt]
  simp only [greens]
  have hclip : clip (4 * R * Rc / ((R + Rc) ^ 2 + (Z - Zc) ^ 2)) 1e-10 (1 - 1e-10) =
      4 * R * Rc / ((R + Rc) ^ 2 + (Z - Zc) ^ 2) := by
    rw [clip, max_eq_left hu1, min_eq_left hu2]
  rw [hclip]
  set D2 := (R + Rc) ^ 2 + (Z - Zc) ^ 2 with hD2
  have hDp : 0 < D2 := by positivity
  have hm0 : 0 < 4 * R * Rc / D2 := by positivity
  rw [elliptic_comb hm0 hlt]
  set I := ∫ θ in (0 : ℝ)..(π / 2), (2 * sin θ ^ 2 - 1) / √(1 - 4 * R * Rc / D2 * sin θ ^ 2)
  have hk : √(4 * R * Rc / D2) = 2 * √(R * Rc) / √D2 := by
    rw [sqrt_div (by positivity), show 4 * R * Rc = 2 ^ 2 * (R * Rc) by ring, sqrt_mul (by norm_num),
      sqrt_sq (by norm_num)]
  rw [hk]
  have hs := sqrt_pos.mpr hDp
  have hq := sqrt_pos.mpr (mul_pos hR hRc)
  have hs2 := sq_sqrt hDp.le
  have hpi := pi_pos
  field_simp
  rw [hs2]; ring

theorem comb_pos {m : ℝ} (h0 : 0 < m) (h1 : m < 1) :
    0 < ∫ θ in (0 : ℝ)..(π / 2), (2 * sin θ ^ 2 - 1) / √(1 - m * sin θ ^ 2) := by
  have hz : ∫ θ in (0 : ℝ)..(π / 2), (2 * sin θ ^ 2 - 1) / √(1 - m / 2) = 0 := by
    rw [integral_div, integral_sub, integral_const_mul, integral_sin_sq]
    · simp only [sin_zero, cos_zero, sin_pi_div_two, cos_pi_div_two]
      simp only [integral_const, smul_eq_mul]
      ring
    · exact (Continuous.intervalIntegrable (by fun_prop) _ _)
    · exact (Continuous.intervalIntegrable (by fun_prop) _ _)
  have hle : ∀ θ : ℝ, (2 * sin θ ^ 2 - 1) / √(1 - m / 2) ≤ (2 * sin θ ^ 2 - 1) / √(1 - m * sin θ ^ 2) := by
    intro θ
    have hp := one_sub_pos h0.le h1 θ
    have hp2 : 0 < 1 - m / 2 := by linarith
    rcases le_total 0 (2 * sin θ ^ 2 - 1) with h | h
    · refine div_le_div_of_nonneg_left h (sqrt_pos.mpr hp) (sqrt_le_sqrt ?_)
      nlinarith
    · have h2 : √(1 - m / 2) ≤ √(1 - m * sin θ ^ 2) := sqrt_le_sqrt (by nlinarith)
      have h3 := one_div_le_one_div_of_le (sqrt_pos.mpr hp2) h2
      rw [div_eq_mul_one_div, div_eq_mul_one_div (_ - 1) √(1 - m * sin θ ^ 2)]
      exact mul_le_mul_of_nonpos_left h3 h
  refine lt_of_eq_of_lt hz.symm ?_
  refine integral_lt_integral_of_continuousOn_of_le_of_exists_lt (by positivity) ?_ ?_ (fun θ _ => hle θ) ?_
  · fun_prop
  · refine ContinuousOn.div (by fun_prop) continuous_root.continuousOn fun θ _ => ?_
    exact (sqrt_pos.mpr (one_sub_pos h0.le h1 θ)).ne'
  · refine ⟨0, ⟨le_refl _, by positivity⟩, ?_⟩
    have hp2 : 0 < 1 - m / 2 := by linarith
    have : 1 < 1 / √(1 - m / 2) := by
      rw [lt_div_iff₀ (sqrt_pos.mpr hp2), one_mul]
      rw [sqrt_lt' one_pos]; linarith
    simp only [sin_zero, ne_eq, OfNat.ofNat_ne_zero, not_false_eq_true, zero_pow, mul_zero, zero_sub, sub_zero,
      sqrt_one, div_one]
    rw [neg_div]; linarith

/-! ## Derivatives under the integral sign -/

/-- Differentiation under the integral for a jointly continuous derivative. -/
theorem hasDerivAt_integral_param {F F' : ℝ → ℝ → ℝ} {x₀ δ a b : ℝ} (hδ : 0 < δ)
    (hF : ∀ x ∈ Icc (x₀ - δ) (x₀ + δ), Continuous (F x))
    (hF' : ContinuousOn (fun p : ℝ × ℝ => F' p.1 p.2) (Icc (x₀ - δ) (x₀ + δ) ×ˢ uIcc a b))
    (hF0 : Continuous (F' x₀))
    (hd : ∀ x ∈ Icc (x₀ - δ) (x₀ + δ), ∀ t, HasDerivAt (fun x => F x t) (F' x t) x) :
    HasDerivAt (fun x => ∫ t in a..b, F x t) (∫ t in a..b, F' x₀ t) x₀ := by
  obtain ⟨C, hC⟩ := (isCompact_Icc.prod isCompact_uIcc).exists_bound_of_continuousOn hF'
  have hx₀ : x₀ ∈ Icc (x₀ - δ) (x₀ + δ) := ⟨by linarith, by linarith⟩
  have hs : Icc (x₀ - δ) (x₀ + δ) ∈ nhds x₀ := Icc_mem_nhds (by linarith) (by linarith)
  refine (intervalIntegral.hasDerivAt_integral_of_dominated_loc_of_deriv_le (bound := fun _ => C) hs ?_ ?_ ?_ ?_ ?_ ?_).2
  · filter_upwards [hs] with x hx
    exact (hF x hx).aestronglyMeasurable
  · exact (hF x₀ hx₀).intervalIntegrable _ _
  · exact hF0.aestronglyMeasurable
  · refine MeasureTheory.ae_of_all _ fun t ht x hx => ?_
    exact hC (x, t) ⟨hx, uIoc_subset_uIcc ht⟩
  · exact continuous_const.intervalIntegrable _ _
  · exact MeasureTheory.ae_of_all _ fun t _ x hx => hd x hx t

/-- The squared distance is positive away from the filament. -/
theorem distSq_pos {Rc Zc R Z : ℝ} (hR : 0 < R) (hRc : 0 < Rc) (h : R ≠ Rc ∨ Z ≠ Zc) (φ : ℝ) :
    0 < (R - Rc * cos φ) ^ 2 + (Rc * sin φ) ^ 2 + (Z - Zc) ^ 2 := by
  rw [sourceDist_sq]
  have hc := cos_le_one φ
  have hpos : 0 < R * Rc := mul_pos hR hRc
  have h1 : 0 < (R - Rc) ^ 2 + (Z - Zc) ^ 2 := by
    rcases h with h | h
    · have := sq_pos_of_ne_zero (sub_ne_zero.mpr h); positivity
    · have := sq_pos_of_ne_zero (sub_ne_zero.mpr h); positivity
  nlinarith

theorem sourceDist_pos {Rc Zc R Z : ℝ} (hR : 0 < R) (hRc : 0 < Rc) (h : R ≠ Rc ∨ Z ≠ Zc) (φ : ℝ) :
    0 < sourceDist Rc Zc R Z φ := sqrt_pos.mpr (distSq_pos hR hRc h φ)

theorem unclipped_ne {Rc Zc R Z : ℝ} (hRc : 0 < Rc) (hu : Unclipped Rc Zc R Z) : R ≠ Rc ∨ Z ≠ Zc := by
  by_contra hcon
  push Not at hcon
  obtain ⟨rfl, rfl⟩ := hcon
  have h := hu.2
  rw [show 4 * R * R / ((R + R) ^ 2 + (Z - Z) ^ 2) = 1 by field_simp; ring] at h
  norm_num at h

/-- `∂ψ/∂Z = -R B_R`. -/
theorem flux_deriv_Z {Rc Zc R Z : ℝ} (hR : 0 < R) (hRc : 0 < Rc) (h : R ≠ Rc ∨ Z ≠ Zc) :
    HasDerivAt (fun Z => filamentFlux Rc Zc R Z) (-R * biotSavartR Rc Zc R Z) Z := by
  -- a neighbourhood of `Z` away from the filament
  obtain ⟨δ, hδ, hnb⟩ : ∃ δ : ℝ, 0 < δ ∧ ∀ z ∈ Icc (Z - δ) (Z + δ), R ≠ Rc ∨ z ≠ Zc := by
    rcases h with h | h
    · exact ⟨1, one_pos, fun _ _ => Or.inl h⟩
    · refine ⟨|Z - Zc| / 2, by have := abs_pos.mpr (sub_ne_zero.mpr h); positivity, fun z hz => Or.inr ?_⟩
      rintro rfl
      have := abs_pos.mpr (sub_ne_zero.mpr h)
      rcases abs_cases (Z - z) with ⟨e, _⟩ | ⟨e, _⟩ <;> rw [e] at hz this <;> [linarith [hz.1]; linarith [hz.2]]
  have key : HasDerivAt (fun Z => ∫ φ in (0 : ℝ)..(2 * π), Rc * cos φ / sourceDist Rc Zc R Z φ)
      (∫ φ in (0 : ℝ)..(2 * π), -(Rc * cos φ * (Z - Zc) / sourceDist Rc Zc R Z φ ^ 3)) Z := by
    refine hasDerivAt_integral_param (F := fun z φ => Rc * cos φ / sourceDist Rc Zc R z φ)
      (F' := fun z φ => -(Rc * cos φ * (z - Zc) / sourceDist Rc Zc R z φ ^ 3)) hδ ?_ ?_ ?_ ?_
    · intro z hz
      refine Continuous.div (by fun_prop) (by unfold sourceDist; fun_prop) fun φ => ?_
      exact (sourceDist_pos hR hRc (hnb z hz) φ).ne'
    · refine ContinuousOn.neg (ContinuousOn.div (by fun_prop) ?_ ?_)
      · unfold sourceDist
        exact Continuous.continuousOn (by fun_prop)
      · rintro ⟨z, φ⟩ ⟨hz, _⟩
        exact (pow_pos (sourceDist_pos hR hRc (hnb z hz) φ) 3).ne'
    · refine Continuous.neg (Continuous.div (by fun_prop) (by unfold sourceDist; fun_prop) fun φ => ?_)
      exact (pow_pos (sourceDist_pos hR hRc h φ) 3).ne'
    · intro z hz φ
      have hp := distSq_pos hR hRc (hnb z hz) φ
      have hsd := sourceDist_pos hR hRc (hnb z hz) φ
      have h1 : HasDerivAt (fun z => (R - Rc * cos φ) ^ 2 + (Rc * sin φ) ^ 2 + (z - Zc) ^ 2)
          (2 * (z - Zc)) z := by
        have := (((hasDerivAt_id z).sub_const Zc).pow 2).const_add ((R - Rc * cos φ) ^ 2 + (Rc * sin φ) ^ 2)
        simpa using this
      have h2 : HasDerivAt (fun z => sourceDist Rc Zc R z φ)
          (2 * (z - Zc) / (2 * sourceDist Rc Zc R z φ)) z := h1.sqrt hp.ne'
      have h3 := (hasDerivAt_const z (Rc * cos φ)).div h2 hsd.ne'
      refine h3.congr_deriv ?_
      field_simp
      ring
  have := (key.const_mul (mu0 / (4 * π))).const_mul R
  unfold filamentFlux biotSavartR
  refine this.congr_deriv ?_
  rw [intervalIntegral.integral_neg]
  ring

/-- Integration by parts over the closed filament. -/
theorem flux_by_parts {Rc Zc R Z : ℝ} (hR : 0 < R) (hRc : 0 < Rc) (h : R ≠ Rc ∨ Z ≠ Zc) :
    ∫ φ in (0 : ℝ)..(2 * π), (cos φ / sourceDist Rc Zc R Z φ - R * Rc * sin φ ^ 2 / sourceDist Rc Zc R Z φ ^ 3) = 0 := by
  have hcont : Continuous fun φ => sourceDist Rc Zc R Z φ := by unfold sourceDist; fun_prop
  have hd : ∀ φ ∈ uIcc (0 : ℝ) (2 * π), HasDerivAt (fun φ => sin φ / sourceDist Rc Zc R Z φ)
      (cos φ / sourceDist Rc Zc R Z φ - R * Rc * sin φ ^ 2 / sourceDist Rc Zc R Z φ ^ 3) φ := by
    intro φ _
    have hp := distSq_pos hR hRc h φ
    have hsd := sourceDist_pos hR hRc h φ
    have h1 : HasDerivAt (fun φ => (R - Rc * cos φ) ^ 2 + (Rc * sin φ) ^ 2 + (Z - Zc) ^ 2)
        (2 * R * Rc * sin φ) φ := by
      have e : (fun φ => (R - Rc * cos φ) ^ 2 + (Rc * sin φ) ^ 2 + (Z - Zc) ^ 2) =
          fun φ => R ^ 2 + Rc ^ 2 + (Z - Zc) ^ 2 - 2 * R * Rc * cos φ := by
        funext φ; exact sourceDist_sq Rc Zc R Z φ
      rw [e]
      have := ((hasDerivAt_cos φ).const_mul (2 * R * Rc)).const_sub (R ^ 2 + Rc ^ 2 + (Z - Zc) ^ 2)
      exact this.congr_deriv (by ring)
    have h2 : HasDerivAt (fun φ => sourceDist Rc Zc R Z φ)
        (2 * R * Rc * sin φ / (2 * sourceDist Rc Zc R Z φ)) φ := h1.sqrt hp.ne'
    have h3 := (hasDerivAt_sin φ).div h2 hsd.ne'
    refine h3.congr_deriv ?_
    field_simp
  rw [intervalIntegral.integral_eq_sub_of_hasDerivAt hd]
  · simp
  · refine Continuous.intervalIntegrable (Continuous.sub ?_ ?_) _ _
    · exact continuous_cos.div hcont fun φ => (sourceDist_pos hR hRc h φ).ne'
    · exact Continuous.div (by fun_prop) (hcont.pow 3) fun φ => (pow_pos (sourceDist_pos hR hRc h φ) 3).ne'

/-- `∂ψ/∂R = R B_Z`. -/
theorem flux_deriv_R {Rc Zc R Z : ℝ} (hR : 0 < R) (hRc : 0 < Rc) (h : R ≠ Rc ∨ Z ≠ Zc) :
    HasDerivAt (fun R => filamentFlux Rc Zc R Z) (R * biotSavartZ Rc Zc R Z) R := by
  obtain ⟨δ, hδ, hnb⟩ : ∃ δ : ℝ, 0 < δ ∧ ∀ r ∈ Icc (R - δ) (R + δ), 0 < r ∧ (r ≠ Rc ∨ Z ≠ Zc) := by
    rcases h with h | h
    · have ha := abs_pos.mpr (sub_ne_zero.mpr h)
      refine ⟨min (R / 2) (|R - Rc| / 2), by positivity, fun r hr => ⟨?_, Or.inl ?_⟩⟩
      · have := min_le_left (R / 2) (|R - Rc| / 2)
        linarith [hr.1]
      · rintro rfl
        have := min_le_right (R / 2) (|R - r| / 2)
        rcases abs_cases (R - r) with ⟨e, _⟩ | ⟨e, _⟩ <;> rw [e] at hr this ha <;> [linarith [hr.1]; linarith [hr.2]]
    · exact ⟨R / 2, by positivity, fun r hr => ⟨by linarith [hr.1], Or.inr h⟩⟩
  have hcont : Continuous fun φ => sourceDist Rc Zc R Z φ := by unfold sourceDist; fun_prop
  have key : HasDerivAt (fun R => ∫ φ in (0 : ℝ)..(2 * π), Rc * cos φ / sourceDist Rc Zc R Z φ)
      (∫ φ in (0 : ℝ)..(2 * π), -(Rc * cos φ * (R - Rc * cos φ) / sourceDist Rc Zc R Z φ ^ 3)) R := by
    refine hasDerivAt_integral_param (F := fun r φ => Rc * cos φ / sourceDist Rc Zc r Z φ)
      (F' := fun r φ => -(Rc * cos φ * (r - Rc * cos φ) / sourceDist Rc Zc r Z φ ^ 3)) hδ ?_ ?_ ?_ ?_
    · intro r hr
      refine Continuous.div (by fun_prop) (by unfold sourceDist; fun_prop) fun φ => ?_
      exact (sourceDist_pos (hnb r hr).1 hRc (hnb r hr).2 φ).ne'
    · refine ContinuousOn.neg (ContinuousOn.div (by fun_prop) ?_ ?_)
      · unfold sourceDist
        exact Continuous.continuousOn (by fun_prop)
      · rintro ⟨r, φ⟩ ⟨hr, _⟩
        exact (pow_pos (sourceDist_pos (hnb r hr).1 hRc (hnb r hr).2 φ) 3).ne'
    · refine Continuous.neg (Continuous.div (by fun_prop) (by unfold sourceDist; fun_prop) fun φ => ?_)
      exact (pow_pos (sourceDist_pos hR hRc h φ) 3).ne'
    · intro r hr φ
      have hp := distSq_pos (hnb r hr).1 hRc (hnb r hr).2 φ
      have hsd := sourceDist_pos (hnb r hr).1 hRc (hnb r hr).2 φ
      have h1 : HasDerivAt (fun r => (r - Rc * cos φ) ^ 2 + (Rc * sin φ) ^ 2 + (Z - Zc) ^ 2)
          (2 * (r - Rc * cos φ)) r := by
        have := ((((hasDerivAt_id r).sub_const (Rc * cos φ)).pow 2).add_const ((Rc * sin φ) ^ 2)).add_const
          ((Z - Zc) ^ 2)
        simpa using this
      have h2 : HasDerivAt (fun r => sourceDist Rc Zc r Z φ)
          (2 * (r - Rc * cos φ) / (2 * sourceDist Rc Zc r Z φ)) r := h1.sqrt hp.ne'
      have h3 := (hasDerivAt_const r (Rc * cos φ)).div h2 hsd.ne'
      refine h3.congr_deriv ?_
      field_simp
      ring
  have hall := (hasDerivAt_id R).mul (key.const_mul (mu0 / (4 * π)))
  unfold filamentFlux biotSavartZ
  refine hall.congr_deriv ?_
  have hparts := flux_by_parts hR hRc h
  have i1 : IntervalIntegrable (fun φ => cos φ / sourceDist Rc Zc R Z φ) MeasureTheory.volume 0 (2 * π) :=
    (continuous_cos.div hcont fun φ => (sourceDist_pos hR hRc h φ).ne').intervalIntegrable _ _
  have i2 : IntervalIntegrable (fun φ => R * Rc * sin φ ^ 2 / sourceDist Rc Zc R Z φ ^ 3) MeasureTheory.volume 0 (2 * π) :=
    (Continuous.div (by fun_prop) (hcont.pow 3) fun φ => (pow_pos (sourceDist_pos hR hRc h φ) 3).ne').intervalIntegrable _ _
  have i3 : IntervalIntegrable (fun φ => Rc * cos φ * (R - Rc * cos φ) / sourceDist Rc Zc R Z φ ^ 3)
      MeasureTheory.volume 0 (2 * π) :=
    (Continuous.div (by fun_prop) (hcont.pow 3) fun φ => (pow_pos (sourceDist_pos hR hRc h φ) 3).ne').intervalIntegrable _ _
  rw [intervalIntegral.integral_sub i1 i2, sub_eq_zero] at hparts
  have e1 : (∫ φ in (0 : ℝ)..(2 * π), Rc * cos φ / sourceDist Rc Zc R Z φ) =
      Rc * ∫ φ in (0 : ℝ)..(2 * π), R * Rc * sin φ ^ 2 / sourceDist Rc Zc R Z φ ^ 3 := by
    rw [← hparts, ← intervalIntegral.integral_const_mul]
    exact integral_congr fun φ _ => by simp only [mul_div_assoc]
  have e2 : (∫ φ in (0 : ℝ)..(2 * π),
      ((-(Rc * sin φ)) * (-(Rc * sin φ)) - Rc * cos φ * (R - Rc * cos φ)) / sourceDist Rc Zc R Z φ ^ 3) * R =
      (Rc * ∫ φ in (0 : ℝ)..(2 * π), R * Rc * sin φ ^ 2 / sourceDist Rc Zc R Z φ ^ 3) -
      R * ∫ φ in (0 : ℝ)..(2 * π), Rc * cos φ * (R - Rc * cos φ) / sourceDist Rc Zc R Z φ ^ 3 := by
    rw [← intervalIntegral.integral_const_mul, ← intervalIntegral.integral_const_mul, ← intervalIntegral.integral_sub
      (i2.const_mul _) (i3.const_mul _), ← intervalIntegral.integral_mul_const]
    refine integral_congr fun φ _ => ?_
    ring
  simp only [id_eq, one_mul]
  rw [intervalIntegral.integral_neg, e1]
  linear_combination -(mu0 / (4 * π)) * e2

end FreeGS

